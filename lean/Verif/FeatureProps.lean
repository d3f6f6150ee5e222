import Verif.PipelineProps3
import Verif.WriterProps2

/-! C88 (exact values), C173, C174: the tolerance of short and even melodies, `as_note_seq`, and the velocities in the
feature vectors of a graph. -/

namespace NGC

open Spec

/-! ## C88 -/

theorem diffs_length (l : List ℚ) : (diffs l).length = l.length - 1 := by
  induction l with
  | nil => rfl
  | cons a l ih =>
    cases l with
    | nil => rfl
    | cons b l => simp only [diffs, List.length_cons] at *; omega

/-- C88: a track of at most two notes, and a drum track, has tolerance 0. -/
theorem C88_few_notes (s : MSeq) (q : ℚ) (h : s.notes.length ≤ 2 ∨ s.instr.isDrum = true) : computeTolerance s q = 0 := by
  unfold computeTolerance
  dsimp only
  rw [if_pos]
  unfold timeDifferences
  rw [diffs_length, (sortByKey_perm _ _).length_eq, List.length_map]
  rcases h with h | h
  · have := List.length_filter_le (fun _ : Note => !s.instr.isDrum && decide (0 < s.notes.length)) s.notes
    omega
  · rw [h]
    simp

/-- C88: a melody of at least three notes whose start times have equal distances has that distance as its tolerance,
whatever the percentile. -/
theorem C88_even (s : MSeq) (q g t₀ : ℚ) (h0 : 0 ≤ q) (h1 : q ≤ 100) (hd : s.instr.isDrum = false) (hl : 3 ≤ s.notes.length)
    (hg : 0 ≤ g) (he : s.notes.map Note.start = (List.range s.notes.length).map (fun i : Nat => t₀ + i * g)) :
    computeTolerance s q = g := by
  have hs : sortByKey id (s.notes.map Note.start) = s.notes.map Note.start := by
    apply sortByKey_of_sorted
    rw [he, List.pairwise_map]
    refine List.pairwise_lt_range.imp ?_
    intro a b hab
    have : (a : ℚ) ≤ b := by exact_mod_cast hab.le
    simp only [id]
    nlinarith
  have hf : s.notes.filter (fun _ => !s.instr.isDrum && decide (0 < s.notes.length)) = s.notes := by
    rw [List.filter_eq_self]
    intro n hn
    simp only [hd, Bool.not_false, Bool.true_and, decide_eq_true_eq]
    omega
  have gen : ∀ (n k : Nat), ∀ x ∈ diffs ((List.range' k n).map (fun i : Nat => t₀ + i * g)), x = g := by
    intro n
    induction n with
    | zero => intro k x hx; simp [diffs] at hx
    | succ n ih =>
      intro k x hx
      cases n with
      | zero => simp [diffs] at hx
      | succ n =>
        rw [List.range'_succ, List.range'_succ, List.map_cons, List.map_cons, diffs] at hx
        rcases List.mem_cons.1 hx with rfl | hx
        · push_cast; ring
        · refine ih (k + 1) x ?_
          rw [List.range'_succ, List.map_cons]
          exact hx
  have hall : ∀ x ∈ timeDifferences s, x = g := by
    unfold timeDifferences
    rw [hf, hs, he, List.range_eq_range']
    exact gen _ 0
  have hlen : (timeDifferences s).length = s.notes.length - 1 := by
    unfold timeDifferences
    rw [hf, diffs_length, (sortByKey_perm _ _).length_eq, List.length_map]
  unfold computeTolerance
  dsimp only
  rw [if_neg (by omega)]
  have hne : timeDifferences s ≠ [] := by
    intro h
    rw [h] at hlen
    simp at hlen
    omega
  have := percentile_between _ hne q h0 h1 g g (fun x hx => by rw [hall x hx]; exact ⟨le_refl _, le_refl _⟩)
  exact le_antisymm this.2 this.1

example : exWhole.instr.isDrum = false ∧ 3 ≤ exWhole.notes.length ∧
    exWhole.notes.map Note.start = (List.range exWhole.notes.length).map (fun i : Nat => 0 + i * 1) := by decide +kernel

/-! ## C173 -/

/-- **C173.** `as_note_seq` returns the pitches of all visible notes in order of start time, notes that start together in
stored order; the notes are afterwards stored in that order, and nothing else of the sequence changes. -/
theorem C173_as_note_seq (s : MSeq) :
    ∃ l : List Note, l.Perm s.notes ∧ l.Pairwise (fun a b => a.start ≤ b.start) ∧
      (∀ t : ℚ, l.filter (fun n => decide (n.start = t)) = s.notes.filter (fun n => decide (n.start = t))) ∧
      s.asNoteSeq.2 = l.map Note.pitch ∧ s.asNoteSeq.1.notes = l ∧
      s.asNoteSeq.1 = s.setVisible l := by
  refine ⟨sortByKey Note.start s.notes, sortByKey_perm _ _, sortByKey_sorted _ _, fun t => ?_, rfl, ?_, rfl⟩
  · rw [sortByKey_filter]
    apply sortByKey_of_sorted
    rw [List.pairwise_iff_forall_sublist]
    intro a b hab
    have ha := (List.mem_filter.1 (hab.subset (by simp : a ∈ [a, b]))).2
    have hb := (List.mem_filter.1 (hab.subset (by simp : b ∈ [a, b]))).2
    simp only [decide_eq_true_eq] at ha hb
    rw [ha, hb]
  · simp [MSeq.asNoteSeq]

example : (MSeq.mk' [{ exNote with pitch := 64, start := 1 }, { exNote with pitch := 60, start := 0 },
    { exNote with pitch := 62, start := 1 }] { num := 0, name := "Piano", isDrum := false }).asNoteSeq.2 = [60, 64, 62] := by decide +kernel

/-! ## C174 -/

namespace Spec

/-- `v` is the velocity of the loudest of the notes of pitch `p`. -/
def IsLoudest (notes : List Note) (p : Int) (v : ℚ) : Prop :=
  (∃ n ∈ notes, n.pitch = p ∧ (n.velocity : ℚ) = v) ∧ ∀ n ∈ notes, n.pitch = p → (n.velocity : ℚ) ≤ v

end Spec

theorem groupVelocities_loudest (env : PyEnv) (notes : List Note) (c : Finset Int) (hc : ∀ p ∈ env.iter c, ∃ n ∈ notes, n.pitch = p) :
    List.Forall₂ (IsLoudest notes) (env.iter c) (groupVelocities env notes c) := by
  unfold groupVelocities
  rw [List.forall₂_map_right_iff, List.forall₂_same]
  intro p hp
  obtain ⟨n, hn, hnp⟩ := hc p hp
  have hne : (notes.filter (fun n => decide (n.pitch = p))).map (fun n => (n.velocity : ℚ)) ≠ [] := by
    intro h
    have hm : n ∈ notes.filter (fun n => decide (n.pitch = p)) := List.mem_filter.2 ⟨hn, by simpa using hnp⟩
    rw [List.map_eq_nil_iff.1 h] at hm
    cases hm
  constructor
  · obtain ⟨m, hm, he⟩ := List.mem_map.1 (maxDefault_mem 0 _ hne)
    have hm' := List.mem_filter.1 hm
    exact ⟨m, hm'.1, by simpa using hm'.2, he⟩
  · intro m hm hmp
    exact maxDefault_ge 0 _ _ (List.mem_map.2 ⟨m, List.mem_filter.2 ⟨hm, by simpa using hmp⟩, rfl⟩)

theorem group_of_key (env : PyEnv) (s : MSeq) (tol : ℚ) (fs auto : Bool) (d : List (Int × List Note)) (m : Nat)
    (h : computeData env s tol fs auto = .ok (d, m)) : ∀ ns ∈ orderedGroups d, ns ≠ [] ∧ ∃ key : Int, ns = (s.notes.filter sounding).filter
      (fun n => decide (groupKey env (tolInForce s tol auto) auto n = key)) := by
  have hbase : ∃ d0, computeData env s tol false auto = .ok (d0, m) ∧ ∀ p ∈ d, p ∈ d0 := by
    cases fs with
    | false => exact ⟨d, h, fun p hp => hp⟩
    | true =>
      cases hc : computeData env s tol false auto with
      | error e =>
        exfalso
        obtain ⟨e', he'⟩ := (C45_raises env s tol true auto).2 ((C45_raises env s tol false auto).1 ⟨e, hc⟩)
        rw [h] at he'; cases he'
      | ok r =>
        obtain ⟨d0, m0⟩ := r
        have := C45_filter_single env s tol auto d0 m0 hc
        rw [h] at this
        cases this
        exact ⟨d0, rfl, fun p hp => (List.mem_filter.1 hp).1⟩
  obtain ⟨d0, hd0, hsub⟩ := hbase
  obtain ⟨_, hp, _⟩ := C45_partition env s tol auto d0 m hd0
  intro ns hns
  unfold orderedGroups at hns
  obtain ⟨⟨k, ns'⟩, hm, rfl⟩ := List.mem_map.1 hns
  obtain ⟨h1, h2⟩ := hp k ns' (hsub _ ((sortByKey_perm _ d).mem_iff.1 hm))
  exact ⟨h1, k, h2⟩

/-- **C174.** With velocities and tensor features, every node of a freshly built graph carries two rows of the requested
size. The first lists the pitches of a chord with the node's number; the second has below each pitch the rescaled
velocity of the loudest note of that pitch in one time group of the track: one monotone rescaling per chord, with
whole values 0 to 127. The rest of both rows is zero. -/
theorem C174_velocities (env : PyEnv) (henv : env.IterOk) (t : Tables) (s : MSeq) (o : BuildOpts) (t' : Tables) (g' : MGraph)
    (hv : o.velocity = true) (hty : o.ty = .tensor) (h : buildSequence env t s o none = .ok (t', g')) (k : Int) (a : NodeAttr)
    (ha : dget g'.nodes k = some a) :
    ∃ (key : Int) (group : List Note) (c : Finset Int) (loud : List ℚ) (f : ℚ → ℚ),
      group = (s.notes.filter sounding).filter (fun n => decide (groupKey env (computeTolerance s) true n = key)) ∧ c.Nonempty ∧ c.card ≤ o.size.toNat ∧
      env.hashSet c = k ∧ List.Forall₂ (IsLoudest group) (env.iter c) loud ∧
      (∀ x y, x ≤ y → f x ≤ f y) ∧ (∀ x, 0 ≤ f x ∧ f x ≤ 127 ∧ ∃ z : Int, f x = z) ∧
      a.attr = some (.mat [(env.iter c).map (fun p : Int => (p : ℚ)) ++ List.replicate (o.size.toNat - c.card) 0,
        loud.map f ++ List.replicate (o.size.toNat - c.card) 0]) := by
  obtain ⟨ho, data, m, hd, _⟩ := buildSequence_fresh env t s o t' g' h
  obtain ⟨_, hn, _⟩ := build_inv env t s o t' g' data m h hd
  obtain ⟨_, _, ⟨ns, c⟩, hp, hk, vel, x, hx, _, hvel, hten⟩ := hn k a ha
  obtain ⟨v, rfl, hres⟩ := hvel hv
  obtain ⟨ns', hns, hc⟩ := List.mem_flatMap.1 hp
  obtain ⟨c', hc, he⟩ := List.mem_map.1 hc
  cases he
  obtain ⟨hne, key, hmem⟩ := group_of_key env s o.tol o.filterSingle true data m hd ns hns
  have hsize : 0 < o.size.toNat := by
    unfold BuildOpts.ok at ho
    simp only [Bool.and_eq_true, decide_eq_true_eq] at ho
    omega
  obtain ⟨h1, _, h3, _⟩ := C54_split env henv o.size.toNat hsize ns hne
  obtain ⟨hcn, hcc⟩ := h1 c hc
  have hlen : (env.iter c).length = c.card := by
    obtain ⟨hnd, hm⟩ := henv c
    rw [← List.toFinset_card_of_nodup hnd]
    congr 1
    ext x
    rw [List.mem_toFinset]
    exact hm x
  have hl := groupVelocities_loudest env ns c (fun p hp => (h3 p).1 ⟨c, hc, ((henv c).2 p).1 hp⟩)
  have hgl : (groupVelocities env ns c).length = c.card := by rw [← hl.length_eq, hlen]
  have hgne : groupVelocities env ns c ≠ [] := by
    intro h0
    rw [h0] at hgl
    have := Finset.card_pos.2 hcn
    simp at hgl
    omega
  obtain ⟨f, hf, hf1, hf2⟩ := (C46_rescale (groupVelocities env ns c) 32 127 (by norm_num) (by norm_num) (by norm_num)).2 hgne
  have hf' : rescaleVelocities (groupVelocities env ns c) = .ok ((groupVelocities env ns c).map f) := by
    have : rescaleVelocities (groupVelocities env ns c) = rescaleVelocities (groupVelocities env ns c) ((32 : Int) : ℚ) ((127 : Int) : ℚ) := by norm_num
    rw [this]; exact hf
  rw [hf'] at hres
  cases hres
  refine ⟨key, ns, c, groupVelocities env ns c, f, hmem, hcn, hcc, hk, hl, hf1, hf2, ?_⟩
  rw [hx]
  rw [hty] at hten
  unfold createTensor at hten
  dsimp only at hten
  rw [if_neg (by rw [List.length_map, hgl]; omega)] at hten
  split_ifs at hten
  have := Except.ok.inj hten
  rw [← this]
  congr 2
  unfold padTo
  rw [List.take_of_length_le (by rw [List.length_map, hlen]; exact hcc), List.length_map, List.length_map, hgl, hlen]

/-- A node of a chord with two notes of one pitch. -/
def exLoud : MSeq := MSeq.mk'
  [{ exNote with pitch := 60, velocity := 40, start := 0, stop := 1 }, { exNote with pitch := 60, velocity := 90, start := 0, stop := 1 },
   { exNote with pitch := 64, velocity := 50, start := 0, stop := 1 }] { num := 0, name := "Piano", isDrum := false }

example : (buildSequence exEnv Tables.empty exLoud { velocity := true, size := 3 } none).map (fun r => r.2.nodes.map (fun p => p.2.attr)) =
    .ok [some (.mat [[60, 64, 0], [127, 32, 0]])] := by decide +kernel

end NGC
