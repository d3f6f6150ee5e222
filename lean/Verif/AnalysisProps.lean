import Verif.Analysis
import Mathlib.Algebra.BigOperators.Intervals
import Mathlib.Data.List.Chain
import Mathlib.Tactic

/-!
C135: piano roll, chroma, pitch class histogram and transitions of a whole piece.
-/

namespace NGC

namespace Spec

/-- One voice at a time: every note lasts at least `thresh`, starts no earlier than the one before it ends, and less than `thresh` after that. -/
def Melody (thresh : ℚ) (l : List PcNote) : Prop :=
  (∀ n ∈ l, thresh ≤ n.stop - n.start) ∧ l.IsChain (fun a b => a.stop ≤ b.start ∧ b.start - a.stop < thresh)

/-- The notes that are not played by drums. -/
def Melodic (ins : List PcIns) (n : PcNote) : Prop := ∃ i ∈ ins, i.isDrum = false ∧ n ∈ i.notes

end Spec

/-! ### piano roll and chroma -/

private theorem rollMax_ge (l : List Nat) : ∀ a, a ≤ l.foldl max a ∧ ∀ x ∈ l, x ≤ l.foldl max a := by
  induction l with
  | nil => intro a; simp
  | cons b t ih =>
      intro a
      obtain ⟨h1, h2⟩ := ih (max a b)
      refine ⟨le_trans (le_max_left _ _) h1, ?_⟩
      intro x hx
      rcases List.mem_cons.mp hx with rfl | hx
      · exact le_trans (le_max_right _ _) h1
      · exact h2 x hx

private theorem rollMax_mem (l : List Nat) : ∀ a, l.foldl max a = a ∨ l.foldl max a ∈ l := by
  induction l with
  | nil => intro a; simp
  | cons b t ih =>
      intro a
      rcases ih (max a b) with h | h
      · rcases le_total a b with hab | hab
        · right; rw [List.foldl_cons, h, max_eq_right hab]; exact List.mem_cons_self
        · left; rw [List.foldl_cons, h, max_eq_left hab]
      · right; exact List.mem_cons_of_mem _ h

/-- **C135, piano roll.** Every entry is the sum of the entries of those instruments whose rolls are long enough; the roll is as long as the longest of them, and empty without
instruments. -/
theorem C135_roll (rolls : List PianoRoll) :
    (∀ p t, (pianoRoll rolls).at_ p t = ((rolls.filter (fun r => decide (t < r.cols))).map (fun r => r.at_ p t)).sum) ∧
    (∀ r ∈ rolls, r.cols ≤ (pianoRoll rolls).cols) ∧
    (rolls ≠ [] → ∃ r ∈ rolls, (pianoRoll rolls).cols = r.cols) ∧ (pianoRoll []).cols = 0 := by
  refine ⟨?_, ?_, ?_, rfl⟩
  · intro p t
    have hs : ∀ l : List PianoRoll, (l.map (fun q => if t < q.cols then q.at_ p t else 0)).sum
        = ((l.filter (fun r => decide (t < r.cols))).map (fun r => r.at_ p t)).sum := by
      intro l
      induction l with
      | nil => rfl
      | cons a l ih =>
          by_cases h : t < a.cols
          · simp [List.filter_cons, h, ih]
          · simp only [List.map_cons, List.sum_cons, List.filter_cons, if_neg h, decide_eq_true_eq, zero_add]; exact ih
    cases rolls with
    | nil => rfl
    | cons r rs => exact hs (r :: rs)
  · intro r hr
    cases rolls with
    | nil => simp at hr
    | cons a rs =>
        obtain ⟨h1, h2⟩ := rollMax_ge (rs.map (·.cols)) a.cols
        rcases List.mem_cons.mp hr with rfl | hr
        · exact h1
        · exact h2 _ (List.mem_map_of_mem hr)
  · intro hne
    cases rolls with
    | nil => exact absurd rfl hne
    | cons a rs =>
        rcases rollMax_mem (rs.map (·.cols)) a.cols with h | h
        · exact ⟨a, List.mem_cons_self, h⟩
        · obtain ⟨r, hr, he⟩ := List.mem_map.mp h
          exact ⟨r, List.mem_cons_of_mem _ hr, he.symm⟩

private theorem chroma_eq (rolls : List PianoRoll) (k t : Nat) (hk : k < 12) :
    chroma rolls k t = ∑ p ∈ Finset.range 128, if p % 12 = k then (pianoRoll rolls).at_ p t else 0 := by
  unfold chroma
  have hf : octaveRows k = (List.range 128).filter (fun p => decide (p % 12 = k)) := by
    unfold octaveRows
    apply List.filter_congr
    intro p _
    apply decide_eq_decide.mpr
    omega
  rw [hf, ← Finset.sum_filter, ← List.sum_toFinset _ (List.nodup_range.filter _)]
  apply Finset.sum_congr _ (fun _ _ => rfl)
  ext p
  simp

/-- **C135, chroma.** Row `k` of the chroma is the sum of the rows of the piano roll with pitch class `k`; together the twelve rows contain all of the roll. Moving everything an
octave up does not change it. -/
theorem C135_chroma (rolls : List PianoRoll) (t : Nat) :
    (∀ k < 12, chroma rolls k t = ∑ p ∈ (Finset.range 128).filter (fun p => p % 12 = k), (pianoRoll rolls).at_ p t) ∧
    ∑ k ∈ Finset.range 12, chroma rolls k t = ∑ p ∈ Finset.range 128, (pianoRoll rolls).at_ p t ∧
    ∀ rolls', (∀ p < 116, (pianoRoll rolls').at_ (p + 12) t = (pianoRoll rolls).at_ p t) → (∀ p < 12, (pianoRoll rolls').at_ p t = 0) →
      (∀ p < 128, 116 ≤ p → (pianoRoll rolls).at_ p t = 0) → ∀ k < 12, chroma rolls' k t = chroma rolls k t := by
  refine ⟨?_, ?_, ?_⟩
  · intro k hk
    rw [chroma_eq rolls k t hk, Finset.sum_filter]
  · rw [Finset.sum_congr rfl (fun k hk => chroma_eq rolls k t (Finset.mem_range.mp hk)), Finset.sum_comm]
    apply Finset.sum_congr rfl
    intro p _
    rw [Finset.sum_ite_eq, if_pos (Finset.mem_range.mpr (Nat.mod_lt _ (by norm_num)))]
  · intro rolls' h1 h2 h3 k hk
    rw [chroma_eq rolls' k t hk, chroma_eq rolls k t hk]
    rw [show (128 : Nat) = 12 + 116 from rfl, Finset.sum_range_add, show (12 + 116 : Nat) = 116 + 12 from rfl, Finset.sum_range_add]
    have e1 : ∑ x ∈ Finset.range 12, (if x % 12 = k then (pianoRoll rolls').at_ x t else 0) = 0 := by
      apply Finset.sum_eq_zero
      intro x hx
      rw [h2 x (Finset.mem_range.mp hx), ite_self]
    have e2 : ∑ x ∈ Finset.range 12, (if (116 + x) % 12 = k then (pianoRoll rolls).at_ (116 + x) t else 0) = 0 := by
      apply Finset.sum_eq_zero
      intro x hx
      have := Finset.mem_range.mp hx
      rw [h3 (116 + x) (by omega) (by omega), ite_self]
    rw [e1, e2, zero_add, add_zero]
    apply Finset.sum_congr rfl
    intro x hx
    rw [Nat.add_comm 12 x, h1 x (Finset.mem_range.mp hx), Nat.add_mod_right]

/-! ### histogram -/

private theorem cls_fin (n : PcNote) : ∃ k : Fin 12, n.cls = (k : Int) ∧ ∀ j : Fin 12, n.cls = (j : Int) → j = k := by
  have h1 : 0 ≤ n.cls := Int.emod_nonneg _ (by norm_num)
  have h2 : n.cls < 12 := Int.emod_lt_of_pos _ (by norm_num)
  refine ⟨⟨n.cls.toNat, by omega⟩, ?_, ?_⟩
  · simp only; omega
  · intro j hj
    apply Fin.ext
    simp only
    omega

private theorem filter_sum_fin (w : PcNote → ℚ) (l : List PcNote) :
    ∑ k : Fin 12, ((l.filter (fun n => decide (n.cls = (k : Int)))).map w).sum = (l.map w).sum := by
  induction l with
  | nil => simp
  | cons n l ih =>
      obtain ⟨k, hk, hu⟩ := cls_fin n
      have : ∀ j : Fin 12, (((n :: l).filter (fun n => decide (n.cls = (j : Int)))).map w).sum
          = (if j = k then w n else 0) + ((l.filter (fun n => decide (n.cls = (j : Int)))).map w).sum := by
        intro j
        by_cases hj : j = k
        · subst hj; rw [List.filter_cons_of_pos (by simpa using hk)]; simp
        · rw [List.filter_cons_of_neg (by simpa using fun h => hj (hu j h)), if_neg hj, zero_add]
      rw [Finset.sum_congr rfl (fun j _ => this j), Finset.sum_add_distrib, ih]
      simp

/-- The notes an instrument contributes. -/
private def pcNotes (i : PcIns) : List PcNote := if i.isDrum then [] else i.notes

private theorem hist_eq (d v : Bool) (i : PcIns) (k : Fin 12) :
    i.histogram d v k = (((pcNotes i).filter (fun n => decide (n.cls = (k : Int)))).map (PcNote.weight d v)).sum := by
  unfold PcIns.histogram pcNotes
  split <;> rfl

private theorem raw_eq (d v : Bool) (ins : List PcIns) (k : Fin 12) :
    pcHistogram d v false ins k = (((ins.flatMap pcNotes).filter (fun n => decide (n.cls = (k : Int)))).map (PcNote.weight d v)).sum := by
  show (ins.map (fun i => i.histogram d v k)).sum = _
  induction ins with
  | nil => rfl
  | cons i t ih => rw [List.map_cons, List.sum_cons, ih, hist_eq, List.flatMap_cons, List.filter_append, List.map_append, List.sum_append]

private theorem norm_eq (d v : Bool) (ins : List PcIns) (k : Fin 12) :
    pcHistogram d v true ins k = pcHistogram d v false ins k /
      ((∑ j, pcHistogram d v false ins j) + (if ∑ j, pcHistogram d v false ins j = 0 then 1 else 0)) := rfl

private theorem total_eq (d v : Bool) (ins : List PcIns) :
    ∑ k, pcHistogram d v false ins k = ((ins.flatMap pcNotes).map (PcNote.weight d v)).sum := by
  rw [Finset.sum_congr rfl (fun k _ => raw_eq d v ins k)]
  exact filter_sum_fin _ _

private theorem pcNotes_flat (ins : List PcIns) :
    ins.flatMap pcNotes = (ins.filter (fun i => !i.isDrum)).flatMap (·.notes) := by
  induction ins with
  | nil => rfl
  | cons i t ih =>
      rw [List.flatMap_cons, ih]
      unfold pcNotes
      cases h : i.isDrum <;> simp [h]

private theorem mem_pcNotes (ins : List PcIns) (n : PcNote) : n ∈ ins.flatMap pcNotes ↔ Spec.Melodic ins n := by
  rw [pcNotes_flat]
  simp [Spec.Melodic, and_assoc]

/-- **C135, histogram.** Every bin is the sum of the weights of the notes of its pitch class of all instruments but drums, and all bins together the sum of all these weights. -/
theorem C135_histogram (useDur useVel : Bool) (ins : List PcIns) :
    (∀ k, pcHistogram useDur useVel false ins k =
      ((((ins.filter (fun i => !i.isDrum)).flatMap (·.notes)).filter (fun n => decide (n.pitch % 12 = (k : Int)))).map
        (fun n => (if useDur then n.stop - n.start else 1) * (if useVel then n.velocity else 1))).sum) ∧
    ∑ k, pcHistogram useDur useVel false ins k = (((ins.filter (fun i => !i.isDrum)).flatMap (·.notes)).map
        (fun n => (if useDur then n.stop - n.start else 1) * (if useVel then n.velocity else 1))).sum := by
  constructor
  · intro k
    rw [raw_eq, pcNotes_flat]
    rfl
  · rw [total_eq, pcNotes_flat]
    rfl

/-- **C135, normalised histogram.** If no weight is negative, the bins are shares: between 0 and 1, in the proportions of the weights and adding up to 1, or all of them 0 if all
weights are 0. -/
theorem C135_normalised (useDur useVel : Bool) (ins : List PcIns)
    (hn : ∀ n, Spec.Melodic ins n → (useDur = true → n.start ≤ n.stop) ∧ (useVel = true → 0 ≤ n.velocity)) :
    (∀ k, 0 ≤ pcHistogram useDur useVel true ins k ∧ pcHistogram useDur useVel true ins k ≤ 1) ∧
    (∀ j k, pcHistogram useDur useVel true ins j * pcHistogram useDur useVel false ins k =
      pcHistogram useDur useVel true ins k * pcHistogram useDur useVel false ins j) ∧
    ((∃ k, pcHistogram useDur useVel false ins k ≠ 0) → ∑ k, pcHistogram useDur useVel true ins k = 1) ∧
    ((∀ k, pcHistogram useDur useVel false ins k = 0) → ∀ k, pcHistogram useDur useVel true ins k = 0) := by
  have h0 : ∀ k, 0 ≤ pcHistogram useDur useVel false ins k := by
    intro k
    rw [raw_eq]
    apply List.sum_nonneg
    intro x hx
    obtain ⟨n, hn', rfl⟩ := List.mem_map.mp hx
    obtain ⟨h1, h2⟩ := hn n ((mem_pcNotes ins n).mp (List.mem_filter.mp hn').1)
    unfold PcNote.weight
    apply mul_nonneg
    · split
      · next h => have := h1 h; linarith
      · norm_num
    · split
      · next h => exact h2 h
      · norm_num
  have hle : ∀ k, pcHistogram useDur useVel false ins k ≤ ∑ j, pcHistogram useDur useVel false ins j := fun k =>
    Finset.single_le_sum (f := fun j => pcHistogram useDur useVel false ins j) (fun j _ => h0 j) (Finset.mem_univ k)
  have hsum : 0 ≤ ∑ j, pcHistogram useDur useVel false ins j := Finset.sum_nonneg (fun j _ => h0 j)
  refine ⟨?_, ?_, ?_, ?_⟩
  · intro k
    rw [norm_eq]
    split
    · next h =>
        have : pcHistogram useDur useVel false ins k = 0 := le_antisymm (h ▸ hle k) (h0 k)
        rw [this, zero_div]; norm_num
    · next h =>
        rw [add_zero]
        have hp : 0 < ∑ j, pcHistogram useDur useVel false ins j := lt_of_le_of_ne hsum (Ne.symm h)
        exact ⟨div_nonneg (h0 k) hsum, (div_le_one hp).mpr (hle k)⟩
  · intro j k
    rw [norm_eq, norm_eq]
    ring
  · rintro ⟨k, hk⟩
    have hp : ∑ j, pcHistogram useDur useVel false ins j ≠ 0 := by
      have : 0 < pcHistogram useDur useVel false ins k := lt_of_le_of_ne (h0 k) (Ne.symm hk)
      exact ne_of_gt (lt_of_lt_of_le this (hle k))
    rw [Finset.sum_congr rfl (fun k _ => norm_eq useDur useVel ins k), ← Finset.sum_div, if_neg hp, add_zero, div_self hp]
  · intro h k
    rw [norm_eq, h k, zero_div]

/-- All notes `d` semitones higher. -/
def Spec.transposed (d : Int) (i : PcIns) : PcIns := { i with notes := i.notes.map (fun n => { n with pitch := n.pitch + d }) }

/-- **C135, transposition.** Transposing the piece by `d` semitones moves every bin `d` places on, around the circle, normalised or not. -/
theorem C135_transposed (useDur useVel normalize : Bool) (ins : List PcIns) (d : Int) (k k' : Fin 12) (hk : (k' : Int) = ((k : Int) + d) % 12) :
    pcHistogram useDur useVel normalize (ins.map (Spec.transposed d)) k' = pcHistogram useDur useVel normalize ins k := by
  have hn : (ins.map (Spec.transposed d)).flatMap pcNotes = (ins.flatMap pcNotes).map (fun n => { n with pitch := n.pitch + d }) := by
    induction ins with
    | nil => rfl
    | cons i t ih =>
        rw [List.map_cons, List.flatMap_cons, List.flatMap_cons, List.map_append, ih]
        congr 1
        unfold pcNotes Spec.transposed
        cases i.isDrum <;> rfl
  have hw : ∀ n : PcNote, PcNote.weight useDur useVel { n with pitch := n.pitch + d } = PcNote.weight useDur useVel n := fun _ => rfl
  have hraw : pcHistogram useDur useVel false (ins.map (Spec.transposed d)) k' = pcHistogram useDur useVel false ins k := by
    rw [raw_eq, raw_eq, hn, List.filter_map, List.map_map]
    have : (fun n : PcNote => decide (n.cls = (k' : Int))) ∘ (fun n : PcNote => { n with pitch := n.pitch + d }) = fun n => decide (n.cls = (k : Int)) := by
      funext n
      apply decide_eq_decide.mpr
      show (n.pitch + d) % 12 = (k' : Int) ↔ n.pitch % 12 = (k : Int)
      have := k.isLt
      have := k'.isLt
      omega
    rw [this]
    rfl
  have htot : ∑ j, pcHistogram useDur useVel false (ins.map (Spec.transposed d)) j = ∑ j, pcHistogram useDur useVel false ins j := by
    rw [total_eq, total_eq, hn, List.map_map]
    rfl
  cases normalize with
  | false => exact hraw
  | true => rw [norm_eq, norm_eq, hraw, htot]

/-! ### transitions -/

private def MelR (thresh : ℚ) (a b : PcNote) : Prop := a.stop ≤ b.start ∧ thresh ≤ a.stop - a.start ∧ thresh ≤ b.stop - b.start

private theorem melody_pairwise (thresh : ℚ) (ht : 0 < thresh) (l : List PcNote) (h : Spec.Melody thresh l) : l.Pairwise (MelR thresh) := by
  obtain ⟨h1, h2⟩ := h
  haveI : IsTrans PcNote (MelR thresh) := ⟨fun a b c hab hbc => ⟨by have := hab.1; have := hab.2.2; have := hbc.1; linarith, hab.2.1, hbc.2.2⟩⟩
  apply List.isChain_iff_pairwise.mp
  induction l with
  | nil => exact List.IsChain.nil
  | cons a l ih =>
      cases l with
      | nil => exact List.IsChain.singleton _
      | cons b l =>
          rw [List.isChain_cons_cons] at h2 ⊢
          refine ⟨⟨h2.1.1, h1 a List.mem_cons_self, h1 b (by simp)⟩, ih (fun n hn => h1 n (List.mem_cons_of_mem _ hn)) h2.2⟩

private theorem mel_filter (thresh : ℚ) (ht : 0 < thresh) (suf : List PcNote) : ∀ pre : List PcNote, (pre ++ suf).Pairwise (MelR thresh) →
    (∀ n ∈ suf, thresh ≤ n.stop - n.start) →
    suf.IsChain (fun a b => a.stop ≤ b.start ∧ b.start - a.stop < thresh) →
    suf.flatMap (fun a => ((pre ++ suf).filter (fun b => decide (|a.stop - b.start| < thresh))).map (Prod.mk a)) = suf.zip suf.tail := by
  induction suf with
  | nil => intro _ _ _ _; rfl
  | cons a rest ih =>
      intro pre hp hd hc
      have hih := ih (pre ++ [a]) (by simpa using hp) (fun n hn => hd n (List.mem_cons_of_mem _ hn)) (by
        cases rest with
        | nil => exact List.IsChain.nil
        | cons b r => exact (List.isChain_cons_cons.mp hc).2)
      rw [List.append_assoc] at hih
      rw [List.flatMap_cons]
      rw [show pre ++ a :: rest = pre ++ ([a] ++ rest) from rfl, hih]
      obtain ⟨_, hp2, hp3⟩ := List.pairwise_append.mp hp
      have f1 : pre.filter (fun b => decide (|a.stop - b.start| < thresh)) = [] := by
        apply List.filter_eq_nil_iff.mpr
        intro x hx
        obtain ⟨q1, q2, q3⟩ := hp3 x hx a List.mem_cons_self
        rw [decide_eq_true_eq, not_lt]
        exact le_trans (by linarith) (le_abs_self _)
      have f2 : [a].filter (fun b => decide (|a.stop - b.start| < thresh)) = [] := by
        apply List.filter_eq_nil_iff.mpr
        intro x hx
        rw [List.mem_singleton.mp hx, decide_eq_true_eq, not_lt]
        exact le_trans (hd a List.mem_cons_self) (le_abs_self _)
      rw [List.filter_append, List.filter_append, f1, f2, List.nil_append, List.nil_append]
      cases rest with
      | nil => rfl
      | cons b r =>
          obtain ⟨⟨g1, g2⟩, _⟩ := List.isChain_cons_cons.mp hc
          have f3 : r.filter (fun b => decide (|a.stop - b.start| < thresh)) = [] := by
            apply List.filter_eq_nil_iff.mpr
            intro x hx
            obtain ⟨q1, q2, q3⟩ := (List.pairwise_cons.mp (List.pairwise_cons.mp hp2).2).1 x hx
            rw [decide_eq_true_eq, not_lt, abs_sub_comm]
            exact le_trans (by linarith) (le_abs_self _)
          rw [List.filter_cons_of_pos, f3]
          · rfl
          · rw [decide_eq_true_eq, abs_sub_comm, abs_lt]
            constructor <;> linarith

private theorem mel_pairs (thresh : ℚ) (ht : 0 < thresh) (i : PcIns) (hd : i.isDrum = false) (h : Spec.Melody thresh i.notes) :
    i.pairs thresh = i.notes.zip i.notes.tail := by
  have hm := mel_filter thresh ht i.notes [] (melody_pairwise thresh ht _ h) h.1 h.2
  rw [List.nil_append] at hm
  unfold PcIns.pairs
  rw [if_neg (by rw [hd]; exact Bool.false_ne_true)]
  split
  · next hl =>
      match hi : i.notes, hl with
      | [], _ => rfl
      | [a], _ => rfl
  · rw [← hm]
    generalize i.notes = l at *
    show List.filter _ (l.flatMap fun a => l.map (Prod.mk a)) = _
    rw [List.filter_flatMap]
    congr 1
    funext a
    rw [List.filter_map]
    rfl

/-- **C135, transitions of melodies.** If every instrument but drums plays one voice (`Spec.Melody`), the transitions from class `a` to class `b` are the places in these melodies
where a note of class `b` follows one of class `a`, and nothing else is counted. -/
theorem C135_transitions (thresh : ℚ) (ht : 0 < thresh) (ins : List PcIns) (h : ∀ i ∈ ins, i.isDrum = false → Spec.Melody thresh i.notes) (a b : Fin 12) :
    pcTransitions thresh ins a b = ((ins.filter (fun i => !i.isDrum)).map (fun i =>
      (i.notes.zip i.notes.tail).countP (fun p => decide (p.1.pitch % 12 = (a : Int) ∧ p.2.pitch % 12 = (b : Int))))).sum := by
  unfold pcTransitions
  induction ins with
  | nil => rfl
  | cons i t ih =>
      have iht := ih (fun j hj => h j (List.mem_cons_of_mem _ hj))
      rw [List.map_cons, List.sum_cons, iht]
      cases hd : i.isDrum with
      | true =>
          rw [List.filter_cons_of_neg (by rw [hd]; simp)]
          unfold PcIns.pairs
          simp [hd]
      | false =>
          rw [List.filter_cons_of_pos (by rw [hd]; rfl), List.map_cons, List.sum_cons, mel_pairs thresh ht i hd (h i List.mem_cons_self hd)]
          congr 1
          rw [List.countP_eq_length_filter]
          congr 1
          apply List.filter_congr
          intro p _
          rw [Bool.decide_and]
          rfl

/-- **C135, instruments that have no transitions.** Drums and instruments with at most one note, however short that note is,
contribute nothing. -/
theorem C135_no_transitions (thresh : ℚ) (ins : List PcIns) (a b : Fin 12) :
    pcTransitions thresh ins a b = pcTransitions thresh (ins.filter (fun i => decide (i.isDrum = false ∧ 2 ≤ i.notes.length))) a b := by
  unfold pcTransitions
  induction ins with
  | nil => rfl
  | cons i ins ih =>
    by_cases h : i.isDrum = false ∧ 2 ≤ i.notes.length
    · rw [List.filter_cons_of_pos (by simpa using h), List.map_cons, List.map_cons, List.sum_cons, List.sum_cons, ih]
    · rw [List.filter_cons_of_neg (by simpa using h), List.map_cons, List.sum_cons, ih]
      have : i.pairs thresh = [] := by
        unfold PcIns.pairs
        cases hd : i.isDrum with
        | true => rfl
        | false =>
          have hl : i.notes.length ≤ 1 := by
            by_contra hc
            exact h ⟨hd, by omega⟩
          rw [if_neg (by simp), if_pos hl]
      rw [this]
      simp

/-- A short note alone is followed by nothing, beside another note it is followed by itself. -/
example : pcTransitions (1/5) [⟨false, [⟨60, 0, 1/10, 1⟩]⟩] 0 0 = 0 ∧
    pcTransitions (1/5) [⟨false, [⟨60, 0, 1/10, 1⟩, ⟨62, 3, 4, 1⟩]⟩] 0 0 = 1 := by decide +kernel

/-- **C135, short notes (defect).** A note shorter than the threshold of an instrument with two notes or more is counted as followed by itself. -/
theorem C135_short_note (thresh : ℚ) (ins : List PcIns) (i : PcIns) (hi : i ∈ ins) (hd : i.isDrum = false) (hl : 2 ≤ i.notes.length)
    (n : PcNote) (hn : n ∈ i.notes) (h0 : n.start ≤ n.stop) (hs : n.stop - n.start < thresh) (a : Fin 12) (ha : n.pitch % 12 = (a : Int)) :
    1 ≤ pcTransitions thresh ins a a := by
  have h1 : 1 ≤ ((i.pairs thresh).filter (fun p => decide (p.1.cls = (a : Int)) && decide (p.2.cls = (a : Int)))).length := by
    apply List.length_pos_of_mem (a := (n, n))
    rw [List.mem_filter]
    refine ⟨?_, by simp [PcNote.cls, ha]⟩
    unfold PcIns.pairs
    rw [if_neg (by rw [hd]; exact Bool.false_ne_true), if_neg (by omega), List.mem_filter]
    refine ⟨List.mem_product.mpr ⟨hn, hn⟩, ?_⟩
    rw [decide_eq_true_eq, abs_of_nonneg (by linarith)]
    exact hs
  exact le_trans h1 (List.single_le_sum (fun _ _ => Nat.zero_le _) _ (List.mem_map_of_mem (f := fun i : PcIns =>
    ((i.pairs thresh).filter (fun p => decide (p.1.cls = (a : Int)) && decide (p.2.cls = (a : Int)))).length) hi))

/-! ### examples -/

private def exMel : PcIns := ⟨false, [⟨60, 0, 1, 100⟩, ⟨64, 1, 2, 50⟩, ⟨76, 21/10, 3, 50⟩]⟩

/-- A melody of three notes with a short gap. -/
example : Spec.Melody (1/5) exMel.notes := by
  refine ⟨?_, ?_⟩
  · intro n hn
    simp only [exMel, List.mem_cons, List.not_mem_nil, or_false] at hn
    rcases hn with rfl | rfl | rfl <;> norm_num
  · simp only [exMel, List.isChain_cons_cons]
    refine ⟨by norm_num, by norm_num, List.IsChain.singleton _⟩

/-- It has one transition C-E and one E-E; with drums beside it nothing changes. -/
example : pcTransitions (1/5) [exMel, ⟨true, [⟨60, 0, 0, 1⟩]⟩] 0 4 = 1 ∧ pcTransitions (1/5) [exMel] 4 4 = 1 ∧ pcTransitions (1/5) [exMel] 4 0 = 0 := by decide +kernel

/-- A third of the notes are C, half of the velocity. -/
example : pcHistogram false false true [exMel] 0 = 1/3 ∧ pcHistogram false true true [exMel] 0 = 1/2 := by decide +kernel

/-- Two rolls of different lengths. -/
example : (pianoRoll [⟨2, fun p _ => if p = 60 then 5 else 0⟩, ⟨1, fun p _ => if p = 72 then 7 else 0⟩]).cols = 2 ∧
    chroma [⟨2, fun p _ => if p = 60 then 5 else 0⟩, ⟨1, fun p _ => if p = 72 then 7 else 0⟩] 0 0 = 12 ∧
    chroma [⟨2, fun p _ => if p = 60 then 5 else 0⟩, ⟨1, fun p _ => if p = 72 then 7 else 0⟩] 0 1 = 5 := by decide +kernel

end NGC
