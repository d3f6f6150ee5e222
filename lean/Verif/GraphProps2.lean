import Verif.GraphProps

/-! Properties C45, C46, C48 (time order), C51, C54, C84, C86-C88: grouping, velocities, feature
vectors. -/

namespace NGC

open Spec

namespace Spec

/-- The notes that belong in a graph: melodic and audible. -/
def sounding (n : Note) : Bool := decide (n.isDrum = false ∧ n.velocity ≠ 0)

/-- The tolerance in force. -/
def tolInForce (s : MSeq) (tol : ℚ) (auto : Bool) : ℚ := if auto then computeTolerance s else tol

/-- The group number of a note. -/
def groupKey (env : PyEnv) (tol : ℚ) (auto : Bool) (n : Note) : Int :=
  env.hashTime (adjTime tol auto n.start)

end Spec

theorem eligible_eq (n : Note) : eligible n = sounding n := by
  unfold eligible sounding
  cases n.isDrum <;> simp

/-! ## C45 grouping -/

theorem roundHE_nonpos {a : ℚ} (h : a ≤ 0) : roundHE a ≤ 0 := by
  have := roundHE_mono h
  have h0 : roundHE 0 = 0 := by simpa using roundHE_int 0
  omega

theorem around2_nonpos {a : ℚ} (h : a ≤ 0) : around2 a ≤ 0 := by
  unfold around2
  have : ((roundHE (a*100) : Int) : ℚ) ≤ 0 := by exact_mod_cast roundHE_nonpos (by linarith)
  linarith

theorem adjTime_nonneg (tol : ℚ) (auto : Bool) (t : ℚ) (h : 0 ≤ t) : 0 ≤ adjTime tol auto t := by
  unfold adjTime
  split
  · exact h
  · rename_i h0
    rcases lt_or_gt_of_ne h0 with hneg | hpos
    · have hd : t / tol ≤ 0 := div_nonpos_of_nonneg_of_nonpos h hneg.le
      split
      · apply around2_nonneg
        have : ((roundHE (t / tol) : Int) : ℚ) ≤ 0 := by exact_mod_cast roundHE_nonpos hd
        nlinarith
      · have := around2_nonpos hd
        nlinarith
    · have hd : 0 ≤ t / tol := div_nonneg h hpos.le
      split
      · apply around2_nonneg
        have : (0 : ℚ) ≤ ((roundHE (t / tol) : Int) : ℚ) := by exact_mod_cast roundHE_nonneg hd
        nlinarith
      · have := around2_nonneg hd
        nlinarith

theorem dset_flat_perm (d : List (Int × List Note)) (k : Int) (n : Note) :
    ((dset d k ((dget d k).getD [] ++ [n])).flatMap (·.2)).Perm (n :: d.flatMap (·.2)) := by
  induction d with
  | nil => simp [dset, dget]
  | cons p d ih =>
    unfold dset dget
    by_cases h : p.1 = k
    · simp only [h, if_true, Option.getD_some, List.flatMap_cons]
      rw [List.append_assoc]
      exact (List.perm_middle).trans (by simp)
    · simp only [h, if_false, List.flatMap_cons]
      refine (List.Perm.append_left p.2 ih).trans ?_
      exact List.perm_middle

/-- What the grouping loop has established after the notes `pre`. -/
structure GroupInv (env : PyEnv) (tol : ℚ) (auto : Bool) (pre : List Note)
    (st : List (Int × List Note) × Nat) : Prop where
  get : ∀ k, dget st.1 k = if (pre.filter sounding).filter (fun n => decide (groupKey env tol auto n = k)) = []
    then none else some ((pre.filter sounding).filter (fun n => decide (groupKey env tol auto n = k)))
  keys : dkeys st.1 = firstSeen ((pre.filter sounding).map (groupKey env tol auto))
  perm : (st.1.flatMap (·.2)).Perm (pre.filter sounding)
  le : ∀ k ns, dget st.1 k = some ns → ns.length ≤ st.2
  att : (st.2 = 0 ∧ st.1 = []) ∨ ∃ k ns, dget st.1 k = some ns ∧ ns.length = st.2
  times : ∀ n ∈ pre.filter sounding, 0 ≤ n.start

theorem groupInv_step (env : PyEnv) (tol : ℚ) (auto : Bool) (pre : List Note) (n : Note)
    (st st' : List (Int × List Note) × Nat) (inv : GroupInv env tol auto pre st)
    (h : groupStep env tol auto st n = .ok st') : GroupInv env tol auto (pre ++ [n]) st' := by
  unfold groupStep at h
  by_cases he : eligible n = true
  · rw [if_pos he] at h
    by_cases hs : n.start < 0
    · rw [if_pos hs] at h; cases h
    · rw [if_neg hs] at h
      by_cases ha : adjTime tol auto n.start < 0
      · rw [if_pos ha] at h; cases h
      · rw [if_neg ha] at h
        cases h
        have hk : env.hashTime (adjTime tol auto n.start) = groupKey env tol auto n := rfl
        rw [hk]
        have hf : (pre ++ [n]).filter sounding = pre.filter sounding ++ [n] := by
          rw [List.filter_append]
          simp [← eligible_eq, he]
        have hold : (dget st.1 (groupKey env tol auto n)).getD [] =
            (pre.filter sounding).filter (fun m => decide (groupKey env tol auto m = groupKey env tol auto n)) := by
          rw [inv.get]
          split
          · rename_i h; rw [h]; rfl
          · rfl
        refine ⟨?_, ?_, ?_, ?_, ?_, ?_⟩
        · intro k
          simp only []
          rw [dget_dset, hf, List.filter_append]
          by_cases hkk : groupKey env tol auto n = k
          · subst hkk
            rw [hold]
            simp
          · rw [if_neg hkk, inv.get k]
            simp [hkk]
        · simp only []
          rw [dkeys_dset, inv.keys, hf, List.map_append]
          exact (firstSeen_append _ _).symm
        · simp only []
          rw [hf]
          refine (dset_flat_perm st.1 _ n).trans ?_
          refine (List.Perm.cons n inv.perm).trans ?_
          exact (List.perm_append_singleton n _).symm
        · intro k ns hns
          simp only [] at hns ⊢
          rw [dget_dset] at hns
          split at hns
          · cases hns
            rw [List.length_append, List.length_singleton]
            exact le_max_right _ _
          · exact le_trans (inv.le k ns hns) (le_max_left _ _)
        · right
          simp only []
          rcases le_total st.2 (((dget st.1 (groupKey env tol auto n)).getD []).length + 1) with hle | hle
          · refine ⟨groupKey env tol auto n, _, dget_dset_self _ _ _, ?_⟩
            rw [max_eq_right hle, List.length_append, List.length_singleton]
          · rw [max_eq_left hle]
            rcases inv.att with ⟨h0, _⟩ | ⟨k, ns, hns, hl⟩
            · omega
            · refine ⟨k, ns, ?_, hl⟩
              rw [dget_dset_ne]
              · exact hns
              · rintro rfl
                rw [hns] at hle
                simp at hle
                omega
        · intro m hm
          rw [hf, List.mem_append, List.mem_singleton] at hm
          rcases hm with hm | rfl
          · exact inv.times m hm
          · exact not_lt.1 hs
  · rw [if_neg he] at h
    cases h
    have hf : (pre ++ [n]).filter sounding = pre.filter sounding := by
      rw [List.filter_append]
      simp [← eligible_eq, he]
    obtain ⟨h1, h2, h3, h4, h5, h6⟩ := inv
    exact ⟨by rw [hf]; exact h1, by rw [hf]; exact h2, by rw [hf]; exact h3, h4, h5, by rw [hf]; exact h6⟩

theorem groupInv_loop (env : PyEnv) (tol : ℚ) (auto : Bool) (notes : List Note)
    (st : List (Int × List Note) × Nat)
    (h : notes.foldlM (groupStep env tol auto) ([], 0) = .ok st) : GroupInv env tol auto notes st := by
  have := foldlM_inv (groupStep env tol auto) (GroupInv env tol auto)
    (fun pre a s s' hp hs => groupInv_step env tol auto pre a s s' hp hs) notes [] ([], 0) st
    ⟨by intro k; simp [dget], by simp [dkeys, firstSeen], by simp, (by intro k ns hns; cases hns),
      Or.inl ⟨rfl, rfl⟩, by simp⟩ h
  simpa using this

theorem computeData_ok (env : PyEnv) (s : MSeq) (tol : ℚ) (filterSingle auto : Bool)
    (d : List (Int × List Note)) (m : Nat)
    (h : computeData env s tol filterSingle auto = .ok (d, m)) :
    ∃ d0, GroupInv env (tolInForce s tol auto) auto s.notes (d0, m) ∧
      d = if filterSingle then d0.filter (fun p => decide (1 < p.2.length)) else d0 := by
  unfold computeData at h
  cases hf : s.notes.foldlM (groupStep env (if auto then computeTolerance s else tol) auto) ([], 0) with
  | error e => simp only [hf, bind, Except.bind] at h; cases h
  | ok r =>
    simp only [hf, bind, Except.bind] at h
    have := groupInv_loop _ _ _ _ _ hf
    cases h
    exact ⟨r.1, this, rfl⟩

/-- C45: without the single-note filter `compute_data` partitions the melodic audible notes: the
groups together hold exactly these notes; each group holds, in order, exactly the notes with its
key and is not empty; the keys appear in order of first occurrence, each once; the reported number
is the size of the largest group. -/
theorem C45_partition (env : PyEnv) (s : MSeq) (tol : ℚ) (auto : Bool)
    (d : List (Int × List Note)) (m : Nat) (h : computeData env s tol false auto = .ok (d, m)) :
    (d.flatMap (·.2)).Perm (s.notes.filter sounding) ∧
    (∀ k ns, (k, ns) ∈ d → ns ≠ [] ∧ ns = (s.notes.filter sounding).filter
      (fun n => decide (groupKey env (tolInForce s tol auto) auto n = k))) ∧
    dkeys d = firstSeen ((s.notes.filter sounding).map (groupKey env (tolInForce s tol auto) auto)) ∧
    (∀ p ∈ d, p.2.length ≤ m) ∧ (d ≠ [] → ∃ p ∈ d, p.2.length = m) ∧ (d = [] → m = 0) := by
  obtain ⟨d0, inv, hd⟩ := computeData_ok env s tol false auto d m h
  simp only [Bool.false_eq_true, if_false] at hd
  subst hd
  have hn : (dkeys d).Nodup := by
    have := inv.keys
    simp only [] at this
    rw [this]; exact firstSeen_nodup _
  refine ⟨inv.perm, ?_, inv.keys, ?_, ?_, ?_⟩
  · intro k ns hp
    have := dget_of_mem d hn k ns hp
    have h2 := inv.get k
    simp only [] at h2
    rw [this] at h2
    split at h2
    · cases h2
    · rename_i hne
      cases h2
      exact ⟨hne, rfl⟩
  · rintro ⟨k, ns⟩ hp
    exact inv.le k ns (dget_of_mem d hn k ns hp)
  · intro hne
    rcases inv.att with ⟨_, h0⟩ | ⟨k, ns, hns, hl⟩
    · exact absurd h0 hne
    · exact ⟨(k, ns), dget_mem d k ns hns, hl⟩
  · intro h0
    rcases inv.att with ⟨h1, _⟩ | ⟨k, ns, hns, hl⟩
    · exact h1
    · simp only [] at hns
      rw [h0] at hns; cases hns

/-- C45: the single-note filter keeps exactly the groups of at least two notes, in the same order. -/
theorem C45_filter_single (env : PyEnv) (s : MSeq) (tol : ℚ) (auto : Bool)
    (d : List (Int × List Note)) (m : Nat) (h : computeData env s tol false auto = .ok (d, m)) :
    computeData env s tol true auto = .ok (d.filter (fun p => decide (2 ≤ p.2.length)), m) := by
  unfold computeData at h ⊢
  cases hf : s.notes.foldlM (groupStep env (if auto then computeTolerance s else tol) auto) ([], 0) with
  | error e => simp only [hf, bind, Except.bind] at h; cases h
  | ok r =>
    simp only [hf, bind, Except.bind] at h ⊢
    cases h
    rfl

/-- C45: `compute_data` raises exactly when a melodic audible note starts before time 0. -/
theorem C45_raises (env : PyEnv) (s : MSeq) (tol : ℚ) (filterSingle auto : Bool) :
    raises (computeData env s tol filterSingle auto) ↔
      ∃ n ∈ s.notes, sounding n = true ∧ n.start < 0 := by
  have key : ∀ (l : List Note) (tol : ℚ) (st : List (Int × List Note) × Nat),
      raises (l.foldlM (groupStep env tol auto) st) ↔ ∃ n ∈ l, sounding n = true ∧ n.start < 0 := by
    intro l tol
    induction l with
    | nil => intro st; simp [raises, pure, Except.pure]
    | cons n l ih =>
      intro st
      rw [List.foldlM_cons]
      by_cases he : eligible n = true
      · by_cases hs : n.start < 0
        · have : groupStep env tol auto st n = .error .assertion := by
            unfold groupStep; rw [if_pos he, if_pos hs]
          rw [this]
          refine ⟨fun _ => ⟨n, by simp, by rw [← eligible_eq]; exact he, hs⟩, fun _ => ⟨_, rfl⟩⟩
        · have ha := adjTime_nonneg tol auto n.start (not_lt.1 hs)
          have : ∃ st', groupStep env tol auto st n = .ok st' := by
            unfold groupStep
            rw [if_pos he, if_neg hs, if_neg (not_lt.2 ha)]
            exact ⟨_, rfl⟩
          obtain ⟨st', h'⟩ := this
          rw [h']
          show raises (l.foldlM (groupStep env tol auto) st') ↔ _
          rw [ih st']
          simp [hs]
      · have : groupStep env tol auto st n = .ok st := by
          unfold groupStep; rw [if_neg he]
        rw [this]
        show raises (l.foldlM (groupStep env tol auto) st) ↔ _
        rw [ih st]
        rw [eligible_eq] at he
        simp [he]
  unfold computeData
  have := key s.notes (if auto then computeTolerance s else tol) ([], 0)
  cases hf : s.notes.foldlM (groupStep env (if auto then computeTolerance s else tol) auto) ([], 0) with
  | error e =>
    rw [hf] at this
    rw [← this]
    simp only [hf, bind, Except.bind]
  | ok r =>
    rw [hf] at this
    rw [← this]
    simp only [hf, bind, Except.bind]
    constructor <;> (rintro ⟨e, he⟩; cases he)

/-- C45: notes that start together are never split between groups. -/
theorem C45_same_start_same_group (env : PyEnv) (s : MSeq) (tol : ℚ) (auto : Bool)
    (d : List (Int × List Note)) (m : Nat) (h : computeData env s tol false auto = .ok (d, m))
    (a b : Note) (hab : a.start = b.start) (k : Int) (ns : List Note) (hp : (k, ns) ∈ d)
    (ha : a ∈ ns) (hb : b ∈ s.notes) (hs : sounding b = true) : b ∈ ns := by
  obtain ⟨_, h2, _⟩ := C45_partition env s tol auto d m h
  have := (h2 k ns hp).2
  rw [this] at ha ⊢
  rw [List.mem_filter] at ha ⊢
  refine ⟨List.mem_filter.2 ⟨hb, hs⟩, ?_⟩
  have h3 := ha.2
  unfold groupKey at h3 ⊢
  rw [← hab]
  exact h3

theorem adjTime_near (tol : ℚ) (h : 0 < tol) (t : ℚ) : |t - adjTime tol true t| ≤ tol / 2 + 1/200 := by
  unfold adjTime
  rw [if_neg h.ne', if_pos rfl]
  have h1 := roundHE_spec (t / tol)
  have h2 := around2_spec ((roundHE (t / tol) : ℚ) * tol)
  have h3 : |t - (roundHE (t / tol) : ℚ) * tol| ≤ tol / 2 := by
    have e : t - (roundHE (t / tol) : ℚ) * tol = (t / tol - roundHE (t / tol)) * tol := by
      field_simp
    rw [e, abs_mul, abs_of_pos h]
    nlinarith
  rw [abs_le] at *
  constructor <;> linarith [h2.1, h2.2, h3.1, h3.2]

/-- C45: with the automatic tolerance, notes of one group start within the tolerance plus 0.01 of
each other (given that different times in use have different hashes). -/
theorem C45_group_width (env : PyEnv) (s : MSeq) (tol : ℚ)
    (d : List (Int × List Note)) (m : Nat) (h : computeData env s tol false true = .ok (d, m))
    (ht : 0 < computeTolerance s)
    (hinj : ∀ a ∈ s.notes, ∀ b ∈ s.notes,
      env.hashTime (adjTime (computeTolerance s) true a.start) =
        env.hashTime (adjTime (computeTolerance s) true b.start) →
      adjTime (computeTolerance s) true a.start = adjTime (computeTolerance s) true b.start)
    (k : Int) (ns : List Note) (hp : (k, ns) ∈ d) (a b : Note) (ha : a ∈ ns) (hb : b ∈ ns) :
    |a.start - b.start| ≤ computeTolerance s + 1/100 := by
  obtain ⟨_, h2, _⟩ := C45_partition env s tol true d m h
  rw [(h2 k ns hp).2, List.mem_filter, List.mem_filter] at ha hb
  have e : adjTime (computeTolerance s) true a.start = adjTime (computeTolerance s) true b.start := by
    apply hinj a ha.1.1 b hb.1.1
    have h3 := ha.2
    have h4 := hb.2
    rw [decide_eq_true_eq] at h3 h4
    exact h3.trans h4.symm
  have h5 := adjTime_near _ ht a.start
  have h6 := adjTime_near _ ht b.start
  rw [e] at h5
  rw [abs_le] at *
  constructor <;> linarith [h5.1, h5.2, h6.1, h6.2]

/-- Two notes at 0 and one at 1. -/
def exChord : MSeq := MSeq.mk'
  [{ exNote with pitch := 4, start := 0, stop := 1 }, { exNote with pitch := 7, start := 1, stop := 2 },
   { exNote with pitch := 0, start := 0, stop := 2 }, { exNote with velocity := 0 }]
  { num := 0, name := "Piano", isDrum := false }

example : (computeData exEnv exChord 0 false false).map (fun r =>
    (r.1.map (fun p => (p.1, p.2.map Note.pitch)), r.2)) = .ok ([(0, [4, 0]), (1, [7])], 2) := by
  decide +kernel

example : computeTolerance exWhole = 1 := by decide +kernel

/-! ## C48 time order -/

theorem around2_mono' {a b : ℚ} (h : a ≤ b) : around2 a ≤ around2 b := around2_mono h

theorem adjTime_mono (tol : ℚ) (h : 0 ≤ tol) (auto : Bool) {a b : ℚ} (hab : a ≤ b) :
    adjTime tol auto a ≤ adjTime tol auto b := by
  unfold adjTime
  split
  · exact hab
  · rename_i h0
    have hpos : 0 < tol := lt_of_le_of_ne h (Ne.symm h0)
    have hd : a / tol ≤ b / tol := div_le_div_of_nonneg_right hab h
    split
    · apply around2_mono
      have : ((roundHE (a / tol) : Int) : ℚ) ≤ roundHE (b / tol) := by exact_mod_cast roundHE_mono hd
      nlinarith
    · have := around2_mono hd
      nlinarith

theorem sortByKey_strict {α : Type} (key : α → ℚ) (l : List α) (h : (l.map key).Nodup) :
    (sortByKey key l).Pairwise (fun a b => key a < key b) := by
  have h1 := sortByKey_sorted key l
  have h2 : ((sortByKey key l).map key).Nodup := ((sortByKey_perm key l).map key).nodup_iff.2 h
  rw [List.Nodup, List.pairwise_map] at h2
  exact (h1.and h2).imp (fun hab => lt_of_le_of_ne hab.1 hab.2)

/-- C48: if hashing keeps the order of the times in use, the groups are visited in playing
order. Boundary: this hypothesis, see `C48_playing_order_lost`. -/
theorem C48_time_order (env : PyEnv) (s : MSeq) (tol : ℚ) (auto : Bool)
    (htol : 0 ≤ tolInForce s tol auto)
    (hmono : ∀ a ∈ s.notes, ∀ b ∈ s.notes,
      groupKey env (tolInForce s tol auto) auto a < groupKey env (tolInForce s tol auto) auto b →
      adjTime (tolInForce s tol auto) auto a.start < adjTime (tolInForce s tol auto) auto b.start)
    (d : List (Int × List Note)) (m : Nat) (h : computeData env s tol false auto = .ok (d, m)) :
    (orderedGroups d).Pairwise (fun g1 g2 => ∀ a ∈ g1, ∀ b ∈ g2, a.start < b.start) := by
  obtain ⟨_, h2, h3, _⟩ := C45_partition env s tol auto d m h
  have hn : (d.map (fun p : Int × List Note => (p.1 : ℚ))).Nodup := by
    have : (dkeys d).Nodup := by rw [h3]; exact firstSeen_nodup _
    have e : d.map (fun p : Int × List Note => (p.1 : ℚ)) = (dkeys d).map (fun k : Int => (k : ℚ)) := by
      unfold dkeys; rw [List.map_map]; rfl
    rw [e]
    exact this.map (fun a b hab => by exact_mod_cast hab)
  have hs := sortByKey_strict _ d hn
  unfold orderedGroups
  rw [List.pairwise_map]
  refine List.Pairwise.imp_of_mem ?_ hs
  rintro ⟨k1, g1⟩ ⟨k2, g2⟩ hm1 hm2 hlt a ha b hb
  rw [(sortByKey_perm _ d).mem_iff] at hm1 hm2
  simp only [] at hlt ha hb
  rw [(h2 k1 g1 hm1).2, List.mem_filter, List.mem_filter, decide_eq_true_eq] at ha
  rw [(h2 k2 g2 hm2).2, List.mem_filter, List.mem_filter, decide_eq_true_eq] at hb
  have hk : groupKey env (tolInForce s tol auto) auto a < groupKey env (tolInForce s tol auto) auto b := by
    rw [ha.2, hb.2]; exact_mod_cast hlt
  have := hmono a ha.1.1 b hb.1.1 hk
  by_contra hc
  exact absurd (adjTime_mono _ htol auto (not_lt.1 hc)) (not_le.2 this)

/-- Whole numbers of seconds below 2^61-1 hash to themselves, so the hypothesis of
`C48_time_order` is met by pieces on whole seconds. -/
theorem pyHashFloat_whole (n : Nat) (h : n < 2 ^ 61 - 1) : pyHashFloat (n : ℚ) = n := by
  unfold pyHashFloat
  have e1 : ((n : ℚ)).num = (n : Int) := rfl
  have e2 : ((n : ℚ)).den = 1 := rfl
  have e3 : Nat.log2 1 = 0 := by decide +kernel
  rw [e1, e2, e3]
  norm_num
  omega

/-! ## C46 velocities -/

theorem foldl_min_le (l : List ℚ) (x : ℚ) : l.foldl min x ≤ x ∧ ∀ y ∈ l, l.foldl min x ≤ y := by
  induction l generalizing x with
  | nil => simp
  | cons z zs ih =>
    obtain ⟨h1, h2⟩ := ih (min x z)
    simp only [List.foldl_cons, List.mem_cons]
    refine ⟨le_trans h1 (min_le_left _ _), ?_⟩
    rintro y (rfl | hy)
    · exact le_trans h1 (min_le_right _ _)
    · exact h2 y hy

theorem pyInt_mono {a b : ℚ} (h : a ≤ b) : pyInt a ≤ pyInt b := by
  unfold pyInt
  split <;> split
  · exact Int.floor_mono h
  · rename_i h1 h2; exact absurd (le_trans h1 h) h2
  · rename_i h1 h2
    push Not at h1
    have e1 : ⌈a⌉ ≤ 0 := Int.ceil_le.2 (by simpa using h1.le)
    have e2 : 0 ≤ ⌊b⌋ := Int.floor_nonneg.2 h2
    omega
  · exact Int.ceil_mono h

theorem pyInt_nonneg' {a : ℚ} (h : 0 ≤ a) : 0 ≤ pyInt a := by
  unfold pyInt; rw [if_pos h]; exact Int.floor_nonneg.2 h

theorem pyInt_le' {a : ℚ} (n : Nat) (h : a ≤ n) (h0 : 0 ≤ a) : pyInt a ≤ n := by
  unfold pyInt; rw [if_pos h0]
  have := Int.floor_mono h
  simpa using this

theorem clipQ_range (lo hi x : ℚ) (h : lo ≤ hi) : lo ≤ clipQ lo hi x ∧ clipQ lo hi x ≤ hi :=
  ⟨le_min h (le_max_left _ _), min_le_left _ _⟩

theorem clipQ_mono (lo hi : ℚ) {x y : ℚ} (h : x ≤ y) : clipQ lo hi x ≤ clipQ lo hi y :=
  min_le_min_left _ (max_le_max_left _ h)

theorem clipQ_of_mem (lo hi x : ℚ) (h1 : lo ≤ x) (h2 : x ≤ hi) : clipQ lo hi x = x := by
  unfold clipQ; rw [max_eq_right h1, min_eq_right h2]

/-- C46: `rescale_velocities` raises only on an empty list; otherwise there is one monotone function
that maps each velocity to its new value, the length is kept and every result is a whole number in
0..127. -/
theorem C46_rescale (vs : List ℚ) (tmin tmax : Int) (h0 : 0 ≤ tmin) (h1 : tmin ≤ tmax) (h2 : tmax ≤ 127) :
    (raises (rescaleVelocities vs tmin tmax) ↔ vs = []) ∧
    (vs ≠ [] → ∃ f : ℚ → ℚ, rescaleVelocities vs tmin tmax = .ok (vs.map f) ∧
      (∀ a b, a ≤ b → f a ≤ f b) ∧ (∀ a, 0 ≤ f a ∧ f a ≤ 127 ∧ ∃ z : Int, f a = z)) := by
  have q0 : (0 : ℚ) ≤ tmin := by exact_mod_cast h0
  have q1 : (tmin : ℚ) ≤ tmax := by exact_mod_cast h1
  have q2 : (tmax : ℚ) ≤ 127 := by exact_mod_cast h2
  have key : vs ≠ [] → ∃ f : ℚ → ℚ, rescaleVelocities vs tmin tmax = .ok (vs.map f) ∧
      (∀ a b, a ≤ b → f a ≤ f b) ∧ (∀ a, 0 ≤ f a ∧ f a ≤ 127 ∧ ∃ z : Int, f a = z) := by
    intro hne
    match vs, hne with
    | [v], _ =>
      refine ⟨fun v => clipQ tmin tmax ((roundHE (v * (tmax - tmin) / 127 + tmin) : Int) : ℚ), rfl, ?_, ?_⟩
      · intro a b hab
        apply clipQ_mono
        have : a * ((tmax : ℚ) - tmin) / 127 + tmin ≤ b * ((tmax : ℚ) - tmin) / 127 + tmin := by
          have : a * ((tmax : ℚ) - tmin) ≤ b * ((tmax : ℚ) - tmin) :=
            mul_le_mul_of_nonneg_right hab (by linarith)
          linarith
        exact_mod_cast roundHE_mono this
      · intro a
        have := clipQ_range tmin tmax ((roundHE (a * (tmax - tmin) / 127 + tmin) : Int) : ℚ) q1
        refine ⟨by linarith, by linarith, ?_⟩
        unfold clipQ
        refine ⟨min tmax (max tmin (roundHE (a * (tmax - tmin) / 127 + tmin))), ?_⟩
        push_cast
        rfl
    | v :: w :: rest, _ =>
      have hz : ∀ x : ℚ, (0:ℚ) ≤ ((pyInt (clipQ 0 127 x) : Int) : ℚ) ∧
          ((pyInt (clipQ 0 127 x) : Int) : ℚ) ≤ 127 := by
        intro x
        obtain ⟨c1, c2⟩ := clipQ_range 0 127 x (by norm_num)
        have p1 := pyInt_nonneg' c1
        have p2 := pyInt_le' (a := clipQ 0 127 x) 127 (by exact_mod_cast c2) c1
        exact ⟨by exact_mod_cast p1, by exact_mod_cast p2⟩
      unfold rescaleVelocities
      simp only []
      split
      · refine ⟨fun _ => ((pyInt (clipQ 0 127 tmin) : Int) : ℚ), ?_, fun _ _ _ => le_refl _, ?_⟩
        · rw [List.map_map]; rfl
        · intro a; exact ⟨(hz _).1, (hz _).2, _, rfl⟩
      · rename_i hden
        refine ⟨fun x => ((pyInt (clipQ 0 127 ((x - List.foldl min v (w :: rest)) * ((tmax : ℚ) - tmin) /
          (List.foldl max v (w :: rest) - List.foldl min v (w :: rest)) + tmin)) : Int) : ℚ), ?_, ?_, ?_⟩
        · rw [List.map_map]; rfl
        · intro a b hab
          have : pyInt (clipQ 0 127 ((a - List.foldl min v (w :: rest)) * ((tmax : ℚ) - tmin) /
              (List.foldl max v (w :: rest) - List.foldl min v (w :: rest)) + tmin)) ≤
              pyInt (clipQ 0 127 ((b - List.foldl min v (w :: rest)) * ((tmax : ℚ) - tmin) /
              (List.foldl max v (w :: rest) - List.foldl min v (w :: rest)) + tmin)) := by
            apply pyInt_mono
            apply clipQ_mono
            have hp : 0 < List.foldl max v (w :: rest) - List.foldl min v (w :: rest) := not_le.1 hden
            have : (a - List.foldl min v (w :: rest)) * ((tmax : ℚ) - tmin) ≤
                (b - List.foldl min v (w :: rest)) * ((tmax : ℚ) - tmin) :=
              mul_le_mul_of_nonneg_right (by linarith) (by linarith)
            have := div_le_div_of_nonneg_right this hp.le
            linarith
          simp only []
          exact_mod_cast this
        · intro a; exact ⟨(hz _).1, (hz _).2, _, rfl⟩
  refine ⟨?_, key⟩
  constructor
  · rintro ⟨e, he⟩
    by_contra hne
    obtain ⟨f, hf, _⟩ := key hne
    rw [hf] at he; cases he
  · rintro rfl
    exact ⟨.value, rfl⟩

/-- C46: when the velocities differ, the quietest note is mapped to the lower bound and the loudest
to the upper bound. -/
theorem C46_extremes (vs : List ℚ) (tmin tmax : Int) (h0 : 0 ≤ tmin) (h1 : tmin ≤ tmax)
    (h2 : tmax ≤ 127) (lo hi : ℚ) (hlo : lo ∈ vs) (hhi : hi ∈ vs) (hle : ∀ v ∈ vs, lo ≤ v ∧ v ≤ hi)
    (hlt : lo < hi) : ∃ f : ℚ → ℚ, rescaleVelocities vs tmin tmax = .ok (vs.map f) ∧
      f lo = tmin ∧ f hi = tmax := by
  have q0 : (0 : ℚ) ≤ tmin := by exact_mod_cast h0
  have q1 : (tmin : ℚ) ≤ tmax := by exact_mod_cast h1
  have q2 : (tmax : ℚ) ≤ 127 := by exact_mod_cast h2
  match vs, hlo, hhi, hle with
  | [v], hlo, hhi, _ =>
    rw [List.mem_singleton] at hlo hhi
    subst hlo; subst hhi
    exact absurd hlt (lt_irrefl _)
  | v :: w :: rest, hlo, hhi, hle =>
    have emin : List.foldl min v (w :: rest) = lo := by
      apply le_antisymm
      · have := foldl_min_le (w :: rest) v
        rcases List.mem_cons.1 hlo with h | h
        · rw [h]; exact this.1
        · exact this.2 lo h
      · have : ∀ (l : List ℚ) (x : ℚ), lo ≤ x → (∀ y ∈ l, lo ≤ y) → lo ≤ l.foldl min x := by
          intro l
          induction l with
          | nil => intro x hx _; exact hx
          | cons z zs ih =>
            intro x hx hy
            exact ih _ (le_min hx (hy z (by simp))) (fun y h => hy y (List.mem_cons_of_mem _ h))
        exact this _ _ (hle v (by simp)).1 (fun y hy => (hle y (List.mem_cons_of_mem _ hy)).1)
    have emax : List.foldl max v (w :: rest) = hi :=
      maxDefault_eq_of 0 (v :: w :: rest) hi hhi (fun y hy => (hle y hy).2)
    unfold rescaleVelocities
    simp only [emin, emax]
    rw [if_neg (not_le.2 (by linarith : 0 < hi - lo))]
    refine ⟨fun x => ((pyInt (clipQ 0 127 ((x - lo) * ((tmax : ℚ) - tmin) / (hi - lo) + tmin)) : Int) : ℚ),
      by rw [List.map_map]; rfl, ?_, ?_⟩
    · simp only [sub_self, zero_mul, zero_div, zero_add]
      rw [clipQ_of_mem _ _ _ q0 (by linarith)]
      unfold pyInt
      rw [if_pos q0]
      simp
    · have : (hi - lo) * ((tmax : ℚ) - tmin) / (hi - lo) + tmin = tmax := by
        have : hi - lo ≠ 0 := by linarith
        field_simp
        ring
      simp only [this]
      rw [clipQ_of_mem _ _ _ (by linarith) q2]
      unfold pyInt
      rw [if_pos (by linarith)]
      simp

example : rescaleVelocities [20, 26, 60, 20] = .ok [32, 46, 127, 32] := by decide +kernel
example : rescaleVelocities [100] = .ok [107] ∧ rescaleVelocities [100, 100] = .ok [32, 32] := by
  decide +kernel

/-! ## C87 relative scaling -/

/-- C87: unless the velocities add up to zero (numpy then yields nan), `scale_relative_velocities` multiplies each
velocity by the factor and clips it to 0..127. -/
theorem C87_scale_relative (vs : List ℚ) (factor : ℚ) :
    (vs.sum = 0 → scaleRelative vs factor = none) ∧
    (vs.sum ≠ 0 →
      scaleRelative vs factor = some (vs.map (fun v => ((⌊min 127 (max 0 (v * factor))⌋ : Int) : ℚ)))) := by
  constructor
  · intro h
    unfold scaleRelative mean
    rw [h]; simp
  intro hs
  have h : mean vs ≠ 0 := by
    unfold mean
    have hl : (vs.length : ℚ) ≠ 0 := by
      intro hl
      have : vs = [] := List.length_eq_zero_iff.1 (by exact_mod_cast hl)
      exact hs (by rw [this]; rfl)
    exact div_ne_zero hs hl
  unfold scaleRelative
  rw [if_neg h]
  congr 2
  funext v
  have e : v / mean vs * factor * mean vs = v * factor := by field_simp
  rw [e]
  unfold pyInt clipQ
  rw [if_pos (le_min (by norm_num) (le_max_left _ _))]

example : scaleRelative [20, 40, 127] 2 = some [40, 80, 127] := by decide +kernel

/-! ## C51 feature vectors -/

/-- C51: without velocities a feature vector always has exactly the requested number of entries: the
first pitches of the chord, then zeros. -/
theorem C51_pitch_vector (pitches : List Int) (size classes : Nat) :
    ∃ l, createTensor .tensor pitches none size classes = .ok (.vec l) ∧ l.length = size ∧
      ∀ i, i < size → l[i]? = some (((pitches[i]?).map (fun p : Int => (p : ℚ))).getD 0) := by
  refine ⟨_, rfl, ?_, ?_⟩
  · unfold padTo
    simp only [List.length_append, List.length_take, List.length_map, List.length_replicate]
    omega
  · intro i hi
    unfold padTo
    rw [List.getElem?_append]
    simp only [List.length_take, List.length_map]
    by_cases h : i < pitches.length
    · rw [if_pos (by omega), List.getElem?_take, if_pos hi, List.getElem?_map,
        List.getElem?_eq_getElem h]
      rfl
    · rw [if_neg (by omega), List.getElem?_replicate, if_pos (by omega),
        List.getElem?_eq_none (by omega)]
      rfl

/-- C51: with velocities, a chord that fits gives two rows of the requested size: the pitches and
the velocities, each followed by zeros. -/
theorem C51_velocity_rows (pitches : List Int) (vel : List ℚ) (size classes : Nat)
    (hp : ∀ p ∈ pitches, 0 ≤ p) (hv : ∀ v ∈ vel, 0 ≤ v) (hl : vel.length = pitches.length)
    (hs : pitches.length ≤ size) :
    createTensor .tensor pitches (some vel) size classes = .ok (.mat
      [pitches.map (fun p : Int => (p : ℚ)) ++ List.replicate (size - pitches.length) 0,
       vel ++ List.replicate (size - pitches.length) 0]) := by
  unfold createTensor
  simp only []
  have e : (pitches.map (fun x : Int => (x : ℚ))).take size = pitches.map (fun x : Int => (x : ℚ)) :=
    List.take_of_length_le (by simpa using hs)
  have h1 : (padTo size (pitches.map (fun x : Int => (x : ℚ)))).all (fun x => decide (0 ≤ x)) = true := by
    rw [List.all_eq_true]
    intro x hx
    unfold padTo at hx
    rw [List.mem_append, List.mem_map, List.mem_replicate] at hx
    rcases hx with ⟨p, hp', rfl⟩ | ⟨_, rfl⟩
    · simpa using hp p hp'
    · simp
  have h2 : (padTo size vel).all (fun x => decide (0 ≤ x)) = true := by
    rw [List.all_eq_true]
    intro x hx
    unfold padTo at hx
    rw [List.mem_append, List.mem_replicate] at hx
    rcases hx with hx | ⟨_, rfl⟩
    · simpa using hv x hx
    · simp
  rw [e, h1, h2, if_neg (by omega)]
  simp [padTo, hl]

example : createTensor .tensor [64, 60] (some [32, 127]) 4 127 =
    .ok (.mat [[64, 60, 0, 0], [32, 127, 0, 0]]) := by decide +kernel

/-- C51: more velocities than the requested size raise. -/
theorem C51_too_many_velocities (pitches : List Int) (vel : List ℚ) (size classes : Nat)
    (h : size < vel.length) : createTensor .tensor pitches (some vel) size classes = .error .runtime := by
  unfold createTensor
  simp only []
  rw [if_pos h]

/-! ## C86 one-hot vectors -/

/-- C86: one-hot encoding of a chord succeeds exactly when every pitch is below the number of
classes; each row then has a single 1, at the position of its pitch. -/
theorem C86_one_hot (pitches : List Int) (size classes : Nat) (hp : ∀ p ∈ pitches, 0 ≤ p) :
    ((∃ x, createTensor .oneHot pitches none size classes = .ok x) ↔ ∀ p ∈ pitches, p < classes) ∧
    ((∀ p ∈ pitches, p < classes) → ∃ rows, createTensor .oneHot pitches none size classes = .ok (.mat rows) ∧
      rows.length = pitches.length ∧
      ∀ i (h : i < pitches.length), ∃ row, rows[i]? = some row ∧ row.length = classes ∧
        ∀ j, j < classes → row[j]? = some (if (j : Int) = pitches[i] then 1 else 0)) := by
  have hall : pitches.all (fun p => decide (0 ≤ p) && decide (p < classes)) = true ↔
      ∀ p ∈ pitches, p < classes := by
    rw [List.all_eq_true]
    constructor
    · intro h p hp'
      have := h p hp'
      simp only [Bool.and_eq_true, decide_eq_true_eq] at this
      exact this.2
    · intro h p hp'
      simp [hp p hp', h p hp']
  have key : (∀ p ∈ pitches, p < classes) →
      createTensor .oneHot pitches none size classes = .ok (.mat (pitches.map (oneHotRow classes))) := by
    intro h
    unfold createTensor oneHot
    simp only []
    rw [if_pos (hall.2 h)]
    rfl
  refine ⟨⟨?_, fun h => ⟨_, key h⟩⟩, ?_⟩
  · rintro ⟨x, hx⟩
    rw [← hall]
    by_contra hc
    unfold createTensor oneHot at hx
    simp only [] at hx
    rw [if_neg hc] at hx
    cases hx
  · intro h
    refine ⟨_, key h, by simp, ?_⟩
    intro i hi
    refine ⟨oneHotRow classes pitches[i], by simp [hi], by simp [oneHotRow], ?_⟩
    intro j hj
    simp [oneHotRow, hj]

/-- C86 is false for the whole MIDI range: `build_sequence` encodes with 127 classes, so a chord with
the valid pitch 127 raises. -/
theorem C86_pitch_127_raises (pitches : List Int) (size : Nat) (vel : Option (List ℚ))
    (h : 127 ∈ pitches) : createTensor .oneHot pitches vel size 127 = .error .runtime := by
  unfold createTensor oneHot
  simp only []
  rw [if_neg]
  · rfl
  · rw [List.all_eq_true]
    intro hc
    have := hc 127 h
    simp at this

example : createTensor .oneHot [1, 0] none 12 3 = .ok (.mat [[0, 1, 0], [1, 0, 0]]) := by decide +kernel

/-! ## C54 wide chords -/

theorem chunksGo_spec (size : Nat) (hs : 0 < size) (fuel : Nat) (l : List Int) (hf : l.length ≤ fuel) :
    (chunksGo size fuel l).flatten = l ∧ ∀ c ∈ chunksGo size fuel l, c ≠ [] ∧ c.length ≤ size := by
  induction fuel generalizing l with
  | zero =>
    have : l = [] := List.eq_nil_of_length_eq_zero (by omega)
    subst this
    simp [chunksGo]
  | succ n ih =>
    unfold chunksGo
    by_cases h : l = []
    · simp [h]
    · rw [if_neg h]
      have hl : 0 < l.length := List.length_pos_of_ne_nil h
      obtain ⟨h1, h2⟩ := ih (l.drop size) (by rw [List.length_drop]; omega)
      refine ⟨?_, ?_⟩
      · rw [List.flatten_cons, h1, List.take_append_drop]
      · intro c hc
        rcases List.mem_cons.1 hc with rfl | hc
        · refine ⟨?_, by rw [List.length_take]; omega⟩
          intro he
          have := congrArg List.length he
          rw [List.length_take, List.length_nil] at this
          omega
        · exact h2 c hc

theorem flatten_nodup_disjoint (ls : List (List Int)) (h : ls.flatten.Nodup) :
    ls.Pairwise (fun a b => ∀ x ∈ a, x ∉ b) := by
  rw [List.nodup_flatten] at h
  exact h.2.imp (fun hd x hx hx' => hd hx hx')

/-- C54: a chord is cut into non-empty, pairwise disjoint sub chords of at most `size` pitches, which
together contain exactly the pitches of the notes; a chord that fits is not cut. -/
theorem C54_split (env : PyEnv) (henv : env.IterOk) (size : Nat) (hs : 0 < size) (notes : List Note)
    (hne : notes ≠ []) :
    (∀ c ∈ subGroups env size notes, c.Nonempty ∧ c.card ≤ size) ∧
    (subGroups env size notes).Pairwise (fun a b => ∀ x ∈ a, x ∉ b) ∧
    (∀ p, (∃ c ∈ subGroups env size notes, p ∈ c) ↔ ∃ n ∈ notes, n.pitch = p) ∧
    ((notes.map Note.pitch).toFinset.card ≤ size →
      subGroups env size notes = [(notes.map Note.pitch).toFinset]) := by
  have hmem : ∀ p, p ∈ (notes.map Note.pitch).toFinset ↔ ∃ n ∈ notes, n.pitch = p := by
    intro p; simp
  unfold subGroups
  simp only []
  by_cases hc : size < (notes.map Note.pitch).toFinset.card
  · rw [if_pos hc]
    obtain ⟨hnd, hit⟩ := henv (notes.map Note.pitch).toFinset
    obtain ⟨h1, h2⟩ := chunksGo_spec size hs _ (env.iter (notes.map Note.pitch).toFinset) (le_refl _)
    refine ⟨?_, ?_, ?_, fun h => absurd hc (not_lt.2 h)⟩
    · intro c hc'
      obtain ⟨l, hl, rfl⟩ := List.mem_map.1 hc'
      obtain ⟨g1, g2⟩ := h2 l hl
      refine ⟨?_, le_trans (List.toFinset_card_le l) g2⟩
      obtain ⟨x, hx⟩ := List.exists_mem_of_ne_nil l g1
      exact ⟨x, List.mem_toFinset.2 hx⟩
    · rw [List.pairwise_map]
      refine (flatten_nodup_disjoint _ (by rw [h1]; exact hnd)).imp ?_
      intro a b hab x hx hx'
      exact hab x (List.mem_toFinset.1 hx) (List.mem_toFinset.1 hx')
    · intro p
      have hfl := List.mem_flatten (a := p) (L := chunksGo size
        (env.iter (notes.map Note.pitch).toFinset).length (env.iter (notes.map Note.pitch).toFinset))
      rw [h1] at hfl
      rw [← hmem, ← hit, hfl]
      constructor
      · rintro ⟨c, hc', hp⟩
        obtain ⟨l, hl, rfl⟩ := List.mem_map.1 hc'
        exact ⟨l, hl, List.mem_toFinset.1 hp⟩
      · rintro ⟨l, hl, hp⟩
        exact ⟨l.toFinset, List.mem_map.2 ⟨l, hl, rfl⟩, List.mem_toFinset.2 hp⟩
  · rw [if_neg hc]
    refine ⟨?_, by simp, ?_, fun _ => rfl⟩
    · intro c hc'
      rw [List.mem_singleton] at hc'
      subst hc'
      refine ⟨?_, not_lt.1 hc⟩
      obtain ⟨n, hn⟩ := List.exists_mem_of_ne_nil notes hne
      exact ⟨n.pitch, (hmem _).2 ⟨n, hn, rfl⟩⟩
    · intro p
      simp

example : subGroups exEnv 2 [{ exNote with pitch := 9 }, { exNote with pitch := 5 },
    { exNote with pitch := 7 }, { exNote with pitch := 5 }] = [{5, 7}, {9}] := by decide +kernel

/-! ## C84 tolerance argument, C88 automatic tolerance -/

/-- C84 is false: the `tolerance` argument of `build_sequence` has no effect on the graph (it is only
checked to be in 0..1): the tolerance is always computed from the notes. -/
theorem C84_tolerance_ignored (env : PyEnv) (t : Tables) (s : MSeq) (o : BuildOpts) (g : Option MGraph)
    (tol : ℚ) (h1 : 0 ≤ tol ∧ tol ≤ 1) (h2 : 0 ≤ o.tol ∧ o.tol ≤ 1) :
    buildSequence env t s { o with tol := tol } g = buildSequence env t s o g := by
  unfold buildSequence BuildOpts.ok computeData
  simp only [h1.1, h1.2, h2.1, h2.2, if_true]
  rfl

/-- Distances of sorted numbers are not negative. -/
theorem diffs_nonneg (l : List ℚ) (h : l.Pairwise (· ≤ ·)) : ∀ x ∈ diffs l, 0 ≤ x := by
  induction l with
  | nil => simp [diffs]
  | cons a l ih =>
    cases l with
    | nil => simp [diffs]
    | cons b l =>
      rw [List.pairwise_cons] at h
      intro x hx
      rw [diffs, List.mem_cons] at hx
      rcases hx with rfl | hx
      · have := h.1 b (by simp); linarith
      · exact ih h.2 x hx

theorem percentile_between (l : List ℚ) (hl : l ≠ []) (q : ℚ) (h0 : 0 ≤ q) (h1 : q ≤ 100) (lo hi : ℚ)
    (hb : ∀ x ∈ l, lo ≤ x ∧ x ≤ hi) : lo ≤ percentile l q ∧ percentile l q ≤ hi := by
  unfold percentile
  simp only []
  have hlen : (sortByKey id l).length = l.length := (sortByKey_perm id l).length_eq
  have hpos : 0 < l.length := List.length_pos_of_ne_nil hl
  have hbs : ∀ x ∈ sortByKey id l, lo ≤ x ∧ x ≤ hi := fun x hx =>
    hb x ((sortByKey_perm id l).mem_iff.1 hx)
  generalize hs : sortByKey id l = s at *
  set pos : ℚ := q / 100 * ((l.length : ℚ) - 1) with hp
  have hq : (1 : ℚ) ≤ l.length := by exact_mod_cast hpos
  have hp0 : 0 ≤ pos := by
    rw [hp]; apply mul_nonneg <;> linarith
  have hp1 : pos ≤ (l.length : ℚ) - 1 := by
    rw [hp]
    have : q / 100 ≤ 1 := by linarith
    nlinarith
  have hfl0 : 0 ≤ ⌊pos⌋ := Int.floor_nonneg.2 hp0
  have hcast : ((⌊pos⌋.toNat : Nat) : ℚ) = (⌊pos⌋ : ℚ) := by
    have : ((⌊pos⌋.toNat : Nat) : Int) = ⌊pos⌋ := Int.toNat_of_nonneg hfl0
    exact_mod_cast this
  have hi_lt : ⌊pos⌋.toNat < s.length := by
    rw [hlen]
    have h2 : ((⌊pos⌋.toNat : Nat) : ℚ) ≤ (l.length : ℚ) - 1 := by
      rw [hcast]; exact le_trans (Int.floor_le pos) hp1
    have h3 : ((⌊pos⌋.toNat : Nat) : ℚ) < (l.length : ℚ) := by linarith
    exact_mod_cast h3
  have ha : lo ≤ s.getD ⌊pos⌋.toNat 0 ∧ s.getD ⌊pos⌋.toNat 0 ≤ hi := by
    rw [List.getD_eq_getElem?_getD, List.getElem?_eq_getElem hi_lt]
    exact hbs _ (List.getElem_mem hi_lt)
  have hbb : lo ≤ s.getD (⌊pos⌋.toNat + 1) (s.getD ⌊pos⌋.toNat 0) ∧
      s.getD (⌊pos⌋.toNat + 1) (s.getD ⌊pos⌋.toNat 0) ≤ hi := by
    by_cases h : ⌊pos⌋.toNat + 1 < s.length
    · rw [List.getD_eq_getElem?_getD (l := s) (i := ⌊pos⌋.toNat + 1), List.getElem?_eq_getElem h]
      exact hbs _ (List.getElem_mem h)
    · rw [List.getD_eq_getElem?_getD (l := s) (i := ⌊pos⌋.toNat + 1),
        List.getElem?_eq_none (not_lt.1 h)]
      exact ha
  generalize s.getD ⌊pos⌋.toNat 0 = a at *
  generalize s.getD (⌊pos⌋.toNat + 1) a = b at *
  have hf1 : 0 ≤ pos - (⌊pos⌋.toNat : ℚ) := by rw [hcast]; linarith [Int.floor_le pos]
  have hf2 : pos - (⌊pos⌋.toNat : ℚ) ≤ 1 := by rw [hcast]; linarith [Int.lt_floor_add_one pos]
  generalize pos - (⌊pos⌋.toNat : ℚ) = f at *
  have e : a + (b - a) * f = (1 - f) * a + f * b := by ring
  rw [e]
  constructor <;> nlinarith [ha.1, ha.2, hbb.1, hbb.2]

/-- C88: the automatic tolerance is never negative and never larger than the largest distance
between consecutive start times. -/
theorem C88_tolerance_bounds (s : MSeq) (q : ℚ) (h0 : 0 ≤ q) (h1 : q ≤ 100) :
    0 ≤ computeTolerance s q ∧
    ∀ gap, 0 ≤ gap → (∀ x ∈ timeDifferences s, x ≤ gap) → computeTolerance s q ≤ gap := by
  have hnn : ∀ x ∈ timeDifferences s, 0 ≤ x := by
    unfold timeDifferences
    apply diffs_nonneg
    exact sortByKey_sorted id _
  unfold computeTolerance
  simp only []
  split
  · exact ⟨le_refl _, fun gap hg _ => hg⟩
  · rename_i hlen
    have hne : timeDifferences s ≠ [] := by intro h; rw [h] at hlen; simp at hlen
    refine ⟨?_, ?_⟩
    · have : ∀ x ∈ timeDifferences s, 0 ≤ x ∧ x ≤ maxDefault 0 (timeDifferences s) :=
        fun x hx => ⟨hnn x hx, maxDefault_ge 0 _ x hx⟩
      exact (percentile_between _ hne q h0 h1 _ _ this).1
    · intro gap _ hle
      exact (percentile_between _ hne q h0 h1 0 gap (fun x hx => ⟨hnn x hx, hle x hx⟩)).2

example : computeTolerance exMelody = 1/2 := by decide +kernel

end NGC
