import Verif.FloatTreeLemmas2
import Mathlib.Data.Finset.Card
import Mathlib.Data.Finset.Basic

/-! Properties C41-C44 and C92-C94: the float interval tree. -/

namespace NGC

variable {D : Type} [DecidableEq D]

namespace Spec

/-- The abstract set of stored intervals after one operation. -/
def setStep (S : Finset (FIv D)) : TOp D → Finset (FIv D)
  | .add iv => insert iv S
  | .discard iv => S.erase iv
  | .remove iv => S.erase iv
  | .clear => ∅

/-- The abstract set after a history. -/
def stored (ops : List (TOp D)) : Finset (FIv D) := ops.foldl setStep ∅

/-- An interval longer than 3·10⁻⁹ times its larger end point in absolute value (every interval
of a musically meaningful length). -/
def Wide (iv : FIv D) : Prop := 3 / 1000000000 * max |iv.b| |iv.e| < iv.e - iv.b

/-- `p` lies in the half-open interval. -/
def Contains (iv : FIv D) (p : ℚ) : Prop := iv.b ≤ p ∧ p < iv.e

end Spec

/-- Run a history from the empty tree; an exception ends it. -/
def runTree (lim : Nat) (ops : List (TOp D)) : Py (FTree D) :=
  ops.foldlM (fun t op => op.run lim t) FTree.empty

/-! ### Boundary table -/

/-- The table represents the multiplicity function `f`. -/
def Rep (t : List (ℚ × Nat)) (f : ℚ → Nat) : Prop :=
  (dkeys t).Nodup ∧ ∀ k, dget t k = if f k = 0 then none else some (f k)

theorem Rep.add {t : List (ℚ × Nat)} {f : ℚ → Nat} (h : Rep t f) (x : ℚ) :
    Rep (addBound t x) (fun k => f k + if k = x then 1 else 0) := by
  obtain ⟨hn, hg⟩ := h
  unfold addBound
  rw [hg x]
  by_cases hx : f x = 0
  · simp only [hx, if_true]
    refine ⟨dset_nodup _ _ _ hn, fun k => ?_⟩
    rw [dget_dset]
    by_cases hk : x = k
    · subst hk; simp [hx]
    · have hk' : ¬ k = x := fun e => hk e.symm
      simp [hk, hk', hg k]
  · simp only [hx, if_false]
    refine ⟨dset_nodup _ _ _ hn, fun k => ?_⟩
    rw [dget_dset]
    by_cases hk : x = k
    · subst hk; simp
    · have hk' : ¬ k = x := fun e => hk e.symm
      simp [hk, hk', hg k]

theorem dget_ddel (t : List (ℚ × Nat)) (x k : ℚ) :
    dget (ddel t x) k = if k = x then none else dget t k := by
  induction t with
  | nil => simp [ddel, dget]
  | cons p t ih =>
    unfold ddel at ih ⊢
    rw [List.filter_cons]
    by_cases hp : p.1 = x
    · simp only [hp, ne_eq, not_true_eq_false, decide_false, Bool.false_eq_true, if_false]
      rw [ih]
      by_cases hk : k = x
      · simp [hk]
      · have : ¬ p.1 = k := by rw [hp]; exact fun e => hk e.symm
        simp [hk, dget, this]
    · simp only [ne_eq, hp, not_false_eq_true, decide_true, if_true]
      rw [dget, dget, ih]
      by_cases hk : p.1 = k
      · have : ¬ k = x := by rw [← hk]; exact hp
        simp [hk, this]
      · simp [hk]

theorem Rep.del {t : List (ℚ × Nat)} {f : ℚ → Nat} (h : Rep t f) (x : ℚ) (hx : 0 < f x) :
    ∃ t', delBound t x = .ok t' ∧ Rep t' (fun k => f k - if k = x then 1 else 0) := by
  obtain ⟨hn, hg⟩ := h
  unfold delBound
  have h0 : f x ≠ 0 := by omega
  rw [hg x, if_neg h0]
  by_cases h1 : f x = 1
  · simp only [h1, if_true]
    refine ⟨_, rfl, ?_, fun k => ?_⟩
    · unfold ddel dkeys
      exact (List.Sublist.map _ List.filter_sublist).nodup hn
    · rw [dget_ddel]
      by_cases hk : k = x
      · subst hk; simp [h1]
      · simp [hk, hg k]
  · simp only [h1, if_false]
    refine ⟨_, rfl, dset_nodup _ _ _ hn, fun k => ?_⟩
    rw [dget_dset]
    by_cases hk : x = k
    · subst hk
      have : f x - 1 ≠ 0 := by omega
      simp [this]
    · have hk' : ¬ k = x := fun e => hk e.symm
      simp [hk, hk', hg k]

/-- How many stored ends lie at `k`. -/
def endsAt (l : List (FIv D)) (k : ℚ) : Nat :=
  l.countP (fun iv => decide (iv.b = k)) + l.countP (fun iv => decide (iv.e = k))

/-- Invariant of the set and the boundary table. -/
structure FInv (t : FTree D) : Prop where
  nodup : t.all.Nodup
  real : ∀ iv ∈ t.all, iv.b < iv.e
  bounds : Rep t.bounds (endsAt t.all)

theorem FInv.empty : FInv (FTree.empty : FTree D) :=
  ⟨List.nodup_nil, by simp [FTree.empty], List.nodup_nil, fun k => by simp [FTree.empty, endsAt, dget]⟩

theorem addBoth (b : List (ℚ × Nat)) (l : List (FIv D)) (iv : FIv D) (h : Rep b (endsAt l)) :
    Rep (addBound (addBound b iv.b) iv.e) (endsAt (l ++ [iv])) := by
  have := (h.add iv.b).add iv.e
  have he : (fun k => (endsAt l k + if k = iv.b then 1 else 0) + if k = iv.e then 1 else 0) =
      endsAt (l ++ [iv]) := by
    funext k
    unfold endsAt
    rw [List.countP_append, List.countP_append]
    by_cases h1 : iv.b = k <;> by_cases h2 : iv.e = k
    · simp [h1, h2]; omega
    · have h2' : ¬ k = iv.e := fun e => h2 e.symm
      simp [h1, h2, h2']; omega
    · have h1' : ¬ k = iv.b := fun e => h1 e.symm
      simp [h1, h2, h1']; omega
    · have h1' : ¬ k = iv.b := fun e => h1 e.symm
      have h2' : ¬ k = iv.e := fun e => h2 e.symm
      simp [h1, h2, h1', h2']
  rw [he] at this
  exact this

theorem delBoth (b : List (ℚ × Nat)) (l : List (FIv D)) (iv : FIv D) (hin : iv ∈ l)
    (h : Rep b (endsAt l)) :
    ∃ b1 b2, delBound b iv.b = .ok b1 ∧ delBound b1 iv.e = .ok b2 ∧ Rep b2 (endsAt (l.erase iv)) := by
  have hp := List.perm_cons_erase hin
  have key : ∀ k, endsAt l k = (endsAt (l.erase iv) k + if k = iv.b then 1 else 0) +
      if k = iv.e then 1 else 0 := by
    intro k
    unfold endsAt
    rw [hp.countP_eq, hp.countP_eq, List.countP_cons, List.countP_cons]
    by_cases h1 : iv.b = k <;> by_cases h2 : iv.e = k
    · simp [h1, h2]; omega
    · have h2' : ¬ k = iv.e := fun e => h2 e.symm
      simp [h1, h2, h2']; omega
    · have h1' : ¬ k = iv.b := fun e => h1 e.symm
      simp [h1, h2, h1']; omega
    · have h1' : ¬ k = iv.b := fun e => h1 e.symm
      have h2' : ¬ k = iv.e := fun e => h2 e.symm
      simp [h1, h2, h1', h2']
  obtain ⟨b1, e1, r1⟩ := h.del iv.b (by rw [key]; simp)
  obtain ⟨b2, e2, r2⟩ := r1.del iv.e (by
    rw [key]
    by_cases h1 : iv.e = iv.b
    · simp [h1]
    · simp [h1])
  refine ⟨b1, b2, e1, e2, ?_⟩
  have he : (fun k => (endsAt l k - if k = iv.b then 1 else 0) - if k = iv.e then 1 else 0) =
      endsAt (l.erase iv) := by
    funext k
    rw [key k]
    split <;> split <;> omega
  rw [he] at r2
  exact r2

theorem add_ok (lim : Nat) (t t' : FTree D) (iv : FIv D) (h : t.add lim iv = .ok t') :
    (iv ∈ t.all ∧ t' = t) ∨ (iv ∉ t.all ∧ iv.b < iv.e ∧ ∃ top, t.top.addTop lim iv = .ok top ∧
      t' = ⟨t.all ++ [iv], top, addBound (addBound t.bounds iv.b) iv.e⟩) := by
  unfold FTree.add FTree.has FIv.isNull at h
  by_cases hin : iv ∈ t.all
  · simp only [hin, decide_true, if_true] at h
    cases h
    exact Or.inl ⟨hin, rfl⟩
  · by_cases hn : iv.e ≤ iv.b
    · simp only [hin, decide_false, Bool.false_eq_true, if_false, hn, decide_true, if_true] at h
      cases h
    · simp only [hin, decide_false, Bool.false_eq_true, if_false, hn] at h
      cases htop : t.top.addTop lim iv with
      | error e => simp only [htop, bind, Except.bind] at h; cases h
      | ok top =>
        simp only [htop, bind, Except.bind] at h
        cases h
        exact Or.inr ⟨hin, not_le.1 hn, top, rfl, rfl⟩

/-- One operation that returns: effect on the set, and the invariant is kept. -/
theorem TOp.run_inv (lim : Nat) (t t' : FTree D) (op : TOp D) (h : op.run lim t = .ok t')
    (inv : FInv t) :
    FInv t' ∧ t'.all.toFinset = Spec.setStep t.all.toFinset op := by
  cases op with
  | add iv =>
    rcases add_ok lim t t' iv h with ⟨hin, rfl⟩ | ⟨hin, hlt, top, htop, rfl⟩
    · refine ⟨inv, ?_⟩
      simp only [Spec.setStep]
      rw [Finset.insert_eq_of_mem]
      simpa using hin
    · refine ⟨⟨?_, ?_, ?_⟩, ?_⟩
      · rw [List.nodup_append]
        refine ⟨inv.nodup, by simp, ?_⟩
        intro a ha b hb e
        rw [List.mem_singleton] at hb
        subst hb; subst e
        exact hin ha
      · intro j hj
        rcases List.mem_append.1 hj with hj | hj
        · exact inv.real j hj
        · rw [List.mem_singleton] at hj; rw [hj]; exact hlt
      · exact addBoth _ _ _ inv.bounds
      · simp only [Spec.setStep, List.toFinset_append]
        ext a
        simp [or_comm]
  | discard iv =>
    simp only [TOp.run, FTree.discard, FTree.has] at h
    by_cases hin : iv ∉ t.all
    · simp only [hin, decide_false, Bool.not_false, if_true] at h
      cases h
      refine ⟨inv, ?_⟩
      simp only [Spec.setStep]
      rw [Finset.erase_eq_of_notMem]
      simpa using hin
    · have hin : iv ∈ t.all := not_not.1 hin
      simp only [hin, decide_true, Bool.not_true, Bool.false_eq_true, if_false] at h
      cases hr : ITree.removeHelper lim t.top iv false with
      | error e => simp only [hr, bind, Except.bind] at h; cases h
      | ok q =>
        obtain ⟨b1, b2, e1, e2, r⟩ := delBoth _ _ _ hin inv.bounds
        simp only [hr, bind, Except.bind, e1, e2] at h
        cases h
        refine ⟨⟨inv.nodup.erase _, fun j hj => inv.real j (List.mem_of_mem_erase hj), r⟩, ?_⟩
        simp only [Spec.setStep]
        ext a
        simp [List.Nodup.mem_erase_iff inv.nodup]
  | remove iv =>
    simp only [TOp.run, FTree.remove, FTree.has] at h
    by_cases hin : iv ∉ t.all
    · simp only [hin, decide_false, Bool.not_false, if_true] at h
      cases h
    · have hin : iv ∈ t.all := not_not.1 hin
      simp only [hin, decide_true, Bool.not_true, Bool.false_eq_true, if_false] at h
      cases hr : ITree.removeHelper lim t.top iv true with
      | error e => simp only [hr, bind, Except.bind] at h; cases h
      | ok q =>
        obtain ⟨b1, b2, e1, e2, r⟩ := delBoth _ _ _ hin inv.bounds
        simp only [hr, bind, Except.bind, e1, e2] at h
        cases h
        refine ⟨⟨inv.nodup.erase _, fun j hj => inv.real j (List.mem_of_mem_erase hj), r⟩, ?_⟩
        simp only [Spec.setStep]
        ext a
        simp [List.Nodup.mem_erase_iff inv.nodup]
  | clear =>
    cases h
    exact ⟨FInv.empty, by simp [FTree.empty, Spec.setStep]⟩

theorem runTree_inv (lim : Nat) (ops : List (TOp D)) (t : FTree D)
    (h : runTree lim ops = .ok t) : FInv t ∧ t.all.toFinset = Spec.stored ops := by
  have gen : ∀ (ops : List (TOp D)) (t0 t : FTree D), FInv t0 →
      ops.foldlM (fun t op => op.run lim t) t0 = .ok t →
      FInv t ∧ t.all.toFinset = ops.foldl Spec.setStep t0.all.toFinset := by
    intro ops
    induction ops with
    | nil => intro t0 t inv h; cases h; exact ⟨inv, rfl⟩
    | cons op ops ih =>
      intro t0 t inv h
      rw [List.foldlM_cons] at h
      cases h1 : op.run lim t0 with
      | error e => simp only [h1, bind, Except.bind] at h; cases h
      | ok t1 =>
        simp only [h1, bind, Except.bind] at h
        obtain ⟨i1, s1⟩ := TOp.run_inv lim t0 t1 op h1 inv
        obtain ⟨i2, s2⟩ := ih t1 t i1 h
        exact ⟨i2, by rw [s2, s1, List.foldl_cons]⟩
  have := gen ops FTree.empty t FInv.empty h
  exact ⟨this.1, by rw [this.2]; rfl⟩

theorem mem_keys (t : FTree D) (inv : FInv t) (k : ℚ) :
    k ∈ t.keys ↔ ∃ iv ∈ t.all, iv.b = k ∨ iv.e = k := by
  unfold FTree.keys
  rw [(sortByKey_perm _ _).mem_iff]
  have h1 := inv.bounds.2 k
  have h2 : k ∈ dkeys t.bounds ↔ endsAt t.all k ≠ 0 := by
    rw [← not_iff_not, ← dget_eq_none, h1]
    by_cases h : endsAt t.all k = 0 <;> simp [h]
  rw [h2]
  unfold endsAt
  constructor
  · intro h
    have : 0 < t.all.countP (fun iv => decide (iv.b = k)) ∨
        0 < t.all.countP (fun iv => decide (iv.e = k)) := by omega
    rcases this with h | h <;> obtain ⟨iv, hm, hv⟩ := List.countP_pos_iff.1 h
    · exact ⟨iv, hm, Or.inl (by simpa using hv)⟩
    · exact ⟨iv, hm, Or.inr (by simpa using hv)⟩
  · rintro ⟨iv, hm, h | h⟩
    · have : 0 < t.all.countP (fun iv => decide (iv.b = k)) :=
        List.countP_pos_iff.2 ⟨iv, hm, by simpa using h⟩
      omega
    · have : 0 < t.all.countP (fun iv => decide (iv.e = k)) :=
        List.countP_pos_iff.2 ⟨iv, hm, by simpa using h⟩
      omega

theorem begin_spec (t : FTree D) (inv : FInv t) :
    (t.all = [] → t.begin = 0) ∧ (∀ iv ∈ t.all, t.begin ≤ iv.b) ∧
    (t.all ≠ [] → ∃ iv ∈ t.all, t.begin = iv.b) := by
  have hs : t.keys.Pairwise (fun a b => a ≤ b) := sortByKey_sorted id _
  unfold FTree.begin
  cases hk : t.keys with
  | nil =>
    have hnone : t.all = [] := by
      cases ha : t.all with
      | nil => rfl
      | cons iv l =>
        have := (mem_keys t inv iv.b).2 ⟨iv, by rw [ha]; simp, Or.inl rfl⟩
        rw [hk] at this; cases this
    simp [hnone]
  | cons k ks =>
    rw [hk] at hs
    have hmin : ∀ y ∈ t.keys, k ≤ y := by
      intro y hy
      rw [hk] at hy
      rcases List.mem_cons.1 hy with rfl | hy
      · exact le_refl _
      · exact (List.pairwise_cons.1 hs).1 y hy
    obtain ⟨iv, hm, hv⟩ := (mem_keys t inv k).1 (by rw [hk]; simp)
    refine ⟨fun h0 => by rw [h0] at hm; (cases hm), ?_, ?_⟩
    · intro j hj
      exact hmin _ ((mem_keys t inv j.b).2 ⟨j, hj, Or.inl rfl⟩)
    · intro _
      rcases hv with hv | hv
      · exact ⟨iv, hm, by simpa using hv.symm⟩
      · have := inv.real iv hm
        have := hmin _ ((mem_keys t inv iv.b).2 ⟨iv, hm, Or.inl rfl⟩)
        rw [hv] at *
        linarith

theorem stop_spec (t : FTree D) (inv : FInv t) :
    (t.all = [] → t.stop = 0) ∧ (∀ iv ∈ t.all, iv.e ≤ t.stop) ∧
    (t.all ≠ [] → ∃ iv ∈ t.all, t.stop = iv.e) := by
  have hs : t.keys.Pairwise (fun a b => a ≤ b) := sortByKey_sorted id _
  unfold FTree.stop
  rcases List.eq_nil_or_concat t.keys with hk | ⟨ks, k, hk⟩
  · have hnone : t.all = [] := by
      cases ha : t.all with
      | nil => rfl
      | cons iv l =>
        have := (mem_keys t inv iv.b).2 ⟨iv, by rw [ha]; simp, Or.inl rfl⟩
        rw [hk] at this; cases this
    simp [hnone, hk]
  · rw [List.concat_eq_append] at hk
    rw [hk] at hs
    have hmax : ∀ y ∈ t.keys, y ≤ k := by
      intro y hy
      rw [hk] at hy
      rcases List.mem_append.1 hy with hy | hy
      · exact (List.pairwise_append.1 hs).2.2 y hy k (by simp)
      · rw [List.mem_singleton] at hy; rw [hy]
    have hlast : t.keys.getLastD 0 = k := by rw [hk]; simp
    rw [hlast]
    obtain ⟨iv, hm, hv⟩ := (mem_keys t inv k).1 (by rw [hk]; simp)
    refine ⟨fun h0 => by rw [h0] at hm; (cases hm), ?_, ?_⟩
    · intro j hj
      exact hmax _ ((mem_keys t inv j.e).2 ⟨j, hj, Or.inr rfl⟩)
    · intro _
      rcases hv with hv | hv
      · have := inv.real iv hm
        have := hmax _ ((mem_keys t inv iv.e).2 ⟨iv, hm, Or.inr rfl⟩)
        rw [hv] at *
        linarith
      · exact ⟨iv, hm, hv.symm⟩

/-! ## C41 -/

/-- **C41.** After every history of add, discard, remove and clear that ran without exception, the
tree behaves as the mathematical set: membership and length agree with it, it contains no empty
interval, and `begin()`/`end()` are the least begin and the greatest end (0 for the empty tree). -/
theorem C41_set_semantics (lim : Nat) (ops : List (TOp D)) (t : FTree D)
    (h : runTree lim ops = .ok t) :
    (∀ iv, t.has iv = true ↔ iv ∈ Spec.stored ops) ∧ t.len = (Spec.stored ops).card ∧
    (∀ iv ∈ Spec.stored ops, iv.b < iv.e) ∧
    (Spec.stored ops = ∅ → t.begin = 0 ∧ t.stop = 0) ∧
    (∀ iv ∈ Spec.stored ops, t.begin ≤ iv.b ∧ iv.e ≤ t.stop) ∧
    (Spec.stored ops ≠ ∅ → (∃ iv ∈ Spec.stored ops, t.begin = iv.b) ∧
      ∃ iv ∈ Spec.stored ops, t.stop = iv.e) := by
  obtain ⟨inv, hs⟩ := runTree_inv lim ops t h
  have hm : ∀ iv, iv ∈ Spec.stored ops ↔ iv ∈ t.all := by
    intro iv; rw [← hs, List.mem_toFinset]
  have he : Spec.stored ops = ∅ ↔ t.all = [] := by
    rw [← hs, List.toFinset_eq_empty_iff]
  obtain ⟨b1, b2, b3⟩ := begin_spec t inv
  obtain ⟨s1, s2, s3⟩ := stop_spec t inv
  refine ⟨?_, ?_, ?_, ?_, ?_, ?_⟩
  · intro iv
    rw [hm]
    simp [FTree.has]
  · rw [← hs, List.toFinset_card_of_nodup inv.nodup]
    rfl
  · intro iv hiv; exact inv.real iv ((hm iv).1 hiv)
  · intro h0; rw [he] at h0; exact ⟨b1 h0, s1 h0⟩
  · intro iv hiv; rw [hm] at hiv; exact ⟨b2 iv hiv, s2 iv hiv⟩
  · intro h0
    rw [ne_eq, he] at h0
    obtain ⟨i, hi, e⟩ := b3 h0
    obtain ⟨j, hj, e'⟩ := s3 h0
    exact ⟨⟨i, (hm i).2 hi, e⟩, ⟨j, (hm j).2 hj, e'⟩⟩

/-- **C41, empty intervals.** Adding an interval with `end ≤ begin` to a tree reached by any history
raises ValueError. -/
theorem C41_null_rejected (lim : Nat) (ops : List (TOp D)) (t : FTree D)
    (h : runTree lim ops = .ok t) (iv : FIv D) (hn : iv.e ≤ iv.b) :
    t.add lim iv = .error .value := by
  obtain ⟨inv, _⟩ := runTree_inv lim ops t h
  have hin : iv ∉ t.all := fun hm => absurd (inv.real iv hm) (not_lt.2 hn)
  unfold FTree.add FTree.has FIv.isNull
  simp [hin, hn]

/-- **C41, idempotence.** Adding a stored interval again changes nothing. -/
theorem C41_add_twice (lim : Nat) (t t1 : FTree D) (iv : FIv D) (h : t.add lim iv = .ok t1) :
    t1.add lim iv = .ok t1 := by
  have hin : iv ∈ t1.all := by
    rcases add_ok lim t t1 iv h with ⟨hin, rfl⟩ | ⟨_, _, top, _, rfl⟩
    · exact hin
    · simp
  unfold FTree.add FTree.has
  simp [hin]

/-! ### Wide intervals -/

theorem Wide.noPoint (iv : FIv D) (h : Spec.Wide iv) : iv.NoPoint := by
  intro p
  by_contra hc
  have hc : iv.containsPoint p = true := by simpa using hc
  unfold FIv.containsPoint iclose isclose at hc
  simp only [Bool.and_eq_true, decide_eq_true_eq] at hc
  obtain ⟨h1, h2⟩ := hc
  unfold Spec.Wide at h
  set M := max |iv.b| |iv.e| with hM
  have hb : |iv.b| ≤ M := le_max_left _ _
  have he : |iv.e| ≤ M := le_max_right _ _
  have hM0 : 0 ≤ M := le_trans (abs_nonneg _) hb
  have h0 : (0 : ℚ) ≤ 1 / 1000000000 * max |iv.b| |p| := by positivity
  have h0' : (0 : ℚ) ≤ 1 / 1000000000 * max |p| |iv.e| := by positivity
  rw [max_eq_left h0] at h1
  rw [max_eq_left h0'] at h2
  have hp : |p| ≤ 1001 / 1000 * M := by
    by_contra hc
    have hc := not_le.1 hc
    have hmax : max |iv.b| |p| = |p| := by
      apply max_eq_right
      linarith
    rw [hmax] at h1
    have h3 : |p| - |iv.b| ≤ |iv.b - p| := by
      have := abs_sub_abs_le_abs_sub p iv.b
      rwa [abs_sub_comm] at this
    have : |p| ≤ |iv.b| + 1 / 1000000000 * |p| := by linarith
    have : |p| * (1 - 1 / 1000000000) ≤ M := by linarith
    nlinarith
  have hm1 : max |iv.b| |p| ≤ 1001 / 1000 * M := max_le (by linarith) hp
  have hm2 : max |p| |iv.e| ≤ 1001 / 1000 * M := max_le hp (by linarith)
  have h3 : iv.e - iv.b ≤ |iv.b - p| + |p - iv.e| := by
    have h4 := neg_abs_le (iv.b - p)
    have h5 := neg_abs_le (p - iv.e)
    linarith
  linarith

/-- Invariant of trees made of wide intervals. -/
structure FTInv (t : FTree D) (k : Nat) : Prop where
  dep : ITree.Dep t.top
  noPts : ITree.NoPts t.top
  size : t.top.count ≤ k
  sub : ∀ a, t.all.count a ≤ t.top.ivs.count a
  real : FInv t

theorem FTInv.top_ne_nil {t : FTree D} {k : Nat} (inv : FTInv t k) (h : t.all ≠ []) :
    t.top ≠ .nil := by
  intro h0
  obtain ⟨iv, hiv⟩ := List.exists_mem_of_ne_nil _ h
  have := inv.sub iv
  rw [h0] at this
  have h2 := List.count_pos_iff.2 hiv
  simp [ITree.ivs] at this
  omega

/-- The operations of C41's totality statement. -/
def Spec.Fine : TOp D → Prop
  | .add iv => Spec.Wide iv
  | .discard iv => Spec.Wide iv
  | .remove _ => False
  | .clear => True

theorem Wide.lt (iv : FIv D) (h : Spec.Wide iv) : iv.b < iv.e := by
  unfold Spec.Wide at h
  have : (0 : ℚ) ≤ 3 / 1000000000 * max |iv.b| |iv.e| := by positivity
  linarith

theorem TOp.run_total (lim k : Nat) (t : FTree D) (op : TOp D) (hf : Spec.Fine op)
    (inv : FTInv t k) (hl : 4 * k + 5 ≤ lim) :
    ∃ t', op.run lim t = .ok t' ∧ FTInv t' (k + 1) := by
  cases op with
  | add iv =>
    have hw : Spec.Wide iv := hf
    have hnp := Wide.noPoint iv hw
    have hlt := Wide.lt iv hw
    by_cases hin : iv ∈ t.all
    · refine ⟨t, ?_, inv.dep, inv.noPts, by have := inv.size; omega, inv.sub, inv.real⟩
      simp [TOp.run, FTree.add, FTree.has, hin]
    · have hnull : ¬ iv.e ≤ iv.b := not_le.2 hlt
      have htop : ∃ top, (t.top.addTop lim iv) = .ok top ∧ ITree.Dep top ∧ top.count = t.top.count + 1 ∧
          ∀ a, top.ivs.count a = t.top.ivs.count a + [iv].count a := by
        unfold ITree.addTop
        cases ht : t.top with
        | nil =>
          refine ⟨_, rfl, ⟨rfl, rfl, trivial, trivial⟩, rfl, ?_⟩
          intro a
          simp [ITree.single, ITree.ivs_mk, ITree.ivs]
        | node x s l r d b =>
          have hi := inv.dep
          have hn := inv.noPts
          have hs := inv.size
          rw [ht] at hi hn hs
          obtain ⟨t', h1, h2, _, h4, h5⟩ := ITree.add_total iv hnp lim _ (by intro h; cases h)
            hi hn (by omega)
          exact ⟨t', h1, h2, h4, h5⟩
      obtain ⟨top, e1, d1, c1, s1⟩ := htop
      have hrun : (TOp.add iv).run lim t =
          .ok ⟨t.all ++ [iv], top, addBound (addBound t.bounds iv.b) iv.e⟩ := by
        simp only [TOp.run, FTree.add, FTree.has, FIv.isNull, hin, decide_false,
          Bool.false_eq_true, if_false, hnull, e1, bind, Except.bind]
      refine ⟨_, hrun, d1, ?_, ?_, ?_, (TOp.run_inv lim t _ _ hrun inv.real).1⟩
      · intro j hj
        have h0 := List.count_pos_iff.2 hj
        simp only at h0
        rw [s1 j] at h0
        by_cases hji : j = iv
        · rw [hji]; exact hnp
        · have : [iv].count j = 0 := by rw [List.count_eq_zero]; simpa using hji
          exact inv.noPts j (List.count_pos_iff.1 (by omega))
      · have := inv.size
        simp only
        omega
      · intro a
        have := inv.sub a
        simp only [List.count_append]
        rw [s1 a]
        omega
  | discard iv =>
    have hw : Spec.Wide iv := hf
    have hnp := Wide.noPoint iv hw
    by_cases hin : iv ∈ t.all
    · have hne := inv.top_ne_nil (by intro h; rw [h] at hin; cases hin)
      have hr := ITree.removeHelper_noPoint iv hnp false lim t.top hne (by have := inv.size; omega)
      simp only [Bool.false_eq_true, if_false] at hr
      obtain ⟨b1, b2, e1, e2, r⟩ := delBoth _ _ _ hin inv.real.bounds
      have hrun : (TOp.discard iv).run lim t = .ok ⟨t.all.erase iv, t.top, b2⟩ := by
        simp only [TOp.run, FTree.discard, FTree.has, hin, decide_true, Bool.not_true,
          Bool.false_eq_true, if_false, hr, bind, Except.bind, e1, e2]
      refine ⟨_, hrun, inv.dep, inv.noPts, by have := inv.size; simp only; omega, ?_,
        (TOp.run_inv lim t _ _ hrun inv.real).1⟩
      intro a
      exact le_trans (List.Sublist.count_le a List.erase_sublist) (inv.sub a)
    · refine ⟨t, ?_, inv.dep, inv.noPts, by have := inv.size; omega, inv.sub, inv.real⟩
      simp [TOp.run, FTree.discard, FTree.has, hin]
  | remove iv => exact absurd hf id
  | clear =>
    refine ⟨FTree.empty, rfl, trivial, ?_, ?_, ?_, FInv.empty⟩
    · intro iv h; cases h
    · simp [FTree.empty, ITree.count]
    · intro a; simp [FTree.empty]

theorem runTree_total (lim : Nat) (ops : List (TOp D)) (hf : ∀ op ∈ ops, Spec.Fine op)
    (hl : 4 * ops.length + 5 ≤ lim) : ∃ t, runTree lim ops = .ok t ∧ FTInv t ops.length := by
  have gen : ∀ (ops : List (TOp D)) (t0 : FTree D) (k : Nat), (∀ op ∈ ops, Spec.Fine op) →
      FTInv t0 k → 4 * (k + ops.length) + 5 ≤ lim →
      ∃ t, ops.foldlM (fun t op => op.run lim t) t0 = .ok t ∧ FTInv t (k + ops.length) := by
    intro ops
    induction ops with
    | nil => intro t0 k _ inv _; exact ⟨t0, rfl, by simpa using inv⟩
    | cons op ops ih =>
      intro t0 k hf inv hl
      simp only [List.length_cons] at hl
      obtain ⟨t1, h1, i1⟩ := TOp.run_total lim k t0 op (hf op (by simp)) inv (by omega)
      obtain ⟨t, h2, i2⟩ := ih t1 (k + 1) (fun o ho => hf o (by simp [ho])) i1 (by omega)
      refine ⟨t, ?_, ?_⟩
      · rw [List.foldlM_cons]
        simp only [h1, bind, Except.bind]
        exact h2
      · rw [List.length_cons]
        have : k + (ops.length + 1) = k + 1 + ops.length := by omega
        rw [this]; exact i2
  have i0 : FTInv (FTree.empty : FTree D) 0 :=
    ⟨trivial, (fun iv h => by cases h), (by simp [FTree.empty, ITree.count]),
      (fun a => by simp [FTree.empty]), FInv.empty⟩
  have := gen ops FTree.empty 0 hf i0 (by omega)
  simp only [Nat.zero_add] at this
  exact this

/-- **C41, no exceptions.** A history of adds, discards and clears of wide intervals never raises,
as long as the interpreter's recursion limit exceeds four times the history length. (Python's default
limit of 1000 allows 248 operations by this simple bound; the
bound itself is linear in the history length.) -/
theorem C41_never_raises (lim : Nat) (ops : List (TOp D)) (hf : ∀ op ∈ ops, Spec.Fine op)
    (hl : 4 * ops.length + 5 ≤ lim) : ∃ t, runTree lim ops = .ok t := by
  obtain ⟨t, h, _⟩ := runTree_total lim ops hf hl
  exact ⟨t, h⟩

/-- Four intervals, used as a concrete history below. -/
def exIvs : List (FIv Nat) := [⟨0, 1, 0⟩, ⟨1/2, 3, 0⟩, ⟨1/2, 3, 7⟩, ⟨5, 6, 0⟩]

/-- Adds, a repeated add and a discard: the premises of C41 are met. -/
def exHist : List (TOp Nat) := exIvs.map .add ++ [.add ⟨5, 6, 0⟩, .discard ⟨0, 1, 0⟩]

example : (runTree 1000 exHist).map (fun t => (t.len, t.begin, t.stop)) = .ok (3, 1/2, 6) := by
  decide +kernel

example : ∀ op ∈ exHist, Spec.Fine op := by
  intro op h
  simp only [exHist, exIvs, List.map_cons, List.map_nil, List.cons_append, List.nil_append,
    List.mem_cons, List.not_mem_nil, or_false] at h
  rcases h with h | h | h | h | h | h <;> subst h <;>
    simp [Spec.Fine, Spec.Wide] <;> norm_num [abs_of_nonneg]

/-! ## C42 -/

/-- **C42.** After any history of adds, removes and clears that ran without exception (for all
intervals, also point-like ones), the node structure holds exactly the stored intervals, each once:
rotations, promotions and prunings never lose or invent an interval. (Discards are excluded: see
`C43_discard_leaves_node`.) -/
theorem C42_nodes_hold_stored (lim : Nat) (ops : List (TOp D)) (t : FTree D)
    (hd : ∀ op ∈ ops, ∀ iv, op ≠ .discard iv) (h : runTree lim ops = .ok t) :
    t.top.ivs.Perm t.all := by
  have gen : ∀ (ops : List (TOp D)) (t0 t : FTree D), (∀ op ∈ ops, ∀ iv, op ≠ .discard iv) →
      FInv t0 → (∀ a, t0.top.ivs.count a = t0.all.count a) →
      ops.foldlM (fun t op => op.run lim t) t0 = .ok t →
      ∀ a, t.top.ivs.count a = t.all.count a := by
    intro ops
    induction ops with
    | nil => intro t0 t _ _ hc h; cases h; exact hc
    | cons op ops ih =>
      intro t0 t hd inv hc h
      rw [List.foldlM_cons] at h
      cases h1 : op.run lim t0 with
      | error e => simp only [h1, bind, Except.bind] at h; cases h
      | ok t1 =>
        simp only [h1, bind, Except.bind] at h
        have i1 := (TOp.run_inv lim t0 t1 op h1 inv).1
        refine ih t1 t (fun o ho => hd o (by simp [ho])) i1 ?_ h
        have honce : ITree.Once t0.top := by
          intro a
          rw [hc a]
          exact List.nodup_iff_count_le_one.1 inv.nodup a
        clear ih h
        cases op with
        | add iv =>
          rcases add_ok lim t0 t1 iv h1 with ⟨hin, rfl⟩ | ⟨hin, hlt, top, htop, rfl⟩
          · exact hc
          · have hiv0 : t0.top.ivs.count iv = 0 := by
              rw [hc iv]; exact List.count_eq_zero.2 hin
            · intro a
              simp only [List.count_append]
              rw [← hc a]
              -- adding to a node keeps the rest
              have addc : ∀ (n : Nat) (u u' : ITree D), ITree.Once u → u.ivs.count iv = 0 →
                  ITree.add n u iv = .ok u' →
                  ∀ a, u'.ivs.count a = u.ivs.count a + [iv].count a := by
                intro n
                induction n with
                | zero => intro u u' _ _ h; rw [ITree.add] at h; cases h
                | succ n ih =>
                  intro u u' ho h0 h
                  cases u with
                  | nil => rw [ITree.add] at h; cases h
                  | node x s l r d b =>
                    rw [ITree.add] at h
                    split at h
                    · cases h
                      intro a
                      have hsu := ITree.count_setUpdate s [iv] (by
                        intro a
                        have h2 := ho a
                        simp only [ITree.ivs, List.count_append] at h0 h2
                        by_cases hai : a = iv
                        · subst hai; simp; omega
                        · have : [iv].count a = 0 := by
                            rw [List.count_eq_zero]; simpa using hai
                          omega) a
                      simp only [ITree.ivs, List.count_append]
                      omega
                    · simp only at h
                      set u := ITree.node x s l r d b with hu
                      have hune : u ≠ .nil := by rw [hu]; intro h; cases h
                      split at h
                      · rename_i hcn
                        cases h
                        intro a
                        rw [ITree.ivs_refresh]
                        have h3 := ITree.count_swap u (decide (x < iv.b)) (ITree.single iv) hune a
                        rw [hcn] at h3
                        have h4 : (ITree.single iv).ivs = [iv] := by
                          simp [ITree.single, ITree.ivs_mk, ITree.ivs]
                        rw [h4] at h3
                        have h5 : (ITree.nil : ITree D).ivs.count a = 0 := by simp [ITree.ivs]
                        omega
                      · cases hadd : ITree.add n (u.child (decide (x < iv.b))) iv with
                        | error e => simp only [hadd, bind, Except.bind] at h; cases h
                        | ok c =>
                          simp only [hadd, bind, Except.bind] at h
                          have hcl := ITree.count_child_le u (decide (x < iv.b))
                          have h3 := ih _ _ (fun a => le_trans (hcl a) (ho a))
                            (by have := hcl iv; omega) hadd
                          have h4 : ∀ a, (u.setChild (decide (x < iv.b)) c).ivs.count a =
                              u.ivs.count a + [iv].count a := by
                            intro a
                            have := ITree.count_swap u (decide (x < iv.b)) c hune a
                            have := h3 a
                            omega
                          intro a
                          have h5 := ((ITree.conserve n).1 _ _ (by
                            intro a
                            rw [h4 a]
                            by_cases hai : a = iv
                            · subst hai; simp [h0]
                            · have : [iv].count a = 0 := by
                                rw [List.count_eq_zero]; simpa using hai
                              have := ho a
                              omega) h (ITree.setChild_ne_nil _ _ _ hune)).2 a
                          rw [h5, h4 a]
              cases ht : t0.top with
              | nil =>
                rw [ht] at htop
                cases htop
                simp [ITree.single, ITree.ivs_mk, ITree.ivs]
              | node x s l r d b =>
                rw [ht] at htop honce hiv0
                exact addc lim _ _ honce hiv0 htop a
        | discard iv => exact absurd rfl (hd (.discard iv) (by simp) iv)
        | remove iv =>
          simp only [TOp.run, FTree.remove, FTree.has] at h1
          by_cases hin : iv ∉ t0.all
          · simp only [hin, decide_false, Bool.not_false, if_true] at h1
            cases h1
          · have hin : iv ∈ t0.all := not_not.1 hin
            simp only [hin, decide_true, Bool.not_true, Bool.false_eq_true, if_false] at h1
            cases hr : ITree.removeHelper lim t0.top iv true with
            | error e => simp only [hr, bind, Except.bind] at h1; cases h1
            | ok q =>
              obtain ⟨b1, b2, e1, e2, r⟩ := delBoth _ _ _ hin inv.bounds
              simp only [hr, bind, Except.bind, e1, e2] at h1
              cases h1
              intro a
              rcases (ITree.conserve lim).2.2.2.2.1 _ _ _ _ honce hr with hk | ⟨hk, _⟩
              · have h2 := hk a
                have h3 := (List.perm_cons_erase hin).count_eq a
                rw [List.count_cons] at h3
                rw [List.count_singleton] at h2
                have h4 := hc a
                simp only
                omega
              · cases hk
        | clear => cases h1; intro a; simp [FTree.empty, ITree.ivs]
  rw [List.perm_iff_count]
  exact gen ops FTree.empty t hd FInv.empty (fun a => by simp [FTree.empty, ITree.ivs]) h

/-- **C42, with discards.** After every history of adds, discards and clears of wide intervals, each
stored interval is in the node structure (which may hold discarded ones besides:
`C43_discard_leaves_node`). -/
theorem C42_stored_in_nodes (lim : Nat) (ops : List (TOp D)) (hf : ∀ op ∈ ops, Spec.Fine op)
    (hl : 4 * ops.length + 5 ≤ lim) :
    ∃ t, runTree lim ops = .ok t ∧ ∀ iv, t.has iv = true → iv ∈ t.top.ivs := by
  obtain ⟨t, h, inv⟩ := runTree_total lim ops hf hl
  refine ⟨t, h, fun iv hiv => ?_⟩
  have hin : iv ∈ t.all := by simpa [FTree.has] using hiv
  have h1 := inv.sub iv
  have h2 := List.count_pos_iff.2 hin
  exact List.count_pos_iff.1 (by omega)

/-- **C42, trees built from a collection.** Whenever the constructor returns, the node structure
holds exactly the given (duplicate-free) intervals. -/
theorem C42_built_tree (lim : Nat) (all sorted : List (FIv D)) (hp : sorted.Perm all)
    (hn : all.Nodup) (t : FTree D) (h : FTree.ofIntervals lim all sorted = .ok t) :
    t.top.ivs.Perm all ∧ t.all = all := by
  unfold FTree.ofIntervals at h
  split at h
  · cases h
  · cases ho : ITree.ofSorted lim sorted with
    | error e => simp only [ho, bind, Except.bind] at h; cases h
    | ok top =>
      simp only [ho, bind, Except.bind] at h
      cases h
      refine ⟨?_, rfl⟩
      rw [List.perm_iff_count]
      intro a
      rw [← hp.count_eq a]
      exact ITree.ofSorted_conserve lim sorted top
        (fun a => List.nodup_iff_count_le_one.1 (hp.nodup_iff.2 hn) a) ho a

/-- **C42, null intervals are refused.** The constructor raises ValueError if one of the intervals ends no later than
it begins, whatever the rest is. -/
theorem C42_built_null (lim : Nat) (all sorted : List (FIv D)) (iv : FIv D) (hiv : iv ∈ all) (hn : iv.e ≤ iv.b) :
    FTree.ofIntervals lim all sorted = .error .value := by
  unfold FTree.ofIntervals
  rw [if_pos]
  rw [List.any_eq_true]
  exact ⟨iv, hiv, by simpa [FIv.isNull] using hn⟩

/-- **C42, the constructor returns for wide intervals.** -/
theorem C42_built_tree_total (lim : Nat) (all sorted : List (FIv D)) (hp : sorted.Perm all)
    (hw : ∀ iv ∈ all, Spec.Wide iv) (hl : 4 * all.length + 1 ≤ lim) :
    ∃ t, FTree.ofIntervals lim all sorted = .ok t := by
  unfold FTree.ofIntervals
  have : all.any FIv.isNull = false := by
    rw [List.any_eq_false]
    intro iv hiv
    have := Wide.lt iv (hw iv hiv)
    unfold FIv.isNull
    simpa using this
  obtain ⟨top, h1, _⟩ := ITree.ofSorted_total lim sorted
    (fun iv hiv => Wide.noPoint iv (hw iv (hp.mem_iff.1 hiv))) (by rw [hp.length_eq]; exact hl)
  exact ⟨⟨all, top, all.foldl (fun t iv => addBound (addBound t iv.b) iv.e) []⟩, by
    simp only [this, Bool.false_eq_true, if_false, h1, bind, Except.bind]⟩

example : (FTree.ofIntervals 1000 exIvs exIvs).map (fun t => (t.top.ivs.length, t.len, t.begin)) =
    .ok (4, 4, 0) := by decide +kernel

/-- **C42, a very short interval cannot be stored by the constructor.** If the ends of a (non-empty)
interval are close in the sense of `math.isclose`, constructing a tree from it exhausts every
recursion limit (RecursionError). -/
theorem C42_short_interval_recursion (iv : FIv D) (hlt : iv.b < iv.e) (hc : iclose iv.e iv.b = true)
    (lim : Nat) : FTree.ofIntervals lim [iv] [iv] = .error .runtime := by
  have key : ∀ n, ITree.ofSorted n [iv] = .error .runtime := by
    intro n
    induction n with
    | zero => rw [ITree.ofSorted]
    | succ n ih =>
      rw [ITree.ofSorted]
      simp [hc, ih, bind, Except.bind]
  unfold FTree.ofIntervals FIv.isNull
  have : ¬ iv.e ≤ iv.b := not_le.2 hlt
  simp [this, key, bind, Except.bind]

/-- A concrete such interval. -/
example : ((1 : ℚ) < 1 + 1/10000000000) ∧ iclose (1 + 1/10000000000) 1 = true := by decide +kernel

/-! ## C43 -/

/-- **C43, the claim is false: a stored interval cannot be removed.** After every history of adds,
discards and clears of wide intervals, `remove` of any wide interval raises ValueError, also when it
is stored. -/
theorem C43_remove_always_raises (lim : Nat) (ops : List (TOp D)) (hf : ∀ op ∈ ops, Spec.Fine op)
    (hl : 4 * ops.length + 5 ≤ lim) (iv : FIv D) (hw : Spec.Wide iv) :
    ∃ t, runTree lim ops = .ok t ∧ t.remove lim iv = .error .value := by
  obtain ⟨t, h, inv⟩ := runTree_total lim ops hf hl
  refine ⟨t, h, ?_⟩
  unfold FTree.remove FTree.has
  by_cases hin : iv ∈ t.all
  · have hne := inv.top_ne_nil (by intro h; rw [h] at hin; cases hin)
    have hr := ITree.removeHelper_noPoint iv (Wide.noPoint iv hw) true lim t.top hne
      (by have := inv.size; omega)
    simp only [if_true] at hr
    simp [hin, hr, bind, Except.bind]
  · simp [hin]

example : (runTree 1000 exHist).map (fun t => (t.has ⟨5, 6, 0⟩, (t.remove 1000 ⟨5, 6, 0⟩).map (·.len)))
    = .ok (true, .error .value) := by decide +kernel

/-- **C43.** What does hold, for all trees: `remove` of a missing interval raises ValueError
and `discard` of it does nothing; and whenever `remove` or `discard` returns (any intervals, in a
tree whose table is consistent), exactly that interval has left the set. -/
theorem C43_missing (lim : Nat) (t : FTree D) (iv : FIv D) :
    (t.has iv = false → t.remove lim iv = .error .value ∧ t.discard lim iv = .ok t) ∧
    (∀ t', FInv t → t.remove lim iv = .ok t' → t'.all = t.all.erase iv ∧ t'.has iv = false) ∧
    (∀ t', FInv t → t.discard lim iv = .ok t' → t'.all = t.all.erase iv ∧ t'.has iv = false) := by
  refine ⟨?_, ?_, ?_⟩
  · intro h
    unfold FTree.remove FTree.discard
    simp [h]
  · intro t' inv h
    unfold FTree.remove at h
    split at h
    · cases h
    · cases hr : ITree.removeHelper lim t.top iv true with
      | error e => simp only [hr, bind, Except.bind] at h; cases h
      | ok q =>
        rename_i hin
        have hin : iv ∈ t.all := by simpa [FTree.has] using hin
        obtain ⟨b1, b2, e1, e2, r⟩ := delBoth _ _ _ hin inv.bounds
        simp only [hr, bind, Except.bind, e1, e2] at h
        cases h
        exact ⟨rfl, by simp [FTree.has, List.Nodup.mem_erase_iff inv.nodup]⟩
  · intro t' inv h
    unfold FTree.discard at h
    split at h
    · rename_i hin
      have hin : iv ∉ t.all := by simpa [FTree.has] using hin
      cases h
      exact ⟨(List.erase_of_not_mem hin).symm, by simpa [FTree.has] using hin⟩
    · cases hr : ITree.removeHelper lim t.top iv false with
      | error e => simp only [hr, bind, Except.bind] at h; cases h
      | ok q =>
        rename_i hin
        have hin : iv ∈ t.all := by simpa [FTree.has] using hin
        obtain ⟨b1, b2, e1, e2, r⟩ := delBoth _ _ _ hin inv.bounds
        simp only [hr, bind, Except.bind, e1, e2] at h
        cases h
        exact ⟨rfl, by simp [FTree.has, List.Nodup.mem_erase_iff inv.nodup]⟩

/-- **C43/C42, discard leaves the interval in the search structure.** After a history of wide
operations, discarding a stored wide interval removes it from the set but not from the nodes. -/
theorem C43_discard_leaves_node (lim : Nat) (ops : List (TOp D)) (hf : ∀ op ∈ ops, Spec.Fine op)
    (hl : 4 * ops.length + 5 ≤ lim) (iv : FIv D) (hw : Spec.Wide iv) (t : FTree D)
    (h : runTree lim ops = .ok t) (hin : t.has iv = true) :
    ∃ t', t.discard lim iv = .ok t' ∧ t'.has iv = false ∧ t'.len + 1 = t.len ∧
      iv ∈ t'.top.ivs := by
  obtain ⟨t0, h0, inv⟩ := runTree_total lim ops hf hl
  rw [h] at h0
  cases h0
  have hm : iv ∈ t.all := by simpa [FTree.has] using hin
  have hne := inv.top_ne_nil (by intro h; rw [h] at hm; cases hm)
  have hr := ITree.removeHelper_noPoint iv (Wide.noPoint iv hw) false lim t.top hne
    (by have := inv.size; omega)
  simp only [Bool.false_eq_true, if_false] at hr
  obtain ⟨b1, b2, e1, e2, r⟩ := delBoth _ _ _ hm inv.real.bounds
  refine ⟨⟨t.all.erase iv, t.top, b2⟩, ?_, ?_, ?_, ?_⟩
  · unfold FTree.discard
    simp only [hin, Bool.not_true, Bool.false_eq_true, if_false, hr, bind, Except.bind, e1, e2]
  · simp [FTree.has, List.Nodup.mem_erase_iff inv.real.nodup]
  · have := List.length_erase_of_mem hm
    have := List.length_pos_of_mem hm
    simp only [FTree.len]
    omega
  · have h1 := inv.sub iv
    have h2 := List.count_pos_iff.2 hm
    have h3 : 0 < t.top.ivs.count iv := by omega
    exact List.count_pos_iff.1 h3

/-! ## C44 -/

/-- **C44, the claim is false: searches with numbers raise.** On every non-empty tree reached by wide
operations, `at(p)` and `overlap(b, e)` (also behind `tree[p]`, `tree[b:e]`, `remove_overlap`,
`envelop`) raise AttributeError. -/
theorem C44_search_raises (lim : Nat) (ops : List (TOp D)) (hf : ∀ op ∈ ops, Spec.Fine op)
    (hl : 4 * ops.length + 5 ≤ lim) (t : FTree D) (h : runTree lim ops = .ok t) (hne : t.len ≠ 0) :
    (∀ p, t.at_ p = .error .attribute) ∧
    (∀ b e, b < e → t.overlap b e = .error .attribute ∧
      t.removeOverlap b e = .error .attribute) := by
  obtain ⟨t0, h0, inv⟩ := runTree_total lim ops hf hl
  rw [h] at h0
  cases h0
  have hne' : t.all ≠ [] := by
    intro h0; exact hne (by simp [FTree.len, h0])
  have htop := inv.top_ne_nil hne'
  cases ht : t.top with
  | nil => exact absurd ht htop
  | node x s l r d b =>
    refine ⟨fun p => by simp [FTree.at_, ht, ITree.searchNumber], fun b e hbe => ?_⟩
    have hov : t.overlap b e = .error .attribute := by
      simp [FTree.overlap, ht, not_le.2 hbe, ITree.searchNumber]
    exact ⟨hov, by simp [FTree.removeOverlap, hov, bind, Except.bind]⟩

/-- **C44, the claim is false: no point is ever found.** On every tree reached by wide operations,
`overlaps_point(p)` and `overlaps(b, e)` answer False for every point and range, although (second
part) every stored interval contains points. -/
theorem C44_point_never_found (lim : Nat) (ops : List (TOp D)) (hf : ∀ op ∈ ops, Spec.Fine op)
    (hl : 4 * ops.length + 5 ≤ lim) (t : FTree D) (h : runTree lim ops = .ok t) :
    (∀ p, t.overlapsPoint p = false) ∧ (∀ b e, t.overlapsRange b e = false) ∧
    (∀ iv, t.has iv = true → Spec.Contains iv iv.b) := by
  obtain ⟨t0, h0, inv⟩ := runTree_total lim ops hf hl
  rw [h] at h0
  cases h0
  have hcp : ∀ (u : ITree D) p, ITree.NoPts u → u.containsPoint p = false := by
    intro u p
    induction u with
    | nil => intro _; rfl
    | node x s l r d b ihl ihr =>
      intro hw
      have hl' : ITree.NoPts l := fun iv hiv => hw iv (by simp [ITree.ivs, hiv])
      have hr' : ITree.NoPts r := fun iv hiv => hw iv (by simp [ITree.ivs, hiv])
      rw [ITree.containsPoint, ihl hl', ihr hr']
      have : s.any (fun iv => iv.containsPoint p) = false := by
        rw [List.any_eq_false]
        intro iv hiv
        have := hw iv (by simp [ITree.ivs, hiv]) p
        simp [this]
      rw [this]
      simp
  have hp : ∀ p, t.overlapsPoint p = false := by
    intro p
    unfold FTree.overlapsPoint
    rw [hcp t.top p inv.noPts]
    simp
  refine ⟨hp, ?_, ?_⟩
  · intro b e
    unfold FTree.overlapsRange
    simp [hp]
  · intro iv hiv
    have hm : iv ∈ t.all := by simpa [FTree.has] using hiv
    exact ⟨le_refl _, inv.real.real iv hm⟩

/-- The empty tree is searched correctly (C44). -/
theorem C44_empty (lim : Nat) (t : FTree D) (h : runTree lim [] = .ok t) :
    (∀ p, t.at_ p = .ok []) ∧ (∀ b e, t.overlap b e = .ok []) ∧ ∀ p, t.overlapsPoint p = false := by
  cases h
  exact ⟨fun _ => rfl, fun _ _ => rfl, fun _ => rfl⟩

example : (runTree 1000 exHist).map (fun t => (t.overlapsPoint 2, (t.at_ 2).map List.length)) =
    .ok (false, .error .attribute) := by decide +kernel

end NGC
