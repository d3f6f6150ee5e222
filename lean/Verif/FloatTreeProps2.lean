import Verif.FloatTreeProps
import Mathlib.Tactic.Positivity

/-! Properties C91-C94: balance of the node structure, interval order, overlap and distance,
bulk operations. -/

namespace NGC

variable {D : Type} [DecidableEq D]

namespace Spec

/-- AVL balance: at every node the depths of the two subtrees differ by at most one. -/
def realDepth : ITree D → Nat
  | .nil => 0
  | .node _ _ l r _ _ => 1 + max (realDepth l) (realDepth r)

def Balanced : ITree D → Prop
  | .nil => True
  | .node _ _ l r _ _ =>
    realDepth l ≤ realDepth r + 1 ∧ realDepth r ≤ realDepth l + 1 ∧ Balanced l ∧ Balanced r

end Spec

namespace ITree

theorem depth_node (x : ℚ) (s : List (FIv D)) (l r : ITree D) (d b : Int) :
    (node x s l r d b).depth = d := rfl

theorem depth_eq_real : ∀ (t : ITree D), Dep t → t.depth = (Spec.realDepth t : Int)
  | nil, _ => rfl
  | node x s l r d b, h => by
    obtain ⟨h1, _, h3, h4⟩ := h
    simp only [depth_node, depth_nil, Spec.realDepth]
    rw [h1, depth_eq_real l h3, depth_eq_real r h4]
    push_cast
    rfl

/-- Height balanced, with right depth fields. -/
def Bal : ITree D → Prop
  | nil => True
  | node _ _ l r d b => d = 1 + max l.depth r.depth ∧ b = r.depth - l.depth ∧
    (r.depth - l.depth ≤ 1 ∧ l.depth - r.depth ≤ 1) ∧ Bal l ∧ Bal r

theorem Bal.dep : ∀ (t : ITree D), Bal t → Dep t
  | nil, _ => trivial
  | node _ _ l r _ _, h => ⟨h.1, h.2.1, Bal.dep l h.2.2.2.1, Bal.dep r h.2.2.2.2⟩

theorem Bal.balanced : ∀ (t : ITree D), Bal t → Spec.Balanced t
  | nil, _ => trivial
  | node _ _ l r _ _, h => by
    have h1 := depth_eq_real l (Bal.dep l h.2.2.2.1)
    have h2 := depth_eq_real r (Bal.dep r h.2.2.2.2)
    have h3 := h.2.2.1
    exact ⟨by omega, by omega, Bal.balanced l h.2.2.2.1, Bal.balanced r h.2.2.2.2⟩

theorem noPts_center (x : ℚ) (s : List (FIv D)) (l r : ITree D) (d b : Int)
    (h : NoPts (node x s l r d b)) (p : ℚ) : s.filter (fun iv => iv.containsPoint p) = [] :=
  promotees_nil (node x s l r d b) h p

/-- A rotation of a node whose subtrees are balanced and differ by at most two levels. -/
theorem rotate_bal (n : Nat) (x : ℚ) (s : List (FIv D)) (l r : ITree D) (d b : Int)
    (hl : Bal l) (hr : Bal r) (h1 : r.depth - l.depth ≤ 2) (h2 : l.depth - r.depth ≤ 2)
    (hs : ∀ iv ∈ s, iv.NoPoint) (hwl : NoPts l) (hwr : NoPts r) (hn : 4 ≤ n) :
    ∃ t', rotate n (node x s l r d b) = .ok t' ∧ Bal t' ∧
      max l.depth r.depth ≤ t'.depth ∧ t'.depth ≤ 1 + max l.depth r.depth ∧
      ((r.depth - l.depth ≤ 1 ∧ l.depth - r.depth ≤ 1) → t'.depth = 1 + max l.depth r.depth) ∧
      t'.count = 1 + l.count + r.count ∧ ∀ a, t'.ivs.count a = (l.ivs ++ s ++ r.ivs).count a := by
  obtain ⟨m, rfl⟩ : ∃ m, n = m + 4 := ⟨n - 4, by omega⟩
  have hsf : ∀ p, s.filter (fun iv => iv.containsPoint p) = [] := by
    intro p
    rw [List.filter_eq_nil_iff]
    intro iv hiv
    simp [hs iv hiv p]
  have hbase : ∀ k, 1 ≤ k → ∀ (x : ℚ) (s : List (FIv D)) (l r : ITree D) (d b : Int),
      r.depth - l.depth ≤ 1 → l.depth - r.depth ≤ 1 →
      rotate k (node x s l r d b) = .ok (mk x s l r) := by
    intro k hk x s l r d b e1 e2
    obtain ⟨j, rfl⟩ : ∃ j, k = j + 1 := ⟨k - 1, by omega⟩
    rw [rotate]
    simp only [refresh, mk, balance]
    have : |r.depth - l.depth| < 2 := by rw [abs_lt]; omega
    exact if_pos this
  by_cases hb : r.depth - l.depth ≤ 1 ∧ l.depth - r.depth ≤ 1
  · refine ⟨mk x s l r, hbase _ (by omega) _ _ _ _ _ _ hb.1 hb.2, ⟨rfl, rfl, hb, hl, hr⟩, ?_, ?_, ?_, rfl, fun a => rfl⟩
    · simp only [mk, depth_node]; omega
    · simp only [mk, depth_node]; omega
    · intro _; simp only [mk, depth_node]
  · have ploop : ∀ k, 1 ≤ k → ∀ t : ITree D, promoteLoop k [] t = .ok t := by
      intro k hk t
      obtain ⟨j, rfl⟩ : ∃ j, k = j + 1 := ⟨k - 1, by omega⟩
      rw [promoteLoop]
    by_cases hright : r.depth - l.depth = 2
    · -- the right side is too deep
      cases r with
      | nil =>
        have := (Dep.depth_nonneg l (Bal.dep l hl)).1
        simp [depth_node, depth_nil] at hright
        omega
      | node y u a c d1 b1 =>
        obtain ⟨k1, k2, k3, k4, k5⟩ := hr
        simp only [depth_node, depth_nil] at hright
        have hnotlt : ¬ |d1 - l.depth| < 2 := by rw [hright]; norm_num
        have hpos : 0 < d1 - l.depth := by omega
        have hstart : rotate (m + 4) (node x s l (node y u a c d1 b1) d b) =
            if (true = decide (0 < b1) ∨ b1 = 0) then
              srotate (m + 3) (mk x s l (node y u a c d1 b1))
            else drotate (m + 3) (mk x s l (node y u a c d1 b1)) := by
          rw [rotate]
          simp only [refresh, mk, balance, depth_node, depth_nil, hnotlt, if_false, hpos, decide_true, child,
            if_true, reduceCtorEq]
        rw [hstart]
        -- a single rotation to the left
        have single : ∀ k, 2 ≤ k → ∀ (y : ℚ) (u : List (FIv D)) (a c : ITree D) (d1 b1 d b : Int),
            0 < b → a.depth - l.depth ≤ 1 → l.depth - a.depth ≤ 1 →
            srotate k (node x s l (node y u a c d1 b1) d b) = .ok (mk y u (mk x s l a) c) := by
          intro k hk y u a c d1 b1 d b hb e1 e2
          obtain ⟨j, rfl⟩ : ∃ j, k = j + 1 := ⟨k - 1, by omega⟩
          rw [srotate]
          simp only [balance, hb, decide_true, child, if_true, Bool.not_true, Bool.false_eq_true,
            if_false, setChild, hbase j (by omega) x s l a d b e1 e2, bind, Except.bind, center, mk,
            hsf, ploop j (by omega), setUpdate, List.filter_nil, List.append_nil, refresh, depth_node, depth_nil]
        by_cases hc : true = decide (0 < b1) ∨ b1 = 0
        · rw [if_pos hc]
          have hb1 : 0 ≤ b1 := by
            rcases hc with hc | hc
            · have := of_decide_eq_true hc.symm; omega
            · omega
          refine ⟨mk y u (mk x s l a) c, ?_, ?_, ?_, ?_, ?_, ?_, ?_⟩
          · unfold mk
            exact single (m + 3) (by omega) y u a c d1 b1 _ _ hpos (by omega) (by omega)
          · refine ⟨rfl, rfl, ?_, ⟨rfl, rfl, by omega, hl, k4⟩, k5⟩
            simp only [mk, depth_node, depth_nil]; omega
          · simp only [mk, depth_node, depth_nil]; omega
          · simp only [mk, depth_node, depth_nil]; omega
          · intro hh; exact absurd hh hb
          · simp only [mk, count]; omega
          · intro a'; simp only [mk, ivs, List.count_append]; omega
        · rw [if_neg hc]
          have hb1 : b1 < 0 := by
            by_contra hge
            apply hc
            by_cases h0 : b1 = 0
            · exact Or.inr h0
            · left; exact (decide_eq_true (by omega)).symm
          cases a with
          | nil =>
            have := (Dep.depth_nonneg c (Bal.dep c k5)).1
            simp [depth_node, depth_nil] at k2
            omega
          | node z v a1 a2 d2 b2 =>
            obtain ⟨g1, g2, g3, g4, g5⟩ := k4
            simp only [depth_node, depth_nil] at k1 k2 k3
            have hvf : ∀ p, u.filter (fun iv => iv.containsPoint p) = [] := by
              intro p
              rw [List.filter_eq_nil_iff]
              intro iv hiv
              simp [hwr iv (by simp [ivs, hiv]) p]
            have first : srotate (m + 2) (node y u (node z v a1 a2 d2 b2) c d1 b1) =
                .ok (mk z v a1 (mk y u a2 c)) := by
              rw [srotate]
              have hnb : ¬ 0 < b1 := by omega
              simp only [balance, hnb, decide_false, child, Bool.false_eq_true, if_false,
                Bool.not_false, if_true, setChild,
                hbase (m + 1) (by omega) y u a2 c d1 b1 (by omega) (by omega), bind, Except.bind,
                center, mk, hvf, ploop (m + 1) (by omega), setUpdate, List.filter_nil,
                List.append_nil, refresh, depth_node, depth_nil]
            have hd : drotate (m + 3) (mk x s l (node y u (node z v a1 a2 d2 b2) c d1 b1)) =
                srotate (m + 2) (mk x s l (mk z v a1 (mk y u a2 c))) := by
              rw [drotate]
              simp only [mk, balance, depth_node, depth_nil, hpos, decide_true, child, if_true]
              have first' := first
              unfold mk at first'
              simp only [first', bind, Except.bind, setChild, if_true, refresh, mk, depth_node, depth_nil]
            rw [hd]
            refine ⟨mk z v (mk x s l a1) (mk y u a2 c), ?_, ?_, ?_, ?_, ?_, ?_, ?_⟩
            · have e := single (m + 2) (by omega) z v a1 (mk y u a2 c)
                (1 + max a1.depth (mk y u a2 c).depth) ((mk y u a2 c).depth - a1.depth)
                (1 + max l.depth (1 + max a1.depth (mk y u a2 c).depth))
                ((1 + max a1.depth (mk y u a2 c).depth) - l.depth)
                (by simp only [mk, depth_node, depth_nil]; omega) (by omega) (by omega)
              exact e
            · refine ⟨rfl, rfl, ?_, ⟨rfl, rfl, by omega, hl, g4⟩, ⟨rfl, rfl, by omega, g5, k5⟩⟩
              simp only [mk, depth_node, depth_nil]; omega
            · simp only [mk, depth_node, depth_nil]; omega
            · simp only [mk, depth_node, depth_nil]; omega
            · intro hh; exact absurd hh hb
            · simp only [mk, count]; omega
            · intro a'; simp only [mk, ivs, List.count_append]; omega
    · -- the left side is too deep
      have hleft : l.depth - r.depth = 2 := by omega
      cases l with
      | nil =>
        have := (Dep.depth_nonneg r (Bal.dep r hr)).1
        simp [depth_node, depth_nil] at hleft
        omega
      | node y u a c d1 b1 =>
        obtain ⟨k1, k2, k3, k4, k5⟩ := hl
        simp only [depth_node, depth_nil] at hleft
        have hnotlt : ¬ |r.depth - d1| < 2 := by
          have : r.depth - d1 = -2 := by omega
          rw [this]; norm_num
        have hneg : ¬ 0 < r.depth - d1 := by omega
        have hstart : rotate (m + 4) (node x s (node y u a c d1 b1) r d b) =
            if (false = decide (0 < b1) ∨ b1 = 0) then
              srotate (m + 3) (mk x s (node y u a c d1 b1) r)
            else drotate (m + 3) (mk x s (node y u a c d1 b1) r) := by
          rw [rotate]
          simp only [refresh, mk, balance, depth_node, depth_nil, hnotlt, if_false, hneg, decide_false, child,
            Bool.false_eq_true, reduceCtorEq]
        rw [hstart]
        have single : ∀ k, 2 ≤ k → ∀ (y : ℚ) (u : List (FIv D)) (a c : ITree D) (d1 b1 d b : Int),
            ¬ 0 < b → r.depth - c.depth ≤ 1 → c.depth - r.depth ≤ 1 →
            srotate k (node x s (node y u a c d1 b1) r d b) = .ok (mk y u a (mk x s c r)) := by
          intro k hk y u a c d1 b1 d b hb e1 e2
          obtain ⟨j, rfl⟩ : ∃ j, k = j + 1 := ⟨k - 1, by omega⟩
          rw [srotate]
          simp only [balance, hb, decide_false, child, if_true, Bool.not_false, Bool.false_eq_true,
            if_false, setChild, hbase j (by omega) x s c r d b e1 e2, bind, Except.bind, center, mk,
            hsf, ploop j (by omega), setUpdate, List.filter_nil, List.append_nil, refresh, depth_node, depth_nil]
        by_cases hc : false = decide (0 < b1) ∨ b1 = 0
        · rw [if_pos hc]
          have hb1 : b1 ≤ 0 := by
            rcases hc with hc | hc
            · have := decide_eq_false_iff_not.1 hc.symm; omega
            · omega
          refine ⟨mk y u a (mk x s c r), ?_, ?_, ?_, ?_, ?_, ?_, ?_⟩
          · unfold mk
            exact single (m + 3) (by omega) y u a c d1 b1 _ _ hneg (by omega) (by omega)
          · refine ⟨rfl, rfl, ?_, k4, ⟨rfl, rfl, by omega, k5, hr⟩⟩
            simp only [mk, depth_node, depth_nil]; omega
          · simp only [mk, depth_node, depth_nil]; omega
          · simp only [mk, depth_node, depth_nil]; omega
          · intro hh; exact absurd hh hb
          · simp only [mk, count]; omega
          · intro a'; simp only [mk, ivs, List.count_append]; omega
        · rw [if_neg hc]
          have hb1 : 0 < b1 := by
            by_contra hge
            apply hc
            left
            exact (decide_eq_false hge).symm
          cases c with
          | nil =>
            have := (Dep.depth_nonneg a (Bal.dep a k4)).1
            simp [depth_node, depth_nil] at k2
            omega
          | node z v c1 c2 d2 b2 =>
            obtain ⟨g1, g2, g3, g4, g5⟩ := k5
            simp only [depth_node, depth_nil] at k1 k2 k3
            have hvf : ∀ p, u.filter (fun iv => iv.containsPoint p) = [] := by
              intro p
              rw [List.filter_eq_nil_iff]
              intro iv hiv
              simp [hwl iv (by simp [ivs, hiv]) p]
            have first : srotate (m + 2) (node y u a (node z v c1 c2 d2 b2) d1 b1) =
                .ok (mk z v (mk y u a c1) c2) := by
              rw [srotate]
              simp only [balance, hb1, decide_true, child, Bool.false_eq_true, if_false,
                Bool.not_true, if_true, setChild,
                hbase (m + 1) (by omega) y u a c1 d1 b1 (by omega) (by omega), bind, Except.bind,
                center, mk, hvf, ploop (m + 1) (by omega), setUpdate, List.filter_nil,
                List.append_nil, refresh, depth_node, depth_nil]
            have hd : drotate (m + 3) (mk x s (node y u a (node z v c1 c2 d2 b2) d1 b1) r) =
                srotate (m + 2) (mk x s (mk z v (mk y u a c1) c2) r) := by
              rw [drotate]
              simp only [mk, balance, depth_node, depth_nil, hneg, decide_false, child, Bool.false_eq_true, if_false]
              have first' := first
              unfold mk at first'
              simp only [first', bind, Except.bind, setChild, Bool.false_eq_true, if_false, refresh,
                mk, depth_node, depth_nil]
            rw [hd]
            refine ⟨mk z v (mk y u a c1) (mk x s c2 r), ?_, ?_, ?_, ?_, ?_, ?_, ?_⟩
            · have e := single (m + 2) (by omega) z v (mk y u a c1) c2
                (1 + max (mk y u a c1).depth c2.depth) (c2.depth - (mk y u a c1).depth)
                (1 + max (1 + max (mk y u a c1).depth c2.depth) r.depth)
                (r.depth - (1 + max (mk y u a c1).depth c2.depth))
                (by simp only [mk, depth_node, depth_nil]; omega) (by omega) (by omega)
              exact e
            · refine ⟨rfl, rfl, ?_, ⟨rfl, rfl, by omega, k4, g4⟩, ⟨rfl, rfl, by omega, g5, hr⟩⟩
              simp only [mk, depth_node, depth_nil]; omega
            · simp only [mk, depth_node, depth_nil]; omega
            · simp only [mk, depth_node, depth_nil]; omega
            · intro hh; exact absurd hh hb
            · simp only [mk, count]; omega
            · intro a'; simp only [mk, ivs, List.count_append]; omega

/-- Adding keeps the balance, with a recursion of depth `depth + 4`. -/
theorem add_bal (iv : FIv D) (hiv : iv.NoPoint) : ∀ (n : Nat) (t : ITree D), t ≠ nil → Bal t →
    NoPts t → t.depth + 4 ≤ n →
    ∃ t', add n t iv = .ok t' ∧ Bal t' ∧ t.depth ≤ t'.depth ∧ t'.depth ≤ t.depth + 1 ∧
      t'.count = t.count + 1 ∧ ∀ a, t'.ivs.count a = t.ivs.count a + [iv].count a := by
  intro n
  induction n with
  | zero => intro t hne hb _ h; have := (Dep.depth_nonneg t (Bal.dep t hb)).1; omega
  | succ n ih =>
    intro t hne hbal hw hn
    cases t with
    | nil => exact absurd rfl hne
    | node x s l r d b =>
      obtain ⟨h1, h2, h3, h4, h5⟩ := hbal
      have hl0 := Dep.depth_nonneg l (Bal.dep l h4)
      have hr0 := Dep.depth_nonneg r (Bal.dep r h5)
      simp only [depth_node, depth_nil] at hn
      have hs : ∀ j ∈ s, j.NoPoint := fun j hj => hw j (by simp [ivs, hj])
      have hwl : NoPts l := fun j hj => hw j (by simp [ivs, hj])
      have hwr : NoPts r := fun j hj => hw j (by simp [ivs, hj])
      have hnew : ∀ (u c : ITree D), NoPts u → (∀ a, c.ivs.count a = u.ivs.count a + [iv].count a) → NoPts c := by
        intro u c hu hc j hj
        have h0 := List.count_pos_iff.2 hj
        rw [hc j] at h0
        by_cases hji : j = iv
        · rw [hji]; exact hiv
        · have : [iv].count j = 0 := by rw [List.count_eq_zero]; simpa using hji
          exact hu j (List.count_pos_iff.1 (by omega))
      rw [add, hiv x]
      simp only [Bool.false_eq_true, if_false]
      by_cases hdir : x < iv.b
      · simp only [hdir, decide_true, child, setChild, if_true]
        by_cases hrn : r = nil
        · subst hrn
          rw [if_pos rfl]
          refine ⟨_, rfl, ⟨rfl, rfl, ?_, h4, ⟨rfl, rfl, by simp [depth_node, depth_nil], trivial, trivial⟩⟩, ?_, ?_, ?_, ?_⟩
          · simp only [single, mk, depth_node, depth_nil, refresh] at *; omega
          · simp only [single, mk, depth_node, depth_nil, refresh] at *; omega
          · simp only [single, mk, depth_node, depth_nil, refresh] at *; omega
          · simp only [single, mk, refresh, count]
          · intro a; simp only [single, mk, refresh, ivs, List.count_append, List.count_nil]; omega
        · rw [if_neg hrn]
          obtain ⟨c, e1, e2, e3, e4, e5, e6⟩ := ih r hrn h5 hwr (by omega)
          simp only [e1, bind, Except.bind]
          obtain ⟨t', q1, q2, q3, q4, q5, q6, q7⟩ := rotate_bal n x s l c d b h4 e2 (by omega) (by omega) hs hwl
            (hnew r c hwr e6) (by omega)
          refine ⟨t', q1, q2, ?_, ?_, ?_, ?_⟩
          · simp only [depth_node, depth_nil]
            by_cases hh : c.depth - l.depth ≤ 1 ∧ l.depth - c.depth ≤ 1
            · have := q5 hh; omega
            · omega
          · simp only [depth_node, depth_nil]; omega
          · simp only [count]; omega
          · intro a; have := e6 a; rw [q7]; simp only [ivs, List.count_append]; omega
      · simp only [hdir, decide_false, child, setChild, Bool.false_eq_true, if_false]
        by_cases hln : l = nil
        · subst hln
          rw [if_pos rfl]
          refine ⟨_, rfl, ⟨rfl, rfl, ?_, ⟨rfl, rfl, by simp [depth_node, depth_nil], trivial, trivial⟩, h5⟩, ?_, ?_, ?_, ?_⟩
          · simp only [single, mk, depth_node, depth_nil, refresh] at *; omega
          · simp only [single, mk, depth_node, depth_nil, refresh] at *; omega
          · simp only [single, mk, depth_node, depth_nil, refresh] at *; omega
          · simp only [single, mk, refresh, count]; omega
          · intro a; simp only [single, mk, refresh, ivs, List.count_append, List.count_nil]; omega
        · rw [if_neg hln]
          obtain ⟨c, e1, e2, e3, e4, e5, e6⟩ := ih l hln h4 hwl (by omega)
          simp only [e1, bind, Except.bind]
          obtain ⟨t', q1, q2, q3, q4, q5, q6, q7⟩ := rotate_bal n x s c r d b e2 h5 (by omega) (by omega) hs
            (hnew l c hwl e6) hwr (by omega)
          refine ⟨t', q1, q2, ?_, ?_, ?_, ?_⟩
          · simp only [depth_node, depth_nil]
            by_cases hh : r.depth - c.depth ≤ 1 ∧ c.depth - r.depth ≤ 1
            · have := q5 hh; omega
            · omega
          · simp only [depth_node, depth_nil]; omega
          · simp only [count]; omega
          · intro a; have := e6 a; rw [q7]; simp only [ivs, List.count_append]; omega

/-- A search for an interval that is found nowhere ends at a leaf, with a recursion of depth `depth + 1`. -/
theorem removeHelper_depth (iv : FIv D) (hiv : iv.NoPoint) (sr : Bool) : ∀ (n : Nat) (t : ITree D),
    t ≠ nil → Dep t → t.depth + 1 ≤ n →
    removeHelper n t iv sr = if sr then .error .value else .ok (t, true) := by
  intro n
  induction n with
  | zero => intro t _ hd h; have := (Dep.depth_nonneg t hd).1; omega
  | succ n ih =>
    intro t hne hd hn
    cases t with
    | nil => exact absurd rfl hne
    | node x s l r d b =>
      rw [removeHelper, hiv x]
      simp only [Bool.false_eq_true, if_false]
      set t := node x s l r d b with ht
      set dir := decide (x < iv.b) with hdir
      split
      · rfl
      · rename_i hc
        have hlt : (t.child dir).depth + 1 ≤ n := by
          obtain ⟨q1, _, _, _⟩ := hd
          rw [ht] at hn ⊢
          simp only [depth_node, depth_nil] at hn
          cases dir <;> simp only [child, Bool.false_eq_true, if_false, if_true] <;> omega
        rw [ih _ hc (Dep.child t hd dir) hlt]
        cases sr
        · simp only [Bool.false_eq_true, if_false, bind, Except.bind, if_true]
          congr 2
          rw [ht]
          unfold setChild child
          cases dir <;> rfl
        · rfl

/-- A balanced tree of depth `h` has at least `2^(h/2) - 1` nodes. -/
theorem bal_count : ∀ (t : ITree D), Spec.Balanced t → 2 ^ (Spec.realDepth t) ≤ (t.count + 1) ^ 2
  | nil, _ => by simp [Spec.realDepth, count]
  | node x s l r d b, h => by
    obtain ⟨h1, h2, h3, h4⟩ := h
    have il := bal_count l h3
    have ir := bal_count r h4
    simp only [Spec.realDepth, count]
    have key : ∀ (p q : Nat) (m k : Nat), m ≤ k + 1 → k ≤ m → 2 ^ m ≤ p ^ 2 → 2 ^ k ≤ q ^ 2 →
        2 ^ (1 + m) ≤ (p + q) ^ 2 := by
      intro p q m k e1 e2 e3 e4
      have e5 : 2 ^ m ≤ 2 * 2 ^ k := by
        rw [← Nat.pow_succ']; exact Nat.pow_le_pow_right (by norm_num) e1
      have e6 : 2 ^ k ≤ 2 ^ m := Nat.pow_le_pow_right (by norm_num) e2
      rw [Nat.pow_add, pow_one]
      have hpq : 2 ^ k ≤ p * q := by
        rcases le_total p q with hh | hh
        · nlinarith
        · nlinarith
      nlinarith
    rcases le_total (Spec.realDepth l) (Spec.realDepth r) with hh | hh
    · rw [max_eq_right hh]
      have := key (r.count + 1) (l.count + 1) _ _ h2 hh ir il
      refine le_trans this (le_of_eq ?_)
      ring
    · rw [max_eq_left hh]
      have := key (l.count + 1) (r.count + 1) _ _ h1 hh il ir
      refine le_trans this (le_of_eq ?_)
      ring

end ITree

/-- Invariant of trees made of wide intervals, with balance. -/
structure FBInv (t : FTree D) (k : Nat) : Prop extends FTInv t k where
  bal : ITree.Bal t.top

theorem FBInv.depth_le {t : FTree D} {k lim : Nat} (inv : FBInv t k) (hl : (k + 1) ^ 2 * 16 ≤ 2 ^ lim) :
    t.top.depth + 4 ≤ lim := by
  have h1 := ITree.bal_count t.top (ITree.Bal.balanced _ inv.bal)
  have h2 := ITree.depth_eq_real t.top inv.dep
  have h3 : (t.top.count + 1) ^ 2 ≤ (k + 1) ^ 2 := Nat.pow_le_pow_left (by have := inv.size; omega) 2
  have h4 : 2 ^ (Spec.realDepth t.top + 4) ≤ 2 ^ lim := by
    rw [Nat.pow_add]; omega
  have h5 := (Nat.pow_le_pow_iff_right (by norm_num : 1 < 2)).1 h4
  omega

theorem TOp.run_bal (lim k : Nat) (t : FTree D) (op : TOp D) (hf : Spec.Fine op)
    (inv : FBInv t k) (hl : (k + 1) ^ 2 * 16 ≤ 2 ^ lim) :
    ∃ t', op.run lim t = .ok t' ∧ FBInv t' (k + 1) := by
  have hdl := inv.depth_le hl
  cases op with
  | add iv =>
    have hw : Spec.Wide iv := hf
    have hnp := Wide.noPoint iv hw
    have hlt := Wide.lt iv hw
    by_cases hin : iv ∈ t.all
    · refine ⟨t, ?_, ⟨⟨inv.dep, inv.noPts, by have := inv.size; omega, inv.sub, inv.real⟩, inv.bal⟩⟩
      simp [TOp.run, FTree.add, FTree.has, hin]
    · have hnull : ¬ iv.e ≤ iv.b := not_le.2 hlt
      have htop : ∃ top, (t.top.addTop lim iv) = .ok top ∧ ITree.Bal top ∧ top.count = t.top.count + 1 ∧
          ∀ a, top.ivs.count a = t.top.ivs.count a + [iv].count a := by
        unfold ITree.addTop
        cases ht : t.top with
        | nil =>
          refine ⟨_, rfl, ⟨rfl, rfl, by simp [ITree.depth_nil], trivial, trivial⟩, rfl, ?_⟩
          intro a
          simp [ITree.single, ITree.ivs_mk, ITree.ivs]
        | node x s l r d b =>
          have hi := inv.bal
          have hn := inv.noPts
          rw [ht] at hi hn hdl
          obtain ⟨t', h1, h2, _, _, h4, h5⟩ := ITree.add_bal iv hnp lim _ (by intro h; cases h)
            hi hn hdl
          exact ⟨t', h1, h2, h4, h5⟩
      obtain ⟨top, e1, d1, c1, s1⟩ := htop
      have hrun : (TOp.add iv).run lim t =
          .ok ⟨t.all ++ [iv], top, addBound (addBound t.bounds iv.b) iv.e⟩ := by
        simp only [TOp.run, FTree.add, FTree.has, FIv.isNull, hin, decide_false,
          Bool.false_eq_true, if_false, hnull, e1, bind, Except.bind]
      refine ⟨_, hrun, ⟨⟨ITree.Bal.dep _ d1, ?_, ?_, ?_, (TOp.run_inv lim t _ _ hrun inv.real).1⟩, d1⟩⟩
      · intro j hj
        have h0 := List.count_pos_iff.2 hj
        simp only at h0
        rw [s1 j] at h0
        by_cases hji : j = iv
        · rw [hji]; exact hnp
        · have : [iv].count j = 0 := by rw [List.count_eq_zero]; simpa using hji
          exact inv.noPts j (List.count_pos_iff.1 (by omega))
      · have := inv.size
        simp only
        omega
      · intro a
        have := inv.sub a
        simp only [List.count_append]
        rw [s1 a]
        omega
  | discard iv =>
    have hw : Spec.Wide iv := hf
    have hnp := Wide.noPoint iv hw
    by_cases hin : iv ∈ t.all
    · have hne := inv.top_ne_nil (by intro h; rw [h] at hin; cases hin)
      have hr := ITree.removeHelper_depth iv hnp false lim t.top hne inv.dep (by omega)
      simp only [Bool.false_eq_true, if_false] at hr
      obtain ⟨b1, b2, e1, e2, r⟩ := delBoth _ _ _ hin inv.real.bounds
      have hrun : (TOp.discard iv).run lim t = .ok ⟨t.all.erase iv, t.top, b2⟩ := by
        simp only [TOp.run, FTree.discard, FTree.has, hin, decide_true, Bool.not_true,
          Bool.false_eq_true, if_false, hr, bind, Except.bind, e1, e2]
      refine ⟨_, hrun, ⟨⟨inv.dep, inv.noPts, by have := inv.size; simp only; omega, ?_,
        (TOp.run_inv lim t _ _ hrun inv.real).1⟩, inv.bal⟩⟩
      intro a
      exact le_trans (List.Sublist.count_le a List.erase_sublist) (inv.sub a)
    · refine ⟨t, ?_, ⟨⟨inv.dep, inv.noPts, by have := inv.size; omega, inv.sub, inv.real⟩, inv.bal⟩⟩
      simp [TOp.run, FTree.discard, FTree.has, hin]
  | remove iv => exact absurd hf id
  | clear =>
    refine ⟨FTree.empty, rfl, ⟨⟨trivial, ?_, ?_, ?_, FInv.empty⟩, trivial⟩⟩
    · intro iv h; cases h
    · simp [FTree.empty, ITree.count]
    · intro a; simp [FTree.empty]

/-- After every history of wide operations the invariant behind C91 holds. -/
theorem runTree_bal (lim : Nat) (ops : List (TOp D)) (hf : ∀ op ∈ ops, Spec.Fine op)
    (hl : (ops.length + 1) ^ 2 * 16 ≤ 2 ^ lim) : ∃ t, runTree lim ops = .ok t ∧ FBInv t ops.length := by
  have gen : ∀ (ops : List (TOp D)) (t0 : FTree D) (k : Nat), (∀ op ∈ ops, Spec.Fine op) →
      FBInv t0 k → (k + ops.length + 1) ^ 2 * 16 ≤ 2 ^ lim →
      ∃ t, ops.foldlM (fun t op => op.run lim t) t0 = .ok t ∧ FBInv t (k + ops.length) := by
    intro ops
    induction ops with
    | nil => intro t0 k _ inv _; exact ⟨t0, rfl, by simpa using inv⟩
    | cons op ops ih =>
      intro t0 k hf inv hl
      simp only [List.length_cons] at hl
      have hk : (k + 1) ^ 2 ≤ (k + (ops.length + 1) + 1) ^ 2 := Nat.pow_le_pow_left (by omega) 2
      obtain ⟨t1, h1, i1⟩ := TOp.run_bal lim k t0 op (hf op (by simp)) inv (by omega)
      obtain ⟨t, h2, i2⟩ := ih t1 (k + 1) (fun o ho => hf o (by simp [ho])) i1
        (by rw [show k + 1 + ops.length = k + (ops.length + 1) by omega]; exact hl)
      refine ⟨t, ?_, ?_⟩
      · rw [List.foldlM_cons]
        simp only [h1, bind, Except.bind]
        exact h2
      · rw [List.length_cons]
        have : k + (ops.length + 1) = k + 1 + ops.length := by omega
        rw [this]; exact i2
  have i0 : FBInv (FTree.empty : FTree D) 0 :=
    ⟨⟨trivial, (fun iv h => by cases h), (by simp [FTree.empty, ITree.count]),
      (fun a => by simp [FTree.empty]), FInv.empty⟩, trivial⟩
  obtain ⟨t, h, inv⟩ := gen ops FTree.empty 0 hf i0 (by simpa using hl)
  exact ⟨t, h, by simpa using inv⟩

/-- **C91, balance.** After every history of adds, discards and clears of wide intervals the node structure
is balanced: at every node the two subtrees differ in depth by at most one level, so with `n` operations the
depth is at most `2·log2(n+1)`. No operation of the history raises if the interpreter's recursion limit
exceeds `2·log2(n+1) + 4`; for Python's limit of 1000 that is every history that fits into a computer. -/
theorem C91_balanced (lim : Nat) (ops : List (TOp D)) (hf : ∀ op ∈ ops, Spec.Fine op)
    (hl : (ops.length + 1) ^ 2 * 16 ≤ 2 ^ lim) :
    ∃ t, runTree lim ops = .ok t ∧ Spec.Balanced t.top ∧
      2 ^ Spec.realDepth t.top ≤ (ops.length + 1) ^ 2 ∧ t.top.depth = (Spec.realDepth t.top : Int) := by
  obtain ⟨t, h, inv⟩ := runTree_bal lim ops hf hl
  have hb := ITree.Bal.balanced _ inv.bal
  refine ⟨t, h, hb, ?_, ITree.depth_eq_real _ inv.dep⟩
  exact le_trans (ITree.bal_count _ hb) (Nat.pow_le_pow_left (by have := inv.size; omega) 2)

/-- The default recursion limit is enough for every history shorter than `2^490`. -/
theorem C91_default_limit (ops : List (TOp D)) (hf : ∀ op ∈ ops, Spec.Fine op)
    (hn : ops.length < 2 ^ 490) : ∃ t, runTree 1000 ops = .ok t := by
  have h1 : (ops.length + 1) ^ 2 ≤ (2 ^ 490) ^ 2 := Nat.pow_le_pow_left (by omega) 2
  have h2 : (2 ^ 490) ^ 2 * 16 ≤ 2 ^ 1000 := by
    rw [← Nat.pow_mul, show 16 = 2 ^ 4 by norm_num, ← Nat.pow_add]
    exact Nat.pow_le_pow_right (by norm_num) (by norm_num)
  obtain ⟨t, h, _⟩ := C91_balanced 1000 ops hf (le_trans (Nat.mul_le_mul_right 16 h1) h2)
  exact ⟨t, h⟩

/-- Seven adds in ascending order make a tree of depth 3. -/
example : (runTree 20 ((List.range 7).map (fun i => TOp.add (⟨i, i + 1, 0⟩ : FIv Nat)))).map
    (fun t => Spec.realDepth t.top) = .ok 3 := by decide +kernel

end NGC
