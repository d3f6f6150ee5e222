import Verif.TreeScore
import Verif.FloatTreeProps4
import Mathlib.Algebra.BigOperators.Group.List.Basic
import Mathlib.Algebra.Order.BigOperators.Group.List

/-! C159: the score of the interval tree. -/

namespace NGC
variable {D : Type} [DecidableEq D]

namespace Spec

/-- How many intervals were added (those not stored at that moment) since the beginning or the last `clear`, with the set stored. -/
def addStep (p : Finset (FIv D) × Nat) (op : TOp D) : Finset (FIv D) × Nat :=
  (setStep p.1 op, match op with
    | .add iv => if iv ∈ p.1 then p.2 else p.2 + 1
    | .clear => 0
    | _ => p.2)

/-- The number of intervals added since the last `clear`. -/
def added (ops : List (TOp D)) : Nat := (ops.foldl addStep (∅, 0)).2

/-- The levels of the intervals in the nodes: 1 for those in the top node. -/
def levels : Nat → ITree D → List Nat
  | _, .nil => []
  | d, .node _ s l r _ _ => levels (d + 1) l ++ List.replicate s.length d ++ levels (d + 1) r

/-- How many levels too deep the intervals are, in total: `⌊log2 m⌋ + 1` levels are enough for `m` nodes. -/
def tooDeep (t : ITree D) (m : Nat) : Nat := ((levels 1 t).map (fun d => d - (Nat.log 2 m + 1))).sum

end Spec

theorem helper_eq (t : ITree D) (d k : Nat) : t.depthScoreHelper d k = (((Spec.levels d t).map (fun d => d - k)).sum : Nat) := by
  induction t generalizing d with
  | nil => simp [ITree.depthScoreHelper, Spec.levels]
  | node x s l r dep b ihl ihr =>
    have hl := ihl (d + 1)
    have hr := ihr (d + 1)
    push_cast at hl hr
    simp only [ITree.depthScoreHelper, Spec.levels, List.map_append, List.map_replicate, List.sum_append, List.sum_replicate, nsmul_eq_mul]
    rw [hl, hr]
    push_cast
    split
    · rename_i h
      have : ((d - k : Nat) : Int) = d - k := by omega
      rw [this]; ring
    · rename_i h
      have : d - k = 0 := by omega
      rw [this]; simp; ring

theorem len_levels (t : ITree D) (d : Nat) : (Spec.levels d t).length = t.ivs.length := by
  induction t generalizing d with
  | nil => rfl
  | node x s l r dep b ihl ihr => simp [Spec.levels, ITree.ivs, ihl, ihr]

theorem run_count (lim k : Nat) (t t' : FTree D) (op : TOp D) (hf : Spec.Fine op) (inv : FBInv t k) (hl : (k + 1) ^ 2 * 16 ≤ 2 ^ lim)
    (h : op.run lim t = .ok t') :
    t'.top.count = (match op with
      | .add iv => if iv ∈ t.all then t.top.count else t.top.count + 1
      | .clear => 0
      | _ => t.top.count) ∧
    t'.top.ivs.length + t.top.count = t.top.ivs.length + t'.top.count ∨ (op = .clear ∧ t' = FTree.empty) := by
  have hdl := inv.depth_le hl
  cases op with
  | add iv =>
    left
    have hnp := Wide.noPoint iv hf
    have hlt := Wide.lt iv hf
    by_cases hin : iv ∈ t.all
    · have : t' = t := by
        have h2 : (TOp.add iv).run lim t = .ok t := by simp [TOp.run, FTree.add, FTree.has, hin]
        rw [h2] at h; exact (Except.ok.inj h).symm
      subst this
      simp [hin]
    · have hnull : ¬ iv.e ≤ iv.b := not_le.2 hlt
      have htop : ∃ top, (t.top.addTop lim iv) = .ok top ∧ top.count = t.top.count + 1 ∧
          ∀ a, top.ivs.count a = t.top.ivs.count a + [iv].count a := by
        unfold ITree.addTop
        cases ht : t.top with
        | nil => exact ⟨_, rfl, rfl, fun a => by simp [ITree.single, ITree.ivs_mk, ITree.ivs]⟩
        | node x s l r d b =>
          have hi := inv.bal
          have hn := inv.noPts
          rw [ht] at hi hn hdl
          obtain ⟨t', h1, h2, _, _, h4, h5⟩ := ITree.add_bal iv hnp lim _ (by intro h; cases h) hi hn hdl
          exact ⟨t', h1, h4, h5⟩
      obtain ⟨top, e1, c1, s1⟩ := htop
      have hrun : (TOp.add iv).run lim t = .ok ⟨t.all ++ [iv], top, addBound (addBound t.bounds iv.b) iv.e⟩ := by
        simp only [TOp.run, FTree.add, FTree.has, FIv.isNull, hin, decide_false,
          Bool.false_eq_true, if_false, hnull, e1, bind, Except.bind]
      rw [hrun] at h
      have := Except.ok.inj h
      subst this
      have hp : top.ivs.Perm (t.top.ivs ++ [iv]) := by
        rw [List.perm_iff_count]
        intro a; rw [s1 a, List.count_append]
      have := hp.length_eq
      simp only [hin, if_false, c1, true_and]
      rw [this]; simp; omega
  | discard iv =>
    left
    have hnp := Wide.noPoint iv hf
    by_cases hin : iv ∈ t.all
    · have hne := inv.top_ne_nil (by intro h; rw [h] at hin; cases hin)
      have hr := ITree.removeHelper_depth iv hnp false lim t.top hne inv.dep (by omega)
      simp only [Bool.false_eq_true, if_false] at hr
      obtain ⟨b1, b2, e1, e2, r⟩ := delBoth _ _ _ hin inv.real.bounds
      have hrun : (TOp.discard iv).run lim t = .ok ⟨t.all.erase iv, t.top, b2⟩ := by
        simp only [TOp.run, FTree.discard, FTree.has, hin, decide_true, Bool.not_true,
          Bool.false_eq_true, if_false, hr, bind, Except.bind, e1, e2]
      rw [hrun] at h
      have := Except.ok.inj h
      subst this
      simp
    · have : t' = t := by
        have h2 : (TOp.discard iv).run lim t = .ok t := by simp [TOp.run, FTree.discard, FTree.has, hin]
        rw [h2] at h; exact (Except.ok.inj h).symm
      subst this
      simp
  | remove iv => exact absurd hf id
  | clear =>
    right
    exact ⟨rfl, (Except.ok.inj h).symm⟩

/-- Nodes and intervals in the nodes after a history. -/
theorem history_count (lim : Nat) (ops : List (TOp D)) (hf : ∀ op ∈ ops, Spec.Fine op) (hl : (ops.length + 1) ^ 2 * 16 ≤ 2 ^ lim)
    (t : FTree D) (h : runTree lim ops = .ok t) :
    t.top.count = Spec.added ops ∧ t.top.ivs.length = Spec.added ops ∧ t.len ≤ Spec.added ops := by
  have gen : ∀ (ops : List (TOp D)) (t0 : FTree D) (k : Nat) (p : Finset (FIv D) × Nat), (∀ op ∈ ops, Spec.Fine op) →
      FBInv t0 k → (k + ops.length + 1) ^ 2 * 16 ≤ 2 ^ lim → t0.all.toFinset = p.1 → t0.top.count = p.2 → t0.top.ivs.length = p.2 →
      ∀ t, ops.foldlM (fun t op => op.run lim t) t0 = .ok t →
      FBInv t (k + ops.length) ∧ t.top.count = (ops.foldl Spec.addStep p).2 ∧ t.top.ivs.length = (ops.foldl Spec.addStep p).2 := by
    intro ops
    induction ops with
    | nil => intro t0 k p _ inv _ _ h1 h2 t ht; cases ht; exact ⟨by simpa using inv, h1, h2⟩
    | cons op ops ih =>
      intro t0 k p hf inv hl hm hc hi t ht
      simp only [List.length_cons] at hl
      have hk : (k + 1) ^ 2 ≤ (k + (ops.length + 1) + 1) ^ 2 := Nat.pow_le_pow_left (by omega) 2
      obtain ⟨t1, h1, i1⟩ := TOp.run_bal lim k t0 op (hf op (by simp)) inv (by omega)
      rw [List.foldlM_cons] at ht
      simp only [h1, bind, Except.bind] at ht
      have hrc := run_count lim k t0 t1 op (hf op (by simp)) inv (by omega) h1
      have hset : t1.all.toFinset = (Spec.addStep p op).1 := by
        rw [(TOp.run_inv lim t0 t1 op h1 inv.real).2, hm]
        rfl
      have hcount : t1.top.count = (Spec.addStep p op).2 ∧ t1.top.ivs.length = (Spec.addStep p op).2 := by
        rcases hrc with ⟨a, b⟩ | ⟨a, b⟩
        · have : t1.top.count = (Spec.addStep p op).2 := by
            rw [a]
            unfold Spec.addStep
            cases op with
            | add iv =>
              have : iv ∈ t0.all ↔ iv ∈ p.1 := by rw [← hm]; simp
              simp only [this, hc]
            | _ => simp only [hc]
          exact ⟨this, by omega⟩
        · subst a b
          exact ⟨rfl, rfl⟩
      have := ih t1 (k + 1) (Spec.addStep p op) (fun o ho => hf o (by simp [ho])) i1
        (by rw [show k + 1 + ops.length = k + (ops.length + 1) by omega]; exact hl) hset hcount.1 hcount.2 t ht
      refine ⟨?_, this.2⟩
      rw [List.length_cons, show k + (ops.length + 1) = k + 1 + ops.length by omega]
      exact this.1
  have i0 : FBInv (FTree.empty : FTree D) 0 :=
    ⟨⟨trivial, (fun iv h => by cases h), (by simp [FTree.empty, ITree.count]),
      (fun a => by simp [FTree.empty]), FInv.empty⟩, trivial⟩
  have := gen ops FTree.empty 0 (∅, 0) hf i0 (by simpa using hl) (by simp [FTree.empty]) rfl rfl t h
  refine ⟨this.2.1, this.2.2, ?_⟩
  have hs : t.all.Subperm t.top.ivs := List.subperm_iff_count.2 this.1.sub
  have := hs.length_le
  unfold FTree.len Spec.added
  omega

theorem tooDeep_eq (t : ITree D) (m : Nat) : t.depthScoreHelper 1 (1 + Nat.log 2 m) = Spec.tooDeep t m := by
  have := helper_eq t 1 (Nat.log 2 m + 1)
  unfold Spec.tooDeep
  rw [← this]
  push_cast
  rw [add_comm]

/-- **C159.** After every history of adds, discards and clears of wide intervals, with `n` intervals stored and `m` added since the last `clear`: up to two intervals score 0;
otherwise `score()` raises ZeroDivisionError exactly if `n = ⌊log2 m⌋`, and is the larger of two numbers else: by how many levels in total the intervals ever added
lie too deep in the nodes, divided by `n - ⌊log2 m⌋`, and `(n - m)/(n - 1)`. -/
theorem C159_score (lim : Nat) (ops : List (TOp D)) (hf : ∀ op ∈ ops, Spec.Fine op) (hl : (ops.length + 1) ^ 2 * 16 ≤ 2 ^ lim)
    (t : FTree D) (h : runTree lim ops = .ok t) (n m : Nat) (hn : (Spec.stored ops).card = n) (hm : Spec.added ops = m) :
    n ≤ m ∧ (Spec.levels 1 t.top).length = m ∧
    (n ≤ 2 → t.score = .ok 0) ∧
    (3 ≤ n → (n = Nat.log 2 m → t.score = .error .zeroDiv) ∧
      (n ≠ Nat.log 2 m → t.score = .ok (max (Spec.tooDeep t.top m / ((n : ℚ) - Nat.log 2 m)) (((n : ℚ) - m) / (n - 1))))) := by
  obtain ⟨h1, h2, h3⟩ := history_count lim ops hf hl t h
  have h4 := (C41_set_semantics lim ops t h).2.1
  rw [hm] at h1 h2 h3
  rw [hn] at h4
  refine ⟨by omega, by rw [len_levels, h2], ?_, ?_⟩
  · intro h5
    unfold FTree.score
    rw [if_pos (by omega)]
  · intro h5
    unfold FTree.score FTree.scoreReport ITree.depthScore
    rw [if_neg (by omega), h4, h1]
    simp only
    rw [if_neg (by omega : ¬ n = 0)]
    constructor
    · intro h6
      rw [if_pos (by omega)]
      rfl
    · intro h6
      rw [if_neg (by omega), tooDeep_eq]
      simp only [bind, Except.bind]
      congr 2
      push_cast
      have : (1 + (n : ℚ) - (1 + (Nat.log 2 m : ℚ))) = (n : ℚ) - Nat.log 2 m := by ring
      rw [this, one_div, inv_mul_eq_div]

/-- **C159, nothing discarded.** If all the intervals added since the last `clear` are still there, three or more, `score()` does not raise; it is not negative, and 0 exactly if no
interval lies deeper than the `⌊log2 n⌋ + 1` levels that `n` nodes need. -/
theorem C159_fresh (lim : Nat) (ops : List (TOp D)) (hf : ∀ op ∈ ops, Spec.Fine op) (hl : (ops.length + 1) ^ 2 * 16 ≤ 2 ^ lim)
    (t : FTree D) (h : runTree lim ops = .ok t) (n : Nat) (hn : (Spec.stored ops).card = n) (hm : Spec.added ops = n) (h3 : 3 ≤ n) :
    ∃ s, t.score = .ok s ∧ 0 ≤ s ∧ (s = 0 ↔ ∀ d ∈ Spec.levels 1 t.top, d ≤ Nat.log 2 n + 1) := by
  have hlog : Nat.log 2 n < n := Nat.log_lt_self 2 (by omega)
  have hs := ((C159_score lim ops hf hl t h n n hn hm).2.2.2 h3).2 (by omega)
  have hpos : (0 : ℚ) < (n : ℚ) - Nat.log 2 n := by
    have : (Nat.log 2 n : ℚ) < n := by exact_mod_cast hlog
    linarith
  rw [sub_self, zero_div, max_eq_left (by positivity)] at hs
  refine ⟨_, hs, by positivity, ?_⟩
  rw [div_eq_zero_iff]
  constructor
  · rintro (h0 | h0)
    · intro d hd
      have h0' : Spec.tooDeep t.top n = 0 := by exact_mod_cast h0
      unfold Spec.tooDeep at h0'
      have := List.sum_eq_zero_iff.1 h0' (d - (Nat.log 2 n + 1)) (List.mem_map_of_mem hd)
      omega
    · exact absurd h0 hpos.ne'
  · intro hall
    left
    have : Spec.tooDeep t.top n = 0 := by
      unfold Spec.tooDeep
      rw [List.sum_eq_zero_iff]
      intro x hx
      obtain ⟨d, hd, rfl⟩ := List.mem_map.1 hx
      have := hall d hd
      omega
    rw [this]; rfl

/-- Seven intervals in ascending order: as good as it gets. -/
example : (runTree 20 ((List.range 7).map (fun i => TOp.add (⟨i, i + 1, 0⟩ : FIv Nat)))).bind FTree.score = .ok 0 := by decide +kernel

/-- **C159, defect: division by zero.** Eight intervals added and five discarded: three are left, `log2 8` is three. -/
theorem C159_zero_div :
    (runTree 20 ((List.range 8).map (fun i => TOp.add (⟨i, i + 1, 0⟩ : FIv Nat)) ++ (List.range 5).map (fun i => TOp.discard ⟨i, i + 1, 0⟩))).bind FTree.score =
      .error .zeroDiv := by decide +kernel

/-- Twenty intervals in an order that makes the nodes as deep as balance allows. -/
def deepOrder : List Nat := [12, 7, 17, 4, 10, 15, 19, 2, 6, 9, 11, 14, 16, 18, 1, 3, 5, 8, 13, 0]

/-- **C159, defect: not between 0 and 1.** Twenty intervals, and all but three discarded: the score is negative. -/
theorem C159_negative :
    ((runTree 20 (deepOrder.map (fun i => TOp.add (⟨i, i + 1, 0⟩ : FIv Nat)))).bind FTree.score = .ok (1/16)) ∧
    (runTree 20 (deepOrder.map (fun i => TOp.add (⟨i, i + 1, 0⟩ : FIv Nat)) ++ (deepOrder.drop 3).map (fun i => TOp.discard ⟨i, i + 1, 0⟩))).bind FTree.score =
      .ok (-1) := by decide +kernel

end NGC
