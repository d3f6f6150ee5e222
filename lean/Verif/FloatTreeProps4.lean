import Verif.FloatTree2
import Verif.FloatTreeProps3

/-! Property theorems C132, C133: the remaining methods of the interval tree. -/

namespace NGC
variable {D : Type} [DecidableEq D]

namespace Spec

/-- Whether something was added since the beginning or the last `clear`. -/
def used (ops : List (TOp D)) : Bool :=
  ops.foldl (fun b op => match op with
    | .add _ => true
    | .clear => false
    | _ => b) false

/-- Sorted by begin, then by end, as `sorted` leaves intervals (C92). -/
def Ordered (l : List (FIv D)) : Prop := l.Pairwise (fun x y => x.b < y.b ∨ x.b = y.b ∧ x.e ≤ y.e)

end Spec

/-! ### C132: set algebra in place -/

theorem stored_wide (ops : List (TOp D)) (hf : ∀ op ∈ ops, Spec.Fine op) : ∀ iv ∈ Spec.stored ops, Spec.Wide iv := by
  have gen : ∀ (ops : List (TOp D)) (S : Finset (FIv D)), (∀ op ∈ ops, Spec.Fine op) → (∀ iv ∈ S, Spec.Wide iv) →
      ∀ iv ∈ ops.foldl Spec.setStep S, Spec.Wide iv := by
    intro ops
    induction ops with
    | nil => intro S _ h; exact h
    | cons op ops ih =>
      intro S hf h
      rw [List.foldl_cons]
      refine ih _ (fun o ho => hf o (List.mem_cons_of_mem _ ho)) ?_
      have hop := hf op List.mem_cons_self
      cases op with
      | add x =>
        intro iv hiv
        simp only [Spec.setStep, Finset.mem_insert] at hiv
        rcases hiv with rfl | hiv
        · exact hop
        · exact h iv hiv
      | discard x =>
        intro iv hiv
        simp only [Spec.setStep, Finset.mem_erase] at hiv
        exact h iv hiv.2
      | remove x => exact absurd hop id
      | clear =>
        intro iv hiv
        simp [Spec.setStep] at hiv
  exact gen ops ∅ hf (by simp)

/-- **C132, intersection in place.** After every history of wide operations, `intersection_update(other)` leaves the tree as it is if it is
a subset of `other`, and raises ValueError if there is anything to remove. -/
theorem C132_intersection (lim : Nat) (ops : List (TOp D)) (hf : ∀ op ∈ ops, Spec.Fine op) (hl : 4 * ops.length + 5 ≤ lim)
    (t : FTree D) (h : runTree lim ops = .ok t) (order other : List (FIv D)) (ho : order.Perm t.all) :
    ((∀ iv ∈ Spec.stored ops, iv ∈ other) → t.intersectionUpdate lim order other = .ok t) ∧
    ((∃ iv ∈ Spec.stored ops, iv ∉ other) → t.intersectionUpdate lim order other = .error .value) := by
  have hset := (C41_set_semantics lim ops t h).1
  have hmem : ∀ iv, iv ∈ order ↔ iv ∈ Spec.stored ops := by
    intro iv
    rw [ho.mem_iff, ← hset]
    simp [FTree.has]
  have hrem : ∀ iv, iv ∈ order → t.remove lim iv = .error .value := by
    intro iv hiv
    obtain ⟨t0, h0, h1⟩ := C43_remove_always_raises lim ops hf hl iv (stored_wide ops hf iv ((hmem iv).1 hiv))
    rw [h] at h0; cases h0
    exact h1
  have gen : ∀ l : List (FIv D), (∀ iv ∈ l, iv ∈ order) →
      ((∀ iv ∈ l, iv ∈ other) → l.foldlM (fun t iv => if iv ∈ other then (.ok t : Py (FTree D)) else t.remove lim iv) t = .ok t) ∧
      ((∃ iv ∈ l, iv ∉ other) → l.foldlM (fun t iv => if iv ∈ other then (.ok t : Py (FTree D)) else t.remove lim iv) t = .error .value) := by
    intro l
    induction l with
    | nil =>
      intro _
      refine ⟨fun _ => rfl, ?_⟩
      rintro ⟨iv, hiv, _⟩; cases hiv
    | cons x l ih =>
      intro hl'
      obtain ⟨i1, i2⟩ := ih (fun iv hiv => hl' iv (List.mem_cons_of_mem _ hiv))
      rw [List.foldlM_cons]
      by_cases hx : x ∈ other
      · rw [if_pos hx]
        refine ⟨fun hh => i1 (fun iv hiv => hh iv (List.mem_cons_of_mem _ hiv)), ?_⟩
        rintro ⟨iv, hiv, hn⟩
        rcases List.mem_cons.1 hiv with rfl | hiv
        · exact absurd hx hn
        · exact i2 ⟨iv, hiv, hn⟩
      · rw [if_neg hx, hrem x (hl' x List.mem_cons_self)]
        exact ⟨fun hh => absurd (hh x List.mem_cons_self) hx, fun _ => rfl⟩
  obtain ⟨g1, g2⟩ := gen order (fun _ h => h)
  refine ⟨fun hh => g1 (fun iv hiv => hh iv ((hmem iv).1 hiv)), ?_⟩
  rintro ⟨iv, hiv, hn⟩
  exact g2 ⟨iv, (hmem iv).2 hiv, hn⟩

/-- **C132, symmetric difference in place.** After every history of wide operations, `symmetric_difference_update(other)` adds the intervals of `other` if
no stored one is among them, and raises ValueError otherwise. -/
theorem C132_symmetric_difference (lim : Nat) (ops : List (TOp D)) (hf : ∀ op ∈ ops, Spec.Fine op) (t : FTree D) (h : runTree lim ops = .ok t)
    (order other : List (FIv D)) (ho : order.Perm t.all) (hl : 4 * ops.length + 5 ≤ lim) :
    ((∀ iv ∈ Spec.stored ops, iv ∉ other) → (∀ iv ∈ other, Spec.Wide iv) → (ops.length + other.length + 1) ^ 2 * 16 ≤ 2 ^ lim →
      ∃ t', t.symmetricDifferenceUpdate lim order other = .ok t' ∧ ∀ iv, t'.has iv = true ↔ iv ∈ Spec.stored ops ∨ iv ∈ other) ∧
    ((∃ iv ∈ Spec.stored ops, iv ∈ other) → t.symmetricDifferenceUpdate lim order other = .error .value) := by
  have hset := (C41_set_semantics lim ops t h).1
  have hmem : ∀ iv, iv ∈ order ↔ iv ∈ Spec.stored ops := by
    intro iv
    rw [ho.mem_iff, ← hset]
    simp [FTree.has]
  have hrem : ∀ iv, iv ∈ order → t.remove lim iv = .error .value := by
    intro iv hiv
    obtain ⟨t0, h0, h1⟩ := C43_remove_always_raises lim ops hf hl iv (stored_wide ops hf iv ((hmem iv).1 hiv))
    rw [h] at h0; cases h0
    exact h1
  have gen : ∀ l : List (FIv D), (∀ iv ∈ l, iv ∈ order) →
      ((∀ iv ∈ l, iv ∉ other) → FTree.symGo lim l (t, other) = .ok (t, other)) ∧
      ((∃ iv ∈ l, iv ∈ other) → FTree.symGo lim l (t, other) = .error .value) := by
    intro l
    induction l with
    | nil =>
      intro _
      refine ⟨fun _ => rfl, ?_⟩
      rintro ⟨iv, hiv, _⟩; cases hiv
    | cons x l ih =>
      intro hl'
      obtain ⟨i1, i2⟩ := ih (fun iv hiv => hl' iv (List.mem_cons_of_mem _ hiv))
      unfold FTree.symGo
      by_cases hx : x ∈ other
      · rw [if_pos hx, hrem x (hl' x List.mem_cons_self)]
        exact ⟨fun hh => absurd hx (hh x List.mem_cons_self), fun _ => rfl⟩
      · rw [if_neg hx]
        refine ⟨fun hh => i1 (fun iv hiv => hh iv (List.mem_cons_of_mem _ hiv)), ?_⟩
        rintro ⟨iv, hiv, hn⟩
        rcases List.mem_cons.1 hiv with rfl | hiv
        · exact absurd hn hx
        · exact i2 ⟨iv, hiv, hn⟩
  obtain ⟨g1, g2⟩ := gen order (fun _ h => h)
  constructor
  · intro hd hw hl2
    obtain ⟨t', h'⟩ := (C94_bulk_total lim ops hf t h other hw hl2).1
    refine ⟨t', ?_, ?_⟩
    · unfold FTree.symmetricDifferenceUpdate
      rw [g1 (fun iv hiv => hd iv ((hmem iv).1 hiv))]
      exact h'
    · intro iv
      rw [((C94_bulk lim ops t h other t').1 h').1 iv, hset]
  · rintro ⟨iv, hiv, hn⟩
    unfold FTree.symmetricDifferenceUpdate
    rw [g2 ⟨iv, (hmem iv).2 hiv, hn⟩]
    rfl

/-! ### C133: cutting and searching -/

theorem used_snoc (ops : List (TOp D)) (op : TOp D) : Spec.used (ops ++ [op]) = (match op with
    | .add _ => true
    | .clear => false
    | _ => Spec.used ops) := by
  unfold Spec.used
  rw [List.foldl_append]
  rfl

/-- The nodes of a tree made of wide intervals disappear only with `clear`. -/
theorem top_nil_iff (lim : Nat) (ops : List (TOp D)) (hf : ∀ op ∈ ops, Spec.Fine op) (hl : 4 * ops.length + 5 ≤ lim)
    (t : FTree D) (h : runTree lim ops = .ok t) : t.top = .nil ↔ Spec.used ops = false := by
  induction ops using List.reverseRecOn generalizing t with
  | nil => cases h; simp [FTree.empty, Spec.used]
  | append_singleton ops op ih =>
    rw [List.length_append, List.length_singleton] at hl
    have hf' : ∀ o ∈ ops, Spec.Fine o := fun o ho => hf o (List.mem_append_left _ ho)
    have hop := hf op (by simp)
    obtain ⟨t0, h0, inv⟩ := runTree_total lim ops hf' (by omega)
    have hih := ih hf' (by omega) t0 h0
    rw [runTree_append lim ops _ t0 h0] at h
    have hrun : op.run lim t0 = .ok t := by
      rw [List.foldlM_cons] at h
      cases hr : op.run lim t0 with
      | error e => rw [hr] at h; cases h
      | ok t1 => rw [hr] at h; exact h
    rw [used_snoc]
    obtain ⟨t2, h2, inv2⟩ := TOp.run_total lim ops.length t0 op hop inv (by omega)
    rw [hrun] at h2; cases h2
    cases op with
    | add iv =>
      have hin : iv ∈ t.all := by
        simp only [TOp.run] at hrun
        unfold FTree.add at hrun
        split_ifs at hrun with h1 h2
        · cases hrun
          simpa [FTree.has] using h1
        · cases ha : t0.top.addTop lim iv with
          | error e => rw [ha] at hrun; cases hrun
          | ok top => rw [ha] at hrun; cases hrun; simp
      have := inv2.top_ne_nil (by intro hc; rw [hc] at hin; cases hin)
      simp [this]
    | discard iv =>
      show t.top = .nil ↔ Spec.used ops = false
      rw [← hih]
      simp only [TOp.run] at hrun
      unfold FTree.discard at hrun
      split_ifs at hrun with h1
      · cases hrun; rfl
      · have hin : iv ∈ t0.all := by simpa [FTree.has] using h1
        have hne := inv.top_ne_nil (by intro hc; rw [hc] at hin; cases hin)
        have hr := ITree.removeHelper_noPoint iv (Wide.noPoint iv hop) false lim t0.top hne (by have := inv.size; omega)
        simp only [Bool.false_eq_true, if_false] at hr
        obtain ⟨b1, b2, e1, e2, r⟩ := delBoth _ _ _ hin inv.real.bounds
        simp only [hr, bind, Except.bind, e1, e2] at hrun
        cases hrun; rfl
    | remove iv => exact absurd hop id
    | clear => cases hrun; simp [FTree.empty]

/-- **C133, cutting and searching.** After every history of wide operations: if nothing was added since the last `clear`, then `at`, `overlap`, `envelop` find nothing and
`chop`, `slice`, `remove_overlap`, `remove_envelop` and `del tree[p]` leave the tree alone. If anything was ever added since, all of them raise AttributeError
(with a proper range), even when everything was discarded again and the tree is empty. -/
theorem C133_search (lim : Nat) (ops : List (TOp D)) (hf : ∀ op ∈ ops, Spec.Fine op) (hl : 4 * ops.length + 5 ≤ lim)
    (t : FTree D) (h : runTree lim ops = .ok t) (b e : ℚ) (hbe : b < e) :
    (Spec.used ops = false → t.at_ b = .ok [] ∧ t.overlap b e = .ok [] ∧ t.envelop b e = .ok [] ∧ t.chop lim b e = .ok t ∧ t.slice b = .ok t ∧
      t.removeOverlap b e = .ok t ∧ t.removeEnvelop lim b e = .ok t ∧ t.delItem lim b = .ok t) ∧
    (Spec.used ops = true → t.at_ b = .error .attribute ∧ t.overlap b e = .error .attribute ∧ t.envelop b e = .error .attribute ∧
      t.chop lim b e = .error .attribute ∧ t.slice b = .error .attribute ∧ t.removeOverlap b e = .error .attribute ∧
      t.removeEnvelop lim b e = .error .attribute ∧ t.delItem lim b = .error .attribute) := by
  have hiff := top_nil_iff lim ops hf hl t h
  constructor
  · intro hu
    have htop := hiff.2 hu
    refine ⟨?_, ?_, ?_, ?_, ?_, ?_, ?_, ?_⟩ <;>
      simp [FTree.at_, FTree.overlap, FTree.envelop, FTree.chop, FTree.slice, FTree.removeOverlap, FTree.removeEnvelop, FTree.delItem, htop, bind, Except.bind, pure, Except.pure]
  · intro hu
    have htop : t.top ≠ .nil := fun hc => by rw [hiff.1 hc] at hu; cases hu
    cases ht : t.top with
    | nil => exact absurd ht htop
    | node x s l r d bal =>
      refine ⟨?_, ?_, ?_, ?_, ?_, ?_, ?_, ?_⟩ <;>
        simp [FTree.at_, FTree.overlap, FTree.envelop, FTree.chop, FTree.slice, FTree.removeOverlap, FTree.removeEnvelop, FTree.delItem, ht, not_le.2 hbe,
          ITree.searchNumber, bind, Except.bind]

/-- **C133, the self-check.** After every history of wide operations `verify()` raises, unless nothing was added since the last `clear`: NameError or AssertionError with
intervals in the tree, AssertionError if all were discarded. -/
theorem C133_verify (lim : Nat) (ops : List (TOp D)) (hf : ∀ op ∈ ops, Spec.Fine op) (hl : 4 * ops.length + 5 ≤ lim)
    (t : FTree D) (h : runTree lim ops = .ok t) :
    (Spec.used ops = false → t.verify = .ok ()) ∧
    (Spec.used ops = true → (Spec.stored ops ≠ ∅ → t.verify = .error .name ∨ t.verify = .error .assertion) ∧
      (Spec.stored ops = ∅ → t.verify = .error .assertion)) := by
  have hiff := top_nil_iff lim ops hf hl t h
  obtain ⟨t0, h0, inv⟩ := runTree_total lim ops hf hl
  rw [h] at h0; cases h0
  obtain ⟨hset, hlen, _⟩ := C41_set_semantics lim ops t h
  have hall : t.all = [] ↔ Spec.stored ops = ∅ := by
    rw [← Finset.card_eq_zero, ← hlen]
    exact List.length_eq_zero_iff.symm
  have hbounds : t.all = [] → t.bounds = [] := by
    intro ha
    obtain ⟨_, hr⟩ := inv.real.bounds
    rw [ha] at hr
    cases hb : t.bounds with
    | nil => rfl
    | cons p l =>
      exfalso
      have := hr p.1
      rw [hb] at this
      simp [dget, endsAt] at this
  constructor
  · intro hu
    have htop := hiff.2 hu
    have ha : t.all = [] := by
      by_contra hc
      exact inv.top_ne_nil hc htop
    unfold FTree.verify
    simp [ha, hbounds ha, htop]
  · intro hu
    have htop : t.top ≠ .nil := fun hc => by rw [hiff.1 hc] at hu; cases hu
    constructor
    · intro hne
      have ha : t.all ≠ [] := fun hc => hne (hall.1 hc)
      unfold FTree.verify
      rw [if_pos ha]
      split_ifs
      · exact Or.inl rfl
      · exact Or.inr rfl
    · intro he
      have ha := hall.2 he
      unfold FTree.verify
      cases ht : t.top with
      | nil => exact absurd ht htop
      | node x s l r d bal => simp [ha, hbounds ha]

theorem ITree.bal_nodes : ∀ (t : ITree D), ITree.Bal t → ∀ n ∈ t.nodesOf, ITree.Bal n ∧ n ≠ .nil
  | .nil, _, n, hn => by simp [ITree.nodesOf] at hn
  | .node x s l r d b, h, n, hn => by
    simp only [ITree.nodesOf, List.mem_cons, List.mem_append] at hn
    rcases hn with rfl | hn | hn
    · exact ⟨h, by simp⟩
    · exact ITree.bal_nodes l h.2.2.2.1 n hn
    · exact ITree.bal_nodes r h.2.2.2.2 n hn

theorem ITree.computeDepth_real : ∀ (t : ITree D), t.computeDepth = (Spec.realDepth t : Int)
  | .nil => rfl
  | .node _ _ l r _ _ => by
    simp only [ITree.computeDepth, Spec.realDepth, ITree.computeDepth_real l, ITree.computeDepth_real r]
    push_cast
    rfl

/-- **C133, the self-check of a node.** `Node.verify()` returns for no node whatsoever, well formed or not: AssertionError, or
TypeError if the node is as unbalanced as the check demands. After every history of wide operations it is AssertionError for
every node of the tree, because all of them are balanced; and `compute_depth()` of each is its stored `depth`. -/
theorem C133_node_verify :
    (∀ n : ITree D, n ≠ .nil → n.verifyNode = .error .assertion ∨ n.verifyNode = .error .type) ∧
    (∀ (lim : Nat) (ops : List (TOp D)) (t : FTree D), (∀ op ∈ ops, Spec.Fine op) → (ops.length + 1) ^ 2 * 16 ≤ 2 ^ lim →
      runTree lim ops = .ok t → ∀ n ∈ t.top.nodesOf, n.verifyNode = .error .assertion ∧ n.computeDepth = n.depth) := by
  refine ⟨?_, ?_⟩
  · intro n hn
    match n, hn with
    | .node x [] l r d b, _ => simp only [ITree.verifyNode]; split_ifs <;> simp
    | .node x (iv :: s) l r d b, _ => simp only [ITree.verifyNode]; split_ifs <;> simp
  · intro lim ops t hf hl h n hn
    obtain ⟨t0, h0, inv⟩ := runTree_bal lim ops hf hl
    rw [h] at h0; cases h0
    obtain ⟨hb, hne⟩ := ITree.bal_nodes _ inv.bal n hn
    refine ⟨?_, by rw [ITree.computeDepth_real, ITree.depth_eq_real _ hb.dep]⟩
    match n, hb, hne with
    | .node x s l r d b, hb, _ =>
      obtain ⟨-, h2, h3, -⟩ := hb
      simp only [ITree.verifyNode]
      rw [if_pos (by omega)]

/-- A chain of three nodes leaning right passes the first three checks and fails with TypeError; the tree of seven ascending
adds has seven nodes. -/
example : (ITree.mk 0 [(⟨0, 1, 0⟩ : FIv Nat)] .nil (ITree.mk 1 [⟨1, 2, 0⟩] .nil (ITree.single ⟨2, 3, 0⟩))).verifyNode = .error .type ∧
    (runTree 20 ((List.range 7).map (fun i => TOp.add (⟨i, i + 1, 0⟩ : FIv Nat)))).map (fun t => t.top.nodesOf.length) = .ok 7 := by
  decide +kernel

/-! ### The other merges -/

theorem joinGo_spec (join : FIv D → FIv D → Bool) : ∀ (rest merged : List (FIv D)) (x : FIv D),
    ((x :: rest).IsChain (fun a b => join a b = false) → FTree.joinGo join (merged ++ [x]) rest = .ok (merged ++ x :: rest)) ∧
    (¬ (x :: rest).IsChain (fun a b => join a b = false) → FTree.joinGo join (merged ++ [x]) rest = .error .name) := by
  intro rest
  induction rest with
  | nil =>
    intro merged x
    refine ⟨fun _ => rfl, fun h => absurd (List.isChain_singleton _) h⟩
  | cons y rest ih =>
    intro merged x
    rw [List.isChain_cons_cons]
    unfold FTree.joinGo
    rw [List.getLast?_append, List.getLast?_singleton]
    simp only [Option.or_some, Option.getD_some, Option.some_or]
    cases hj : join x y with
    | true => simp
    | false =>
      obtain ⟨i1, i2⟩ := ih (merged ++ [x]) y
      simp only [Bool.false_eq_true, if_false]
      constructor
      · rintro ⟨_, hc⟩
        rw [i1 hc]; simp
      · intro hc
        exact i2 (fun h => hc ⟨trivial, h⟩)

theorem join_total (join : FIv D → FIv D → Bool) (lim : Nat) (ops : List (TOp D)) (t : FTree D) (h : runTree lim ops = .ok t)
    (sorted : List (FIv D)) (hp : sorted.Perm t.all) (hne : t.len ≠ 0) :
    (¬ sorted.IsChain (fun a b => join a b = false) → (FTree.joinGo join [] sorted >>= fun m => FTree.ofIntervals lim m m) = .error .name) ∧
    (sorted.IsChain (fun a b => join a b = false) → (∀ iv ∈ t.all, Spec.Wide iv) → 4 * t.len + 1 ≤ lim →
      ∃ t', (FTree.joinGo join [] sorted >>= fun m => FTree.ofIntervals lim m m) = .ok t' ∧ t'.all.Perm t.all) := by
  obtain ⟨x, rest, rfl⟩ : ∃ x rest, sorted = x :: rest := by
    cases sorted with
    | nil =>
      exfalso; apply hne
      have := hp.length_eq
      simpa [FTree.len] using this.symm
    | cons x rest => exact ⟨x, rest, rfl⟩
  obtain ⟨m1, m2⟩ := joinGo_spec join rest [] x
  have hstart : FTree.joinGo join [] (x :: rest) = FTree.joinGo join ([] ++ [x]) rest := by
    rw [FTree.joinGo]; rfl
  rw [hstart]
  constructor
  · intro hc
    rw [m2 hc]; rfl
  · intro hc hw hl
    rw [m1 hc]
    obtain ⟨t', h'⟩ := C42_built_tree_total lim (x :: rest) (x :: rest) (List.Perm.refl _)
      (fun iv hiv => hw iv (hp.mem_iff.1 hiv)) (by rw [hp.length_eq]; exact hl)
    have hnd : (x :: rest).Nodup := hp.nodup_iff.2 (runTree_inv lim ops t h).1.nodup
    refine ⟨t', h', ?_⟩
    rw [(C42_built_tree lim _ _ (List.Perm.refl _) hnd t' h').2]
    exact hp

/-- **C133, `merge_equals`.** On a non-empty tree it raises NameError exactly if two stored intervals have the same range (and different data), that is
whenever there is something to merge; otherwise, for wide intervals, it leaves the same intervals. -/
theorem C133_merge_equals (lim : Nat) (ops : List (TOp D)) (t : FTree D) (h : runTree lim ops = .ok t)
    (sorted : List (FIv D)) (hp : sorted.Perm t.all) (hs : Spec.Ordered sorted) (hne : t.len ≠ 0) :
    ((∃ x ∈ t.all, ∃ y ∈ t.all, x ≠ y ∧ x.b = y.b ∧ x.e = y.e) → t.mergeEquals lim sorted = .error .name) ∧
    ((∀ x ∈ t.all, ∀ y ∈ t.all, x.b = y.b → x.e = y.e → x = y) → (∀ iv ∈ t.all, Spec.Wide iv) → 4 * t.len + 1 ≤ lim →
      ∃ t', t.mergeEquals lim sorted = .ok t' ∧ t'.all.Perm t.all) := by
  obtain ⟨j1, j2⟩ := join_total (fun lower higher : FIv D => higher.rangeMatches lower) lim ops t h sorted hp hne
  have hnd : sorted.Nodup := hp.nodup_iff.2 (runTree_inv lim ops t h).1.nodup
  have hunf : t.mergeEquals lim sorted = (FTree.joinGo (fun lower higher : FIv D => higher.rangeMatches lower) [] sorted >>= fun m => FTree.ofIntervals lim m m) := by
    unfold FTree.mergeEquals
    rw [if_neg hne]
  rw [hunf]
  have hchain : sorted.IsChain (fun a b : FIv D => b.rangeMatches a = false) ↔ sorted.Pairwise (fun a b => ¬ (a.b = b.b ∧ a.e = b.e)) := by
    constructor
    · intro hc
      clear j1 j2 hunf hp
      induction sorted with
      | nil => exact List.Pairwise.nil
      | cons x l ih =>
        obtain ⟨hx, hs'⟩ := List.pairwise_cons.1 hs
        rw [List.nodup_cons] at hnd
        have hcl : l.IsChain (fun a b : FIv D => b.rangeMatches a = false) := List.IsChain.tail hc
        refine List.pairwise_cons.2 ⟨?_, ih hs' hnd.2 hcl⟩
        intro y hy
        rintro ⟨e1, e2⟩
        cases l with
        | nil => cases hy
        | cons z l =>
          rw [List.isChain_cons_cons] at hc
          have hz := hc.1
          simp only [FIv.rangeMatches, Bool.and_eq_false_iff, decide_eq_false_iff_not] at hz
          rcases List.mem_cons.1 hy with rfl | hy
          · rcases hz with hz | hz
            · exact hz e1.symm
            · exact hz e2.symm
          · have h1 := hx z List.mem_cons_self
            have h2 := (List.pairwise_cons.1 hs').1 y hy
            rcases h1 with h1 | ⟨h1, h1'⟩
            · rcases h2 with h2 | ⟨h2, _⟩ <;> linarith
            · rcases h2 with h2 | ⟨h2, h2'⟩
              · linarith
              · rcases hz with hz | hz
                · exact hz h1.symm
                · exact hz (le_antisymm (by linarith) h1')
    · intro hc
      refine List.Pairwise.isChain (hc.imp ?_)
      intro a b hab
      simp only [FIv.rangeMatches, Bool.and_eq_false_iff, decide_eq_false_iff_not]
      by_contra hcc
      push Not at hcc
      exact hab ⟨hcc.1.symm, hcc.2.symm⟩
  constructor
  · rintro ⟨x, hx, y, hy, hxy, e1, e2⟩
    apply j1
    rw [hchain]
    intro hc
    have hsym : ∀ a ∈ sorted, ∀ b ∈ sorted, a ≠ b → ¬ (a.b = b.b ∧ a.e = b.e) := by
      intro a ha b hb hab
      have hR : Std.Symm (fun (a b : FIv D) => a ≠ b → ¬ (a.b = b.b ∧ a.e = b.e)) := ⟨fun a b h1 h2 h3 => h1 h2.symm ⟨h3.1.symm, h3.2.symm⟩⟩
      exact List.Pairwise.forall_of_forall (l := sorted) (R := fun (a b : FIv D) => a ≠ b → ¬ (a.b = b.b ∧ a.e = b.e))
        (fun a _ h => absurd rfl h) (hc.imp (fun {a b} h (_ : a ≠ b) => h)) ha hb hab
    exact hsym x (hp.mem_iff.2 hx) y (hp.mem_iff.2 hy) hxy ⟨e1, e2⟩
  · intro hu
    apply j2
    rw [hchain]
    refine List.Pairwise.imp_of_mem ?_ hnd
    intro a b ha hb hab hc
    exact hab (hu a (hp.mem_iff.1 ha) b (hp.mem_iff.1 hb) hc.1 hc.2)

/-- **C133, `merge_neighbors`.** On a non-empty tree it raises NameError exactly if some two successive intervals are to be merged: the gap between them is at most
`distance` (and, with `strict`, they do not overlap). Otherwise, for wide intervals, it leaves the same intervals. -/
theorem C133_merge_neighbors (lim : Nat) (ops : List (TOp D)) (t : FTree D) (h : runTree lim ops = .ok t)
    (sorted : List (FIv D)) (hp : sorted.Perm t.all) (hne : t.len ≠ 0) (distance : ℚ) (strict : Bool) :
    (¬ sorted.IsChain (fun x y => distance < y.b - x.e ∨ strict = true ∧ y.b < x.e) → t.mergeNeighbors lim sorted distance strict = .error .name) ∧
    (sorted.IsChain (fun x y => distance < y.b - x.e ∨ strict = true ∧ y.b < x.e) → (∀ iv ∈ t.all, Spec.Wide iv) → 4 * t.len + 1 ≤ lim →
      ∃ t', t.mergeNeighbors lim sorted distance strict = .ok t' ∧ t'.all.Perm t.all) := by
  have hunf : t.mergeNeighbors lim sorted distance strict = (FTree.joinGo (FTree.neighborJoin distance strict) [] sorted >>= fun m => FTree.ofIntervals lim m m) := by
    unfold FTree.mergeNeighbors
    rw [if_neg hne]
  rw [hunf]
  have heq : (fun x y : FIv D => distance < y.b - x.e ∨ strict = true ∧ y.b < x.e) = (fun a b => FTree.neighborJoin distance strict a b = false) := by
    funext x y
    unfold FTree.neighborJoin
    cases strict
    · simp only [Bool.and_eq_false_iff, Bool.false_eq_true, false_and, or_false, eq_iff_iff]
      simp
      constructor <;> intro hh <;> linarith
    · simp
      constructor
      · rintro (hh | hh) hh2
        · linarith
        · exact hh
      · intro hh
        by_cases h3 : y.b < x.e
        · exact Or.inr h3
        · left
          by_contra h4
          exact h3 (hh (by linarith))
  rw [heq]
  exact join_total (FTree.neighborJoin distance strict) lim ops t h sorted hp hne

/-! ### Examples -/

/-- All intervals of the example history discarded: the tree is empty, but searching it raises and so does its self-check. -/
def exEmptied : List (TOp Nat) := [.add ⟨0, 1, 0⟩, .discard ⟨0, 1, 0⟩]

example : (runTree 1000 exEmptied).map (fun t => (t.len, t.at_ 0 = .error .attribute, t.verify = .error .assertion)) = .ok (0, True, True) := by
  have h : (runTree 1000 exEmptied).map (fun t => (t.len, decide (t.at_ 0 = .error .attribute), decide (t.verify = .error .assertion))) = .ok (0, true, true) := by
    decide +kernel
  cases hr : runTree 1000 exEmptied with
  | error e => rw [hr] at h; cases h
  | ok t =>
    rw [hr] at h
    simp only [Except.map, Except.ok.injEq, Prod.mk.injEq, decide_eq_true_eq] at h ⊢
    exact ⟨h.1, eq_true h.2.1, eq_true h.2.2⟩

/-- Intersection with a superset, symmetric difference with a disjoint and with an overlapping set. -/
example : (runTree 1000 exHist).map (fun t => ((t.intersectionUpdate 1000 t.all exIvs).map (·.len),
    (t.symmetricDifferenceUpdate 1000 t.all [⟨7, 8, 0⟩]).map (·.len), (t.symmetricDifferenceUpdate 1000 t.all [⟨5, 6, 0⟩]).map (·.len))) =
      .ok (.ok 3, .ok 4, .error .value) := by decide +kernel

/-- The history has two intervals with the same range. -/
example : (runTree 1000 exHist).map (fun t => ((t.mergeEquals 1000 [⟨1/2, 3, 0⟩, ⟨1/2, 3, 7⟩, ⟨5, 6, 0⟩]).map (·.len),
    (t.mergeNeighbors 1000 [⟨1/2, 3, 0⟩, ⟨1/2, 3, 7⟩, ⟨5, 6, 0⟩] 1 true).map (·.len),
    (t.mergeNeighbors 1000 [⟨1/2, 3, 0⟩, ⟨1/2, 3, 7⟩, ⟨5, 6, 0⟩] 2 true).map (·.len))) = .ok (.error .name, .ok 3, .error .name) := by decide +kernel

end NGC
