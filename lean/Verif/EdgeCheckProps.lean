import Verif.EdgeCheck
import Mathlib.Data.List.Basic
import Mathlib.Tactic.IntervalCases
import Mathlib.Tactic.Push

/-!
C188: the checks of a batch.
-/

namespace NGC

/-- As many entries per node. -/
structure Spec.ShapedBatch (b : MaskedBatch) : Prop where
  train : b.train.length = b.numNodes
  val : b.val.length = b.numNodes
  test : b.test.length = b.numNodes
  y : b.y.length = b.numNodes
  label : b.label.length = b.numNodes

/-- The position `i` is in some mask. -/
def Spec.InMask (b : MaskedBatch) (i : Nat) : Prop := b.train[i]? = some true ∨ b.val[i]? = some true ∨ b.test[i]? = some true

/-- No node is in two masks. -/
def Spec.MasksApart (b : MaskedBatch) : Prop :=
  ∀ i : Nat, ¬ (b.train[i]? = some true ∧ b.val[i]? = some true) ∧ ¬ (b.train[i]? = some true ∧ b.test[i]? = some true) ∧ ¬ (b.val[i]? = some true ∧ b.test[i]? = some true)

/-- The ends of an edge are nodes. -/
def Spec.EndsAtNodes (b : MaskedBatch) (e : Int × Int) : Prop := 0 ≤ e.1 ∧ e.1 < b.numNodes ∧ 0 ≤ e.2 ∧ e.2 < b.numNodes

theorem nonzeroIdx_mem (mask : List Bool) (i : Nat) : i ∈ nonzeroIdx mask ↔ mask[i]? = some true := by
  unfold nonzeroIdx
  rw [List.mem_filter, List.mem_range, List.getD_eq_getElem?_getD]
  constructor
  · rintro ⟨h, h'⟩
    rw [List.getElem?_eq_getElem h] at h' ⊢
    simpa using h'
  · intro h
    exact ⟨(List.getElem?_eq_some_iff.1 h).1, by rw [h]; rfl⟩

theorem pickCols_spec (edges : List (Int × Int)) (is : List Nat) :
    ((∃ i ∈ is, edges.length ≤ i) → pickCols edges is = .error .index) ∧
    ((∀ i ∈ is, i < edges.length) → ∃ r, pickCols edges is = .ok r ∧ ∀ e, e ∈ r ↔ ∃ i ∈ is, edges[i]? = some e) := by
  induction is with
  | nil => exact ⟨by simp, fun _ => ⟨[], rfl, by simp⟩⟩
  | cons i is ih =>
    unfold pickCols
    constructor
    · rintro ⟨j, hj, hl⟩
      cases he : edges[i]? with
      | none => rfl
      | some e =>
        rcases List.mem_cons.1 hj with rfl | hj
        · rw [List.getElem?_eq_none hl] at he; cases he
        · simp only [ih.1 ⟨j, hj, hl⟩]; rfl
    · intro h
      obtain ⟨r, hr, hm⟩ := ih.2 (fun j hj => h j (List.mem_cons_of_mem _ hj))
      have hi := h i List.mem_cons_self
      rw [List.getElem?_eq_getElem hi]
      refine ⟨edges[i] :: r, by simp only [hr]; rfl, fun e => ?_⟩
      rw [List.mem_cons, hm]
      constructor
      · rintro (rfl | ⟨j, hj, he⟩)
        · exact ⟨i, List.mem_cons_self, List.getElem?_eq_getElem hi⟩
        · exact ⟨j, List.mem_cons_of_mem _ hj, he⟩
      · rintro ⟨j, hj, he⟩
        rcases List.mem_cons.1 hj with rfl | hj
        · rw [List.getElem?_eq_getElem hi] at he; exact Or.inl (Option.some.inj he).symm
        · exact Or.inr ⟨j, hj, he⟩

theorem overlap_zero (a c : List Bool) : overlap a c = 0 ↔ ∀ i : Nat, ¬ (a[i]? = some true ∧ c[i]? = some true) := by
  unfold overlap
  rw [List.countP_eq_zero]
  constructor
  · rintro h i ⟨h1, h2⟩
    obtain ⟨l1, e1⟩ := List.getElem?_eq_some_iff.1 h1
    obtain ⟨l2, e2⟩ := List.getElem?_eq_some_iff.1 h2
    refine h true (List.mem_iff_getElem.2 ⟨i, by simp; omega, ?_⟩) rfl
    simp [e1, e2]
  · intro h x hx hxt
    obtain ⟨i, hi, rfl⟩ := List.mem_iff_getElem.1 hx
    simp at hi hxt
    exact h i ⟨by rw [List.getElem?_eq_getElem hi.1, hxt.1], by rw [List.getElem?_eq_getElem hi.2, hxt.2]⟩

theorem assertThat_bind (c : Bool) (k : Py Unit) : (assertThat c >>= fun _ => k) = if c then k else .error .assertion := by
  unfold assertThat; split <;> rfl

theorem all_mem_iff (b : MaskedBatch) (mask : List Bool) (r : List (Int × Int)) (hr : ∀ e, e ∈ r ↔ ∃ i ∈ nonzeroIdx mask, b.edges[i]? = some e) (P : Int × Int → Prop) [DecidablePred P] :
    r.all (fun e => decide (P e)) = true ↔ ∀ (i : Nat) (e : Int × Int), mask[i]? = some true → b.edges[i]? = some e → P e := by
  rw [List.all_eq_true]
  constructor
  · intro h i e hm he
    simpa using h e ((hr e).2 ⟨i, (nonzeroIdx_mem mask i).2 hm, he⟩)
  · intro h e he
    obtain ⟨i, hi, hie⟩ := (hr e).1 he
    simpa using h i e ((nonzeroIdx_mem mask i).1 hi) hie

/-- The result once the columns are there: AssertionError unless all conditions hold. -/
theorem checkEdgeIndex_cols (b : MaskedBatch) (hi : ∀ i, Spec.InMask b i → i < b.edges.length) :
    ((Spec.MasksApart b ∧ (∀ i e, Spec.InMask b i → b.edges[i]? = some e → Spec.EndsAtNodes b e) ∧
      b.edges.length = b.train.countP id + b.val.countP id + b.test.countP id) → checkEdgeIndex b = .ok ()) ∧
    (¬ (Spec.MasksApart b ∧ (∀ i e, Spec.InMask b i → b.edges[i]? = some e → Spec.EndsAtNodes b e) ∧
      b.edges.length = b.train.countP id + b.val.countP id + b.test.countP id) → checkEdgeIndex b = .error .assertion) := by
  obtain ⟨tr, e1, m1⟩ := (pickCols_spec b.edges (nonzeroIdx b.train)).2 (fun i h => hi i (Or.inl ((nonzeroIdx_mem _ i).1 h)))
  obtain ⟨va, e2, m2⟩ := (pickCols_spec b.edges (nonzeroIdx b.val)).2 (fun i h => hi i (Or.inr (Or.inl ((nonzeroIdx_mem _ i).1 h))))
  obtain ⟨te, e3, m3⟩ := (pickCols_spec b.edges (nonzeroIdx b.test)).2 (fun i h => hi i (Or.inr (Or.inr ((nonzeroIdx_mem _ i).1 h))))
  unfold checkEdgeIndex
  rw [e1, e2, e3]
  simp only [assertThat_bind]
  simp only [bind, Except.bind]
  have t1 := all_mem_iff b b.train tr m1 (fun e => e.1 ≤ (b.numNodes : Int) - 1 ∧ e.2 ≤ (b.numNodes : Int) - 1)
  have t2 := all_mem_iff b b.val va m2 (fun e => e.1 ≤ (b.numNodes : Int) - 1 ∧ e.2 ≤ (b.numNodes : Int) - 1)
  have t3 := all_mem_iff b b.test te m3 (fun e => e.1 ≤ (b.numNodes : Int) - 1 ∧ e.2 ≤ (b.numNodes : Int) - 1)
  have t4 := all_mem_iff b b.train tr m1 (fun e => 0 ≤ e.1 ∧ 0 ≤ e.2)
  have t5 := all_mem_iff b b.val va m2 (fun e => 0 ≤ e.1 ∧ 0 ≤ e.2)
  have t6 := all_mem_iff b b.test te m3 (fun e => 0 ≤ e.1 ∧ 0 ≤ e.2)
  have o1 : ((overlap b.train b.val == 0) = true) ↔ _ := beq_iff_eq.trans (overlap_zero b.train b.val)
  have o2 : ((overlap b.train b.test == 0) = true) ↔ _ := beq_iff_eq.trans (overlap_zero b.train b.test)
  have o3 : ((overlap b.val b.test == 0) = true) ↔ _ := beq_iff_eq.trans (overlap_zero b.val b.test)
  constructor
  · rintro ⟨ha, he, hc⟩
    rw [if_pos (o1.2 fun i => (ha i).1), if_pos (o2.2 fun i => (ha i).2.1), if_pos (o3.2 fun i => (ha i).2.2),
      if_pos (t1.2 fun i e h h' => by have := he i e (Or.inl h) h'; unfold Spec.EndsAtNodes at this; omega),
      if_pos (t2.2 fun i e h h' => by have := he i e (Or.inr (Or.inl h)) h'; unfold Spec.EndsAtNodes at this; omega),
      if_pos (t3.2 fun i e h h' => by have := he i e (Or.inr (Or.inr h)) h'; unfold Spec.EndsAtNodes at this; omega),
      if_pos (t4.2 fun i e h h' => by have := he i e (Or.inl h) h'; unfold Spec.EndsAtNodes at this; omega),
      if_pos (t5.2 fun i e h h' => by have := he i e (Or.inr (Or.inl h)) h'; unfold Spec.EndsAtNodes at this; omega),
      if_pos (t6.2 fun i e h h' => by have := he i e (Or.inr (Or.inr h)) h'; unfold Spec.EndsAtNodes at this; omega)]
    unfold assertThat
    rw [if_pos (beq_iff_eq.2 hc)]
  · intro hn
    split
    swap; · rfl
    rename_i c1
    split
    swap; · rfl
    rename_i c2
    split
    swap; · rfl
    rename_i c3
    split
    swap; · rfl
    rename_i d1
    split
    swap; · rfl
    rename_i d2
    split
    swap; · rfl
    rename_i d3
    split
    swap; · rfl
    rename_i d4
    split
    swap; · rfl
    rename_i d5
    split
    swap; · rfl
    rename_i d6
    unfold assertThat
    rw [if_neg]
    intro hc
    refine hn ⟨fun i => ⟨o1.1 c1 i, o2.1 c2 i, o3.1 c3 i⟩, ?_, beq_iff_eq.1 hc⟩
    rintro i e (h | h | h) he
    · have p := t1.1 d1 i e h he
      have q := t4.1 d4 i e h he
      exact ⟨q.1, by omega, q.2, by omega⟩
    · have p := t2.1 d2 i e h he
      have q := t5.1 d5 i e h he
      exact ⟨q.1, by omega, q.2, by omega⟩
    · have p := t3.1 d3 i e h he
      have q := t6.1 d6 i e h he
      exact ⟨q.1, by omega, q.2, by omega⟩

theorem checkEdgeIndex_index (b : MaskedBatch) (i : Nat) (hm : Spec.InMask b i) (hi : b.edges.length ≤ i) : checkEdgeIndex b = .error .index := by
  have key : ∀ mask : List Bool, (pickCols b.edges (nonzeroIdx mask) = .error .index) ∨ ∃ r, pickCols b.edges (nonzeroIdx mask) = .ok r := by
    intro mask
    by_cases h : ∃ j ∈ nonzeroIdx mask, b.edges.length ≤ j
    · exact Or.inl ((pickCols_spec _ _).1 h)
    · push Not at h
      obtain ⟨r, hr, _⟩ := (pickCols_spec b.edges (nonzeroIdx mask)).2 h
      exact Or.inr ⟨r, hr⟩
  unfold checkEdgeIndex
  rcases key b.train with h1 | ⟨r1, h1⟩
  · rw [h1]; rfl
  rcases key b.val with h2 | ⟨r2, h2⟩
  · rw [h1, h2]; rfl
  rcases key b.test with h3 | ⟨r3, h3⟩
  · rw [h1, h2, h3]; rfl
  exfalso
  rcases hm with hm | hm | hm
  · rw [(pickCols_spec _ _).1 ⟨i, (nonzeroIdx_mem _ i).2 hm, hi⟩] at h1; cases h1
  · rw [(pickCols_spec _ _).1 ⟨i, (nonzeroIdx_mem _ i).2 hm, hi⟩] at h2; cases h2
  · rw [(pickCols_spec _ _).1 ⟨i, (nonzeroIdx_mem _ i).2 hm, hi⟩] at h3; cases h3

/-- **C188, what check_edge_index accepts.** IndexError exactly if a masked node has a number for which there is no edge; otherwise it accepts exactly if no node is in two masks, the edges with
the numbers of masked nodes end in nodes, and there are as many edges as entries of masks; everything else is AssertionError. -/
theorem C188_edges (b : MaskedBatch) :
    (checkEdgeIndex b = .error .index ↔ ∃ i, Spec.InMask b i ∧ b.edges.length ≤ i) ∧
    (checkEdgeIndex b = .ok () ↔ (∀ i, Spec.InMask b i → i < b.edges.length) ∧ Spec.MasksApart b ∧ (∀ i e, Spec.InMask b i → b.edges[i]? = some e → Spec.EndsAtNodes b e) ∧
      b.edges.length = b.train.countP id + b.val.countP id + b.test.countP id) ∧
    (checkEdgeIndex b = .error .index ∨ checkEdgeIndex b = .ok () ∨ checkEdgeIndex b = .error .assertion) := by
  by_cases h : ∃ i, Spec.InMask b i ∧ b.edges.length ≤ i
  · obtain ⟨i, h1, h2⟩ := h
    have := checkEdgeIndex_index b i h1 h2
    refine ⟨⟨fun _ => ⟨i, h1, h2⟩, fun _ => this⟩, ⟨fun h => absurd (this.symm.trans h) (by simp), fun h => absurd (h.1 i h1) (by omega)⟩, Or.inl this⟩
  · push Not at h
    obtain ⟨p, q⟩ := checkEdgeIndex_cols b h
    by_cases hc : Spec.MasksApart b ∧ (∀ i e, Spec.InMask b i → b.edges[i]? = some e → Spec.EndsAtNodes b e) ∧ b.edges.length = b.train.countP id + b.val.countP id + b.test.countP id
    · have := p hc
      exact ⟨⟨fun h' => absurd (this.symm.trans h') (by simp), fun ⟨i, h1, h2⟩ => absurd (h i h1) (by omega)⟩, ⟨fun _ => ⟨h, hc⟩, fun _ => this⟩, Or.inr (Or.inl this)⟩
    · have := q hc
      exact ⟨⟨fun h' => absurd (this.symm.trans h') (by simp), fun ⟨i, h1, h2⟩ => absurd (h i h1) (by omega)⟩, ⟨fun h' => absurd (this.symm.trans h') (by simp), fun h' => absurd h'.2 hc⟩, Or.inr (Or.inr this)⟩

theorem count_three (n : Nat) (a c d : List Bool) (ha : a.length = n) (hc : c.length = n) (hd : d.length = n)
    (h : ∀ i : Nat, i < n → (a[i]? = some true ∨ c[i]? = some true ∨ d[i]? = some true) ∧ ¬ (a[i]? = some true ∧ c[i]? = some true) ∧ ¬ (a[i]? = some true ∧ d[i]? = some true) ∧ ¬ (c[i]? = some true ∧ d[i]? = some true)) :
    a.countP id + c.countP id + d.countP id = n := by
  induction n generalizing a c d with
  | zero => rw [List.length_eq_zero_iff.1 ha, List.length_eq_zero_iff.1 hc, List.length_eq_zero_iff.1 hd]; rfl
  | succ n ih =>
    cases a with | nil => cases ha | cons x a => ?_
    cases c with | nil => cases hc | cons y c => ?_
    cases d with | nil => cases hd | cons z d => ?_
    have := ih a c d (by simpa using ha) (by simpa using hc) (by simpa using hd) (fun i hi => h (i + 1) (by omega))
    have h0 := h 0 (by omega)
    simp only [List.getElem?_cons_zero, Option.some.injEq] at h0
    simp only [List.countP_cons, id]
    cases x <;> cases y <;> cases z <;> simp at h0 ⊢ <;> omega

/-- **C188, on a good batch (defect).** The masks divide the nodes and all edges end in nodes. Then the check accepts exactly if there are as many edges as nodes: with fewer it is IndexError,
with more AssertionError. -/
theorem C188_good_batch (b : MaskedBatch) (hs : Spec.ShapedBatch b) (hm : ∀ i, i < b.numNodes → Spec.InMask b i) (ha : Spec.MasksApart b) (he : ∀ e ∈ b.edges, Spec.EndsAtNodes b e) :
    (checkEdgeIndex b = .ok () ↔ b.edges.length = b.numNodes) ∧ (checkEdgeIndex b = .error .index ↔ b.edges.length < b.numNodes) ∧
    (checkEdgeIndex b = .error .assertion ↔ b.numNodes < b.edges.length) := by
  have hc := count_three b.numNodes b.train b.val b.test hs.train hs.val hs.test (fun i hi => ⟨hm i hi, ha i⟩)
  have hlt : ∀ i, Spec.InMask b i → i < b.numNodes := by
    rintro i (h | h | h)
    · exact hs.train ▸ (List.getElem?_eq_some_iff.1 h).1
    · exact hs.val ▸ (List.getElem?_eq_some_iff.1 h).1
    · exact hs.test ▸ (List.getElem?_eq_some_iff.1 h).1
  obtain ⟨p1, p2, p3⟩ := C188_edges b
  have q1 : checkEdgeIndex b = .ok () ↔ b.edges.length = b.numNodes := by
    rw [p2, hc]
    refine ⟨fun h => h.2.2.2, fun h => ⟨fun i hi => h ▸ hlt i hi, ha, fun i e _ hie => he e (List.mem_of_getElem? hie), h⟩⟩
  have q2 : checkEdgeIndex b = .error .index ↔ b.edges.length < b.numNodes := by
    rw [p1]
    refine ⟨fun ⟨i, h1, h2⟩ => lt_of_le_of_lt h2 (hlt i h1), fun h => ⟨b.edges.length, hm _ h, le_refl _⟩⟩
  refine ⟨q1, q2, ?_⟩
  rcases p3 with h | h | h
  · rw [h]; have := q2.1 h; exact ⟨fun h' => by simp at h', fun h' => by omega⟩
  · rw [h]; have := q1.1 h; exact ⟨fun h' => by simp at h', fun h' => by omega⟩
  · have n1 : ¬ b.edges.length = b.numNodes := fun e => by rw [q1.2 e] at h; cases h
    have n2 : ¬ b.edges.length < b.numNodes := fun e => by rw [q2.2 e] at h; cases h
    exact ⟨fun _ => by omega, fun _ => h⟩

theorem maskedRows_eq (n : Nat) (y l : List Int) (mask : List Bool) (hy : y.length = n) (hl : l.length = n) (hm : mask.length = n) :
    maskedRows y mask = maskedRows l mask ↔ ∀ i : Nat, mask[i]? = some true → y[i]? = l[i]? := by
  induction n generalizing y l mask with
  | zero => rw [List.length_eq_zero_iff.1 hy, List.length_eq_zero_iff.1 hl, List.length_eq_zero_iff.1 hm]; simp
  | succ n ih =>
    cases y with | nil => cases hy | cons a y => ?_
    cases l with | nil => cases hl | cons c l => ?_
    cases mask with | nil => cases hm | cons m mask => ?_
    have ih' := ih y l mask (by simpa using hy) (by simpa using hl) (by simpa using hm)
    have hsplit : (∀ i : Nat, (m :: mask)[i]? = some true → (a :: y)[i]? = (c :: l)[i]?) ↔ (m = true → a = c) ∧ ∀ i : Nat, mask[i]? = some true → y[i]? = l[i]? := by
      constructor
      · intro h
        exact ⟨fun hm => by simpa using h 0 (by simp [hm]), fun i hi => h (i + 1) hi⟩
      · rintro ⟨h1, h2⟩ i hi
        cases i with
        | zero => simpa using h1 (by simpa using hi)
        | succ i => exact h2 i hi
    rw [hsplit, ← ih']
    unfold maskedRows
    cases m <;> simp

/-- **C188, what check_masking accepts.** With one target and one label per node: exactly if targets and labels agree at every masked node; otherwise it is AssertionError. -/
theorem C188_masking (b : MaskedBatch) (hs : Spec.ShapedBatch b) :
    (checkMasking b = .ok () ↔ ∀ i, Spec.InMask b i → b.y[i]? = b.label[i]?) ∧ (checkMasking b = .ok () ∨ checkMasking b = .error .assertion) := by
  have a1 := maskedRows_eq b.numNodes b.y b.label b.train hs.y hs.label hs.train
  have a2 := maskedRows_eq b.numNodes b.y b.label b.val hs.y hs.label hs.val
  have a3 := maskedRows_eq b.numNodes b.y b.label b.test hs.y hs.label hs.test
  have hall : (∀ i, Spec.InMask b i → b.y[i]? = b.label[i]?) ↔ maskedRows b.y b.train = maskedRows b.label b.train ∧ maskedRows b.y b.val = maskedRows b.label b.val ∧
      maskedRows b.y b.test = maskedRows b.label b.test := by
    rw [a1, a2, a3]
    exact ⟨fun h => ⟨fun i hi => h i (Or.inl hi), fun i hi => h i (Or.inr (Or.inl hi)), fun i hi => h i (Or.inr (Or.inr hi))⟩,
      fun ⟨h1, h2, h3⟩ i hi => hi.elim (h1 i) (fun hi => hi.elim (h2 i) (h3 i))⟩
  rw [hall]
  unfold checkMasking
  rw [assertThat_bind, assertThat_bind]
  unfold assertThat
  by_cases h1 : maskedRows b.y b.train = maskedRows b.label b.train <;> by_cases h2 : maskedRows b.y b.val = maskedRows b.label b.val <;>
    by_cases h3 : maskedRows b.y b.test = maskedRows b.label b.test <;> simp [h1, h2, h3]

/-- Three nodes, one per mask, in a circle with three edges: accepted; with two or four edges not. -/
def exCircle (edges : List (Int × Int)) : MaskedBatch := ⟨3, edges, [true, false, false], [false, true, false], [false, false, true], [1, 2, 3], [1, 2, 3]⟩

example : checkEdgeIndex (exCircle [(0, 1), (1, 2), (2, 0)]) = .ok () ∧ checkEdgeIndex (exCircle [(0, 1), (1, 2)]) = .error .index ∧
    checkEdgeIndex (exCircle [(0, 1), (1, 2), (2, 0), (0, 2)]) = .error .assertion ∧ checkMasking (exCircle []) = .ok () := by decide +kernel

/-- The hypotheses of `C188_good_batch` are met. -/
example : Spec.ShapedBatch (exCircle [(0, 1), (1, 2)]) ∧ (∀ i, i < 3 → Spec.InMask (exCircle [(0, 1), (1, 2)]) i) ∧ Spec.MasksApart (exCircle [(0, 1), (1, 2)]) ∧
    ∀ e ∈ (exCircle [(0, 1), (1, 2)]).edges, Spec.EndsAtNodes (exCircle [(0, 1), (1, 2)]) e := by
  refine ⟨⟨rfl, rfl, rfl, rfl, rfl⟩, ?_, ?_, ?_⟩
  · intro i hi
    unfold Spec.InMask exCircle
    interval_cases i <;> decide
  · intro i
    unfold exCircle
    rcases i with _ | _ | _ | i <;> simp
  · unfold Spec.EndsAtNodes exCircle; decide

end NGC
