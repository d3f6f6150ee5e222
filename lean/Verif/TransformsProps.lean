import Verif.Transforms
import Mathlib.Data.List.Nodup
import Mathlib.Data.List.Range
import Mathlib.Algebra.BigOperators.Group.List.Basic

/-!
Node removal (C67), edge removal (C76), degree feature (C109).
-/

namespace NGC

/-! ### Selecting -/

theorem selMask_map {α : Type} (p : α → Bool) (l : List α) :
    selMask (l.map p) l = .ok (l.filter p) := by
  unfold selMask
  rw [if_pos (by simp)]
  congr 1
  induction l with
  | nil => rfl
  | cons a l ih =>
    rw [List.map_cons, List.zip_cons_cons, List.filter_cons, List.filter_cons]
    by_cases h : p a = true <;> simp [h, ih]

theorem selMask_ok {α : Type} (m : List Bool) (l : List α) (h : m.length = l.length) :
    selMask m l = .ok (((m.zip l).filter (·.1)).map (·.2)) := by
  unfold selMask; rw [if_pos h]

theorem selMask_error {α : Type} (m : List Bool) (l : List α) (h : m.length ≠ l.length) :
    selMask m l = .error .index := by
  unfold selMask; rw [if_neg h]

theorem edgeMask_ok (n : Nat) (p : Nat → Bool) (es : List (Nat × Nat))
    (h : ∀ e ∈ es, e.1 < n ∧ e.2 < n) :
    edgeMask ((List.range n).map p) es = .ok (es.map (fun e => p e.1 && p e.2)) := by
  induction es with
  | nil => rfl
  | cons e es ih =>
    have he := h e List.mem_cons_self
    rw [edgeMask]
    have g : ∀ i, i < n → ((List.range n).map p)[i]? = some (p i) := by
      intro i hi; simp [hi]
    rw [g _ he.1, g _ he.2]
    simp only [ih (fun x hx => h x (List.mem_cons_of_mem _ hx)), bind, Except.bind, List.map_cons]

theorem edgeMask_error (n : Nat) (p : Nat → Bool) (es : List (Nat × Nat))
    (h : ∃ e ∈ es, n ≤ e.1 ∨ n ≤ e.2) :
    edgeMask ((List.range n).map p) es = .error .index := by
  induction es with
  | nil => obtain ⟨e, he, _⟩ := h; simp at he
  | cons e es ih =>
    rw [edgeMask]
    by_cases he : e.1 < n ∧ e.2 < n
    · have g : ∀ i, i < n → ((List.range n).map p)[i]? = some (p i) := by
        intro i hi; simp [hi]
      rw [g _ he.1, g _ he.2]
      obtain ⟨e', he', hb⟩ := h
      rcases List.mem_cons.1 he' with rfl | hm
      · omega
      · simp only [ih ⟨e', hm, hb⟩, bind, Except.bind]
    · by_cases h1 : e.1 < n
      · have h2 : ¬ e.2 < n := fun x => he ⟨h1, x⟩
        have : ((List.range n).map p)[e.2]? = none := by
          rw [List.getElem?_eq_none]; simp; omega
        rw [this]
        cases ((List.range n).map p)[e.1]? <;> rfl
      · have : ((List.range n).map p)[e.1]? = none := by
          rw [List.getElem?_eq_none]; simp; omega
        rw [this]

/-- The rows of the nodes that satisfy `p`, in node order. -/
theorem selMask_rows {α : Type} (l : List α) (p : Nat → Bool) :
    selMask ((List.range l.length).map p) l =
      .ok (((List.range l.length).filter p).filterMap (fun i => l[i]?)) := by
  rw [selMask_ok _ _ (by simp)]
  congr 1
  have gen : ∀ (l : List α) (p : Nat → Bool) (q : Nat → Option α),
      (∀ i, i < l.length → q i = l[i]?) →
      List.map (·.2) (List.filter (·.1) (List.zip ((List.range l.length).map p) l)) =
        ((List.range l.length).filter p).filterMap q := by
    intro l
    induction l with
    | nil => intro p q _; rfl
    | cons a l ih =>
      intro p q hq
      rw [List.length_cons, List.range_succ_eq_map, List.map_cons, List.zip_cons_cons,
        List.filter_cons, List.filter_cons, List.map_map]
      have q0 := hq 0 (by simp)
      have := ih (p ∘ Nat.succ) (q ∘ Nat.succ) (by
        intro i hi
        have := hq (i + 1) (by simp; omega)
        simpa using this)
      rw [List.filter_map]
      by_cases h0 : p 0 = true
      · simp only [h0, if_true, List.map_cons, List.filterMap_cons, q0, List.getElem?_cons_zero]
        rw [List.filterMap_map, this]
      · simp only [h0]
        rw [if_neg (by simp), if_neg (by simp), List.filterMap_map, this]
  exact gen l p _ (fun i _ => rfl)

/-- Position of a kept node in the list of kept nodes. -/
theorem kept_pos (n v : Nat) (p : Nat → Bool) (hv : v < n) (hp : p v = true) :
    ((List.range n).filter p)[v]? = some v ↔ ∀ u < v, p u = true := by
  have split : List.range n = List.range v ++ v :: (List.range (n - v - 1)).map (fun i => v + 1 + i) := by
    have e : n = v + (1 + (n - v - 1)) := by omega
    conv_lhs => rw [e]
    rw [List.range_add, List.range_add]
    simp [Function.comp_def, Nat.add_assoc]
  have hl : ((List.range v).filter p).length ≤ v := by
    have := List.length_filter_le p (List.range v)
    simpa using this
  constructor
  · intro h
    by_contra hn
    push Not at hn
    obtain ⟨u, hu, hpu⟩ := hn
    have hlt : ((List.range v).filter p).length < v := by
      rcases Nat.lt_or_ge ((List.range v).filter p).length v with h | h
      · exact h
      · have he : ((List.range v).filter p).length = (List.range v).length := by
          rw [List.length_range]; omega
        rw [List.length_filter_eq_length_iff] at he
        exact absurd (he u (List.mem_range.2 hu)) hpu
    -- v occurs at an earlier position too
    have nd : ((List.range n).filter p).Nodup := List.nodup_range.filter _
    have h2 : ((List.range n).filter p)[((List.range v).filter p).length]? = some v := by
      rw [split, List.filter_append, List.filter_cons, if_pos hp,
        List.getElem?_append_right (le_refl _)]
      simp
    obtain ⟨b1, e1⟩ := List.getElem?_eq_some_iff.1 h
    obtain ⟨b2, e2⟩ := List.getElem?_eq_some_iff.1 h2
    have := (List.Nodup.getElem_inj_iff nd).1 (e1.trans e2.symm)
    omega
  · intro h
    have he : ((List.range v).filter p) = List.range v := by
      rw [List.filter_eq_self]
      intro u hu
      exact h u (List.mem_range.1 hu)
    rw [split, List.filter_append, he, List.getElem?_append_right (by simp)]
    simp [List.filter_cons, hp]

/-! ### remove_nodes_and_edges -/

section
variable {F Y A : Type}

/-- Every edge endpoint is a node. -/
def GData.Valid (d : GData F Y A) : Prop := ∀ e ∈ d.edges, e.1 < d.x.length ∧ e.2 < d.x.length

/-- C67. On a valid graph, whatever nodes are chosen, `remove_nodes_and_edges` succeeds; the rows of
the other nodes remain, in order, and exactly the edges with both ends among them, in order. Labels,
masks and edge attributes are left as they were. -/
theorem C67_remove (d : GData F Y A) (hv : d.Valid) (choice : List Nat) :
    removeNodesEdges d choice = .ok { d with
      x := ((List.range d.x.length).filter (fun j => decide (j ∉ choice))).filterMap (fun i => d.x[i]?)
      edges := d.edges.filter (fun e => decide (e.1 ∉ choice) && decide (e.2 ∉ choice)) } := by
  unfold removeNodesEdges keepMask
  simp only
  rw [selMask_rows]
  simp only [bind, Except.bind]
  rw [edgeMask_ok _ (fun j => decide (j ∉ choice)) _ hv]
  simp only
  rw [selMask_map]

/-- C67. On a graph with a dangling edge it raises IndexError. -/
theorem C67_remove_invalid (d : GData F Y A) (hv : ¬ d.Valid) (choice : List Nat) :
    removeNodesEdges d choice = .error .index := by
  unfold removeNodesEdges keepMask
  simp only
  rw [selMask_rows]
  simp only [bind, Except.bind]
  unfold GData.Valid at hv
  push Not at hv
  obtain ⟨e, he, hb⟩ := hv
  rw [edgeMask_error _ _ _ ⟨e, he, by
    by_cases h1 : e.1 < d.x.length
    · exact Or.inr (by have := hb h1; omega)
    · exact Or.inl (by omega)⟩]

/-- Rows kept at position `v` are those of node `v` exactly when nothing before `v` was removed. -/
theorem rows_fixed (x : List F) (hx : x.Nodup) (p : Nat → Bool) (v : Nat) (hv : v < x.length)
    (hp : p v = true) :
    (((List.range x.length).filter p).filterMap (fun i => x[i]?))[v]? = x[v]? ↔
      ∀ u < v, p u = true := by
  have hm : ((List.range x.length).filter p).filterMap (fun i => x[i]?) =
      ((List.range x.length).filter p).pmap (fun i hi => x[i]'hi)
        (by intro i hi; simpa using (List.mem_filter.1 hi).1) := by
    have gen : ∀ (l : List Nat) (H : ∀ i ∈ l, i < x.length),
        l.filterMap (fun i => x[i]?) = l.pmap (fun i hi => x[i]'hi) H := by
      intro l
      induction l with
      | nil => intro _; rfl
      | cons a l ih =>
        intro H
        have ha := H a List.mem_cons_self
        rw [List.filterMap_cons, List.pmap_cons, List.getElem?_eq_getElem ha]
        simp only
        rw [ih (fun i hi => H i (List.mem_cons_of_mem _ hi))]
    exact gen _ _
  rw [hm, ← kept_pos x.length v p hv hp, List.getElem?_pmap, List.getElem?_eq_getElem hv]
  constructor
  · intro h
    rw [Option.pmap_eq_some_iff] at h
    obtain ⟨i, hi, e1, e2⟩ := h
    have : v = i := (List.Nodup.getElem_inj_iff hx).1 e2
    subst this
    exact e1
  · intro h
    rw [Option.pmap_eq_some_iff]
    exact ⟨v, hv, h, rfl⟩

/-- C67 (refutation of "all remaining edge endpoints index remaining nodes"). Edges are not
renumbered: after the removal, the number of a surviving node still finds that node's row exactly when
no removed node comes before it. -/
theorem C67_not_renumbered (d : GData F Y A) (hx : d.x.Nodup) (hv : d.Valid) (choice : List Nat)
    (d' : GData F Y A) (h : removeNodesEdges d choice = .ok d') (v : Nat) (hn : v < d.x.length)
    (hc : v ∉ choice) : d'.x[v]? = d.x[v]? ↔ ∀ u < v, u ∉ choice := by
  rw [C67_remove d hv] at h
  cases h
  simp only
  rw [rows_fixed d.x hx (fun j => decide (j ∉ choice)) v hn (by simpa using hc)]
  simp

/-- C67. How many rows remain: all but the different chosen nodes. -/
theorem C67_remaining (d : GData F Y A) (hv : d.Valid) (choice : List Nat) (hnd : choice.Nodup)
    (hr : ∀ c ∈ choice, c < d.x.length) (d' : GData F Y A)
    (h : removeNodesEdges d choice = .ok d') :
    d'.x.length + choice.length = d.x.length := by
  rw [C67_remove d hv] at h
  cases h
  simp only
  have e1 : ∀ (l : List Nat), (∀ i ∈ l, i < d.x.length) →
      (l.filterMap (fun i => d.x[i]?)).length = l.length := by
    intro l
    induction l with
    | nil => intro _; rfl
    | cons a l ih =>
      intro H
      rw [List.filterMap_cons, List.getElem?_eq_getElem (H a List.mem_cons_self)]
      simp only [List.length_cons]
      rw [ih (fun i hi => H i (List.mem_cons_of_mem _ hi))]
  rw [e1 _ (by intro i hi; simpa using (List.mem_filter.1 hi).1)]
  have e2 : (List.filter (fun j => decide (j ∈ choice)) (List.range d.x.length)).length =
      choice.length := by
    apply List.Perm.length_eq
    rw [List.perm_ext_iff_of_nodup (List.nodup_range.filter _) hnd]
    intro a
    simp only [List.mem_filter, List.mem_range, decide_eq_true_eq]
    exact ⟨fun h => h.2, fun h => ⟨hr a h, h⟩⟩
  have e3 := List.length_eq_length_filter_add (l := List.range d.x.length)
    (fun j => decide (j ∈ choice))
  rw [List.length_range] at e3
  have e4 : List.filter (fun j => decide (j ∉ choice)) (List.range d.x.length) =
      List.filter (fun x => !decide (x ∈ choice)) (List.range d.x.length) := by
    apply List.filter_congr; intro a _; simp
  rw [e4]
  omega

/-- A path 0-1-2 from which node 0 is removed: two nodes remain, but the remaining edge 1-2 refers to
a third one. -/
example : removeNodesEdges (⟨[10, 11, 12], ["a", "b", "c"], [(0, 1), (1, 2)], none, [], [], []⟩ :
      GData Nat String Nat) [0] =
    .ok ⟨[11, 12], ["a", "b", "c"], [(1, 2)], none, [], [], []⟩ := by
  rfl

/-! ### RandomNodeDrop -/

theorem selIdx_ok {α : Type} (l : List α) (is : List Nat) (h : ∀ i ∈ is, i < l.length) :
    selIdx l is = .ok (is.filterMap (fun i => l[i]?)) := by
  induction is with
  | nil => rfl
  | cons i is ih =>
    rw [selIdx, List.filterMap_cons, List.getElem?_eq_getElem (h i List.mem_cons_self)]
    simp only [ih (fun x hx => h x (List.mem_cons_of_mem _ hx)), bind, Except.bind]

theorem mem_remainIdx (n : Nat) (p : ℚ) (perm : List Nat) (j : Nat) :
    j ∈ remainIdx n p perm ↔ j < n ∧ j ∉ perm.take (pyInt (p * n)).toNat := by
  simp [remainIdx]

/-- C67. `RandomNodeDrop` on a valid graph with one attribute per edge: node features, labels and the
three masks all keep the same nodes, in order; edges and edge attributes keep, aligned and in order,
those with both ends kept. -/
theorem C67_node_drop (p : ℚ) (perm : List Nat) (d : GData F Y A) (attr : List A) (hv : d.Valid)
    (ha : attr.length = d.edges.length)
    (hy : d.y.length = d.x.length) (ht : d.train.length = d.x.length)
    (hva : d.val.length = d.x.length) (hte : d.test.length = d.x.length) :
    let kept := remainIdx d.x.length p perm
    let both := (d.edges.zip attr).filter (fun ea => decide (ea.1.1 ∈ kept) && decide (ea.1.2 ∈ kept))
    nodeDrop p perm d attr = .ok
      ⟨kept.filterMap (d.x[·]?), kept.filterMap (d.y[·]?), both.map (·.1), some (both.map (·.2)),
       kept.filterMap (d.train[·]?), kept.filterMap (d.val[·]?), kept.filterMap (d.test[·]?)⟩ := by
  intro kept both
  have hk : ∀ i ∈ kept, i < d.x.length := fun i hi => ((mem_remainIdx _ _ _ i).1 hi).1
  unfold nodeDrop filterAdj
  simp only
  rw [edgeMask_ok _ (fun j => decide (j ∈ kept)) _ hv]
  simp only [bind, Except.bind]
  rw [selMask_map]
  simp only
  have hz : ∀ (es : List (Nat × Nat)) (as : List A), as.length = es.length →
      selMask (es.map (fun e => decide (e.1 ∈ kept) && decide (e.2 ∈ kept))) as =
        .ok (((es.zip as).filter (fun ea => decide (ea.1.1 ∈ kept) && decide (ea.1.2 ∈ kept))).map
          (·.2)) ∧
      es.filter (fun e => decide (e.1 ∈ kept) && decide (e.2 ∈ kept)) =
        ((es.zip as).filter (fun ea => decide (ea.1.1 ∈ kept) && decide (ea.1.2 ∈ kept))).map
          (·.1) := by
    intro es as hl
    rw [selMask_ok _ _ (by simp [hl])]
    induction es generalizing as with
    | nil => simp
    | cons e es ih =>
      cases as with
      | nil => simp at hl
      | cons a as =>
        have hi := ih as (by simpa using hl)
        simp only [Except.ok.injEq] at hi ⊢
        rw [List.map_cons, List.zip_cons_cons, List.zip_cons_cons, List.filter_cons,
          List.filter_cons, List.filter_cons]
        by_cases hc : (decide (e.1 ∈ kept) && decide (e.2 ∈ kept)) = true
        · simp only [hc, if_true, List.map_cons]
          exact ⟨by rw [hi.1], by rw [hi.2]⟩
        · simp only [hc]
          exact ⟨hi.1, hi.2⟩
  rw [(hz d.edges attr ha).1, (hz d.edges attr ha).2]
  simp only
  rw [selIdx_ok d.x _ hk, selIdx_ok d.y _ (by rw [hy]; exact hk),
    selIdx_ok d.train _ (by rw [ht]; exact hk), selIdx_ok d.val _ (by rw [hva]; exact hk),
    selIdx_ok d.test _ (by rw [hte]; exact hk)]

/-- C67. `RandomNodeDrop` drops exactly `int(p·n)` nodes, whatever permutation is drawn. -/
theorem C67_drop_count (n : Nat) (p : ℚ) (h0 : 0 ≤ p) (h1 : p ≤ 1) (perm : List Nat)
    (hp : perm.Perm (List.range n)) :
    ((remainIdx n p perm).length : Int) = n - ⌊p * n⌋ := by
  have hn : (0 : ℚ) ≤ n := Nat.cast_nonneg n
  have q0 : 0 ≤ p * n := mul_nonneg h0 hn
  have q1 : (0 : ℤ) ≤ ⌊p * n⌋ := Int.floor_nonneg.2 q0
  have q2 : ⌊p * n⌋ ≤ (n : ℤ) := by
    have h2 : ((⌊p * n⌋ : ℤ) : ℚ) ≤ ((n : ℤ) : ℚ) := by
      have := Int.floor_le (p * (n : ℚ))
      push_cast
      nlinarith
    exact Int.cast_le.1 h2
  have hint : pyInt (p * n) = ⌊p * n⌋ := by unfold pyInt; rw [if_pos q0]
  unfold remainIdx
  rw [hint]
  generalize hk : (⌊p * n⌋).toNat = k
  have nd : perm.Nodup := hp.nodup_iff.2 List.nodup_range
  have len : perm.length = n := by rw [hp.length_eq, List.length_range]
  have e2 : (List.filter (fun j => decide (j ∈ perm.take k)) (List.range n)).length = k := by
    have : (List.filter (fun j => decide (j ∈ perm.take k)) (List.range n)).length =
        (perm.take k).length := by
      apply List.Perm.length_eq
      rw [List.perm_ext_iff_of_nodup (List.nodup_range.filter _) (nd.sublist (List.take_sublist _ _))]
      intro a
      simp only [List.mem_filter, List.mem_range, decide_eq_true_eq]
      exact ⟨fun h => h.2, fun h => ⟨by
        have := hp.mem_iff.1 (List.mem_of_mem_take h)
        simpa using this, h⟩⟩
    rw [this, List.length_take]
    omega
  have e3 := List.length_eq_length_filter_add (l := List.range n) (fun j => decide (j ∈ perm.take k))
  rw [List.length_range] at e3
  have e4 : List.filter (fun j => decide (j ∉ perm.take k)) (List.range n) =
      List.filter (fun x => !decide (x ∈ perm.take k)) (List.range n) := by
    apply List.filter_congr; intro a _; simp
  rw [e4]
  omega

/-- C67 (defect). Without edge attributes, `RandomNodeDrop` stores the sources of the kept edges as
`edge_index` and their targets as `edge_attr`. -/
theorem C67_node_drop_no_attr (n : Nat) (keep : List Nat) (edges : List (Nat × Nat))
    (hv : ∀ e ∈ edges, e.1 < n ∧ e.2 < n) :
    nodeDropNoAttr n keep edges = .ok
      ((edges.filter (fun e => decide (e.1 ∈ keep) && decide (e.2 ∈ keep))).map (·.1),
       (edges.filter (fun e => decide (e.1 ∈ keep) && decide (e.2 ∈ keep))).map (·.2)) := by
  unfold nodeDropNoAttr
  simp only
  rw [edgeMask_ok _ (fun j => decide (j ∈ keep)) _ hv]
  simp only [bind, Except.bind]
  rw [selMask_map]

/-- Four nodes, half of them dropped. -/
example : nodeDrop (1/2) [2, 0, 3, 1]
    (⟨[10, 11, 12, 13], [0, 1, 2, 3], [(0, 1), (1, 3), (3, 1)], none,
      [true, true, false, false], [false, false, true, false], [false, false, false, true]⟩ :
      GData Nat Nat Nat) [7, 8, 9] =
    .ok ⟨[11, 13], [1, 3], [(1, 3), (3, 1)], some [8, 9], [true, false], [false, false],
      [false, true]⟩ := by
  decide +kernel

/-! ### RandomEdgeDrop -/

/-- C76. With one attribute per edge, whatever mask is drawn (of the right length), `RandomEdgeDrop`
keeps edges and attributes aligned: the pairs (edge, attribute) that remain are the unmasked ones, in
order; everything else about the nodes is unchanged. -/
theorem C76_edge_drop (mask : List Bool) (d : GData F Y A) (attr : List A)
    (hm : mask.length = d.edges.length) (hd : d.attr = some attr)
    (ha : attr.length = d.edges.length) :
    ∃ d', edgeDrop mask d none = .ok (d', none) ∧
      (∃ attr', d'.attr = some attr' ∧ attr'.length = d'.edges.length ∧
        d'.edges.zip attr' = ((mask.zip (d.edges.zip attr)).filter (·.1)).map (·.2) ∧
        (d'.edges.zip attr').Sublist (d.edges.zip attr)) ∧
      d'.x = d.x ∧ d'.y = d.y ∧ d'.train = d.train ∧ d'.val = d.val ∧ d'.test = d.test := by
  have hma : mask.length = attr.length := by omega
  refine ⟨{ d with edges := ((mask.zip d.edges).filter (·.1)).map (·.2)
                   attr := some (((mask.zip attr).filter (·.1)).map (·.2)) }, ?_, ⟨_, rfl, ?_, ?_, ?_⟩,
    rfl, rfl, rfl, rfl, rfl⟩
  · unfold edgeDrop
    rw [selMask_ok _ _ hm, hd]
    simp only [selMask_ok _ _ hma, bind, Except.bind, Except.map]
  · simp only
    have : ∀ (m : List Bool) (a : List A) (e : List (Nat × Nat)), m.length = a.length →
        a.length = e.length →
        ((m.zip a).filter (·.1)).length = ((m.zip e).filter (·.1)).length := by
      intro m
      induction m with
      | nil => intro a e _ _; rfl
      | cons b m ih =>
        intro a e h1 h2
        cases a with
        | nil => simp at h1
        | cons a as =>
          cases e with
          | nil => simp at h2
          | cons e es =>
            have := ih as es (by simpa using h1) (by simpa using h2)
            simp only [List.zip_cons_cons, List.filter_cons]
            cases b <;> simp [this]
    rw [List.length_map, List.length_map]
    exact this mask attr d.edges hma ha
  all_goals
    have key : ∀ (m : List Bool) (a : List A) (e : List (Nat × Nat)), m.length = a.length →
        a.length = e.length →
        (((m.zip e).filter (·.1)).map (·.2)).zip (((m.zip a).filter (·.1)).map (·.2)) =
          ((m.zip (e.zip a)).filter (·.1)).map (·.2) := by
      intro m
      induction m with
      | nil => intro a e _ _; rfl
      | cons b m ih =>
        intro a e h1 h2
        cases a with
        | nil => simp at h1
        | cons a as =>
          cases e with
          | nil => simp at h2
          | cons e es =>
            have := ih as es (by simpa using h1) (by simpa using h2)
            simp only [List.zip_cons_cons, List.filter_cons]
            cases b <;> simp [this]
  · exact key mask attr d.edges hma ha
  · simp only
    rw [key mask attr d.edges hma ha]
    have sub : ∀ (m : List Bool) (l : List ((Nat × Nat) × A)),
        (((m.zip l).filter (·.1)).map (·.2)).Sublist l := by
      intro m
      induction m with
      | nil => intro l; simp
      | cons b m ih =>
        intro l
        cases l with
        | nil => simp
        | cons a l =>
          rw [List.zip_cons_cons, List.filter_cons]
          cases b
          · simp only [Bool.false_eq_true, if_false]
            exact (ih l).cons _
          · simp only [if_true, List.map_cons]
            exact (ih l).cons_cons _
    exact sub _ _

/-- C76. Label edges are cut with the mask of the graph's edges: when there is a different number of
them, the transform raises IndexError. -/
theorem C76_label_edges (mask : List Bool) (d : GData F Y A) (attr : List A)
    (pos neg : List (Nat × Nat)) (hm : mask.length = d.edges.length) (hd : d.attr = some attr)
    (ha : attr.length = d.edges.length)
    (hn : pos.length ≠ d.edges.length ∨ neg.length ≠ d.edges.length) :
    edgeDrop mask d (some (pos, neg)) = .error .index := by
  have hma : mask.length = attr.length := by omega
  unfold edgeDrop
  rw [selMask_ok _ _ hm, hd]
  simp only [selMask_ok _ _ hma, bind, Except.bind, Except.map]
  by_cases h1 : pos.length = d.edges.length
  · have h2 : neg.length ≠ d.edges.length := by
      rcases hn with h | h
      · exact absurd h1 h
      · exact h
    rw [selMask_ok _ _ (by omega), selMask_error mask neg (by omega)]
  · rw [selMask_error mask pos (by omega)]

example : edgeDrop [true, false, true] (⟨[1, 2], [0, 0], [(0, 1), (1, 0), (1, 1)], some [5, 6, 7],
      [], [], []⟩ : GData Nat Nat Nat) none =
    .ok (⟨[1, 2], [0, 0], [(0, 1), (1, 1)], some [5, 7], [], [], []⟩, none) := by rfl

end

/-! ### AddDegreeTransform -/

/-- C109. On a graph whose sources are nodes, every feature row keeps its entries and gets one more: the
number of edges that start at its node. -/
theorem C109_degree (x : List (List ℚ)) (edges : List (Nat × Nat)) (h : ∀ e ∈ edges, e.1 < x.length) :
    ∃ x', addDegree x edges = .ok x' ∧ x'.length = x.length ∧
      ∀ i row, x[i]? = some row →
        x'[i]? = some (row ++ [((edges.countP (fun e => decide (e.1 = i)) : Nat) : ℚ)]) := by
  have hc : edges.all (fun e => decide (e.1 < x.length)) = true := by
    rw [List.all_eq_true]; intro e he; simpa using h e he
  unfold addDegree outDegree
  rw [if_pos hc]
  refine ⟨_, rfl, by simp, ?_⟩
  intro i row hi
  have hlt : i < x.length := (List.getElem?_eq_some_iff.1 hi).1
  rw [List.getElem?_zipWith, hi]
  simp [hlt]

/-- C109. A source that is not a node raises IndexError. -/
theorem C109_degree_error (x : List (List ℚ)) (edges : List (Nat × Nat))
    (h : ∃ e ∈ edges, x.length ≤ e.1) : addDegree x edges = .error .index := by
  obtain ⟨e, he, hn⟩ := h
  have hc : ¬ edges.all (fun e => decide (e.1 < x.length)) = true := by
    rw [List.all_eq_true]; intro hx; have := hx e he; simp at this; omega
  unfold addDegree outDegree
  rw [if_neg hc]
  rfl

/-- C109. The added column sums to the number of edges. -/
theorem C109_degree_sum (n : Nat) (edges : List (Nat × Nat)) (h : ∀ e ∈ edges, e.1 < n) :
    ∃ deg, outDegree n edges = .ok deg ∧ deg.sum = edges.length := by
  have hc : edges.all (fun e => decide (e.1 < n)) = true := by
    rw [List.all_eq_true]; intro e he; simpa using h e he
  unfold outDegree
  rw [if_pos hc]
  refine ⟨_, rfl, ?_⟩
  have one : ∀ (n k : Nat), k < n →
      ((List.range n).map (fun j => if k = j then 1 else 0)).sum = 1 := by
    intro n
    induction n with
    | zero => intro k hk; omega
    | succ n ih =>
      intro k hk
      rw [List.range_succ, List.map_append, List.sum_append]
      by_cases hkn : k = n
      · subst hkn
        have : (List.range k).map (fun j => if k = j then 1 else 0) = (List.range k).map (fun _ => 0) := by
          apply List.map_congr_left
          intro j hj
          rw [List.mem_range] at hj
          rw [if_neg (by omega)]
        rw [this]
        simp
      · rw [ih k (by omega)]
        simp [hkn]
  induction edges with
  | nil => simp
  | cons e es ih =>
    have ihe := ih (fun x hx => h x (List.mem_cons_of_mem _ hx)) (by
      rw [List.all_eq_true]; intro x hx; simpa using h x (List.mem_cons_of_mem _ hx))
    have : (List.range n).map (fun j => List.countP (fun e => decide (e.1 = j)) (e :: es)) =
        (List.range n).map (fun j => List.countP (fun e => decide (e.1 = j)) es +
          if e.1 = j then 1 else 0) := by
      apply List.map_congr_left
      intro j _
      rw [List.countP_cons]
      simp
    rw [this, List.sum_map_add, ihe, one n e.1 (h e List.mem_cons_self), List.length_cons]

example : addDegree [[1], [2]] [(0, 1), (0, 0)] = .ok [[1, 2], [2, 0]] := by decide +kernel

/-- C67, how many nodes are asked for: with a ratio in [0, 1] the number is between 0 and `n`, as `choice`
without replacement demands, and misses the exact share by less than one; a ratio of at least `(n+1)/n` asks
for more nodes than there are, and a negative one of at most `-1/n` for a negative number. -/
theorem C67_remove_count (n : Nat) (ratio : ℚ) :
    (0 ≤ ratio → (removeCount n ratio : ℚ) ≤ n * ratio ∧ n * ratio < removeCount n ratio + 1) ∧
    (0 ≤ ratio → ratio ≤ 1 → 0 ≤ removeCount n ratio ∧ removeCount n ratio ≤ n) ∧
    ((n : ℚ) + 1 ≤ n * ratio → (n : Int) < removeCount n ratio) ∧
    (n * ratio ≤ -1 → removeCount n ratio < 0) := by
  have hn : (0 : ℚ) ≤ n := by positivity
  unfold removeCount pyInt
  refine ⟨?_, ?_, ?_, ?_⟩
  · intro h
    rw [if_pos (by positivity)]
    exact ⟨Int.floor_le _, Int.lt_floor_add_one _⟩
  · intro h h1
    rw [if_pos (by positivity)]
    refine ⟨Int.floor_nonneg.2 (by positivity), ?_⟩
    have : (⌊(n : ℚ) * ratio⌋ : ℚ) ≤ n := le_trans (Int.floor_le _) (by nlinarith)
    exact_mod_cast this
  · intro h
    rw [if_pos (by linarith)]
    have : ((n : Int) + 1) ≤ ⌊(n : ℚ) * ratio⌋ := Int.le_floor.2 (by push_cast; exact h)
    omega
  · intro h
    rw [if_neg (by linarith)]
    have : ⌈(n : ℚ) * ratio⌉ ≤ -1 := Int.ceil_le.2 (by push_cast; exact h)
    omega

example : removeCount 10 (1/4) = 2 ∧ removeCount 10 (11/10) = 11 := by decide +kernel

theorem selIdx_short {α : Type} (l : List α) (is : List Nat) (h : ∃ i ∈ is, l.length ≤ i) :
    selIdx l is = .error .index := by
  induction is with
  | nil => obtain ⟨i, hi, _⟩ := h; simp at hi
  | cons i is ih =>
    rw [selIdx]
    by_cases hi : l.length ≤ i
    · rw [List.getElem?_eq_none hi]
    · rw [List.getElem?_eq_getElem (by omega)]
      have : ∃ i ∈ is, l.length ≤ i := by
        obtain ⟨j, hj, hl⟩ := h
        rcases List.mem_cons.1 hj with rfl | hj
        · omega
        · exact ⟨j, hj, hl⟩
      simp only [ih this, bind, Except.bind]

/-- C67. `RandomNodeDrop` on a valid graph with attributes but with too few labels: as soon as a node without a label
is kept, it raises IndexError. -/
theorem C67_node_drop_labels (p : ℚ) (perm : List Nat) (d : GData F Y A) (attr : List A) (hv : d.Valid)
    (ha : attr.length = d.edges.length)
    (h : ∃ i, d.y.length ≤ i ∧ i < d.x.length ∧ i ∉ perm.take (pyInt (p * d.x.length)).toNat) :
    nodeDrop p perm d attr = .error .index := by
  have hk : ∀ i ∈ remainIdx d.x.length p perm, i < d.x.length := fun i hi => ((mem_remainIdx _ _ _ i).1 hi).1
  unfold nodeDrop filterAdj
  simp only
  rw [edgeMask_ok _ (fun j => decide (j ∈ remainIdx d.x.length p perm)) _ hv]
  simp only [bind, Except.bind]
  rw [selMask_map]
  simp only
  rw [selMask_ok _ _ (by simp [ha])]
  simp only
  rw [selIdx_ok d.x _ hk, selIdx_short d.y]
  obtain ⟨i, h1, h2, h3⟩ := h
  exact ⟨i, (mem_remainIdx _ _ _ i).2 ⟨h2, h3⟩, h1⟩

example : nodeDrop (1/2) [0, 1] (⟨[10, 11], ["a"], [(0, 1)], none, [], [], []⟩ : GData Nat String Nat) [7] = .error .index := by
  refine C67_node_drop_labels _ _ _ _ ?_ rfl ⟨1, by simp, by simp, ?_⟩
  · intro e he; simp at he; subst he; simp
  · simp [pyInt]

end NGC
