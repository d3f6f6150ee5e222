import Verif.GraphProps3

/-!
Merging nodes of a graph (C52).
-/

namespace NGC

namespace Spec

/-- A well-formed graph: no duplicate node or edge, and every edge joins nodes of the graph. -/
structure WfGraph {A E : Type} (g : DiGraph A E) : Prop where
  nodes : (dkeys g.nodes).Nodup
  edges : (dkeys g.edges).Nodup
  ends : ∀ u v, (u, v) ∈ dkeys g.edges → u ∈ dkeys g.nodes ∧ v ∈ dkeys g.nodes

end Spec

variable {A E : Type}

theorem mergeFrom_spec (nodes : List Int) (new node : Int) (a : A) (hne : node ≠ new)
    (nbrs : List Int) : ∀ (g : DiGraph A E), new ∈ dkeys g.nodes → (∀ v ∈ nbrs, v ∈ dkeys g.nodes) →
    (dkeys g.edges).Nodup →
    (mergeFrom nodes new node a g nbrs).nodes = g.nodes ∧
    (dkeys (mergeFrom nodes new node a g nbrs).edges).Nodup ∧
    (∀ u v, u ≠ new → dget (mergeFrom nodes new node a g nbrs).edges (u, v) = dget g.edges (u, v)) ∧
    (∀ v, dget (mergeFrom nodes new node a g nbrs).edges (new, v) =
      if v ∈ nbrs ∧ v ∉ nodes then (dget g.edges (node, v)).or (dget g.edges (new, v))
      else dget g.edges (new, v)) := by
  induction nbrs with
  | nil => intro g _ _ hn; simp [mergeFrom, hn]
  | cons w nbrs ih =>
    intro g hnew hin hnd
    have hstep : mergeFrom nodes new node a g (w :: nbrs) =
        mergeFrom nodes new node a (if w ∈ nodes then g
          else match dget g.edges (node, w) with
          | some e => g.addEdge a new w e
          | none => g) nbrs := rfl
    rw [hstep]
    have hw := hin w (by simp)
    have hin' : ∀ v ∈ nbrs, v ∈ dkeys g.nodes := fun v hv => hin v (by simp [hv])
    by_cases hwn : w ∈ nodes
    · rw [if_pos hwn]
      obtain ⟨h1, h2, h3, h4⟩ := ih g hnew hin' hnd
      refine ⟨h1, h2, h3, ?_⟩
      intro v
      rw [h4 v]
      by_cases hv : v ∈ nodes
      · simp [hv]
      · have : v ≠ w := fun e => hv (e ▸ hwn)
        simp [hv, this]
    · rw [if_neg hwn]
      cases he : dget g.edges (node, w) with
      | none =>
        simp only []
        obtain ⟨h1, h2, h3, h4⟩ := ih g hnew hin' hnd
        refine ⟨h1, h2, h3, ?_⟩
        intro v
        rw [h4 v]
        by_cases hv : v = w
        · subst hv; simp [he]
        · simp [hv]
      | some e =>
        simp only []
        have hadd : g.addEdge a new w e = { g with edges := dset g.edges (new, w) e } := by
          unfold DiGraph.addEdge
          simp only [touch_of_mem g a new hnew, touch_of_mem g a w hw]
        rw [hadd]
        obtain ⟨h1, h2, h3, h4⟩ := ih { g with edges := dset g.edges (new, w) e } hnew hin'
          (dset_nodup _ _ _ hnd)
        refine ⟨h1, h2, ?_, ?_⟩
        · intro u v hu
          rw [h3 u v hu]
          exact dget_dset_ne _ _ (by intro hh; exact hu (congrArg Prod.fst hh).symm)
        · intro v
          rw [h4 v]
          have hn1 : dget (dset g.edges (new, w) e) (node, v) = dget g.edges (node, v) :=
            dget_dset_ne _ _ (by intro hh; exact hne (congrArg Prod.fst hh).symm)
          simp only [hn1]
          by_cases hv : v = w
          · subst hv
            simp [he, hwn, dget_dset_self]
          · have hn2 : dget (dset g.edges (new, w) e) (new, v) = dget g.edges (new, v) :=
              dget_dset_ne _ _ (by intro hh; exact hv (congrArg Prod.snd hh).symm)
            simp [hv, hn2]

theorem neighbors_spec (g : DiGraph A E) (n : Int) (h : n ∈ dkeys g.nodes) :
    ∃ nb, g.neighbors n = .ok nb ∧ ∀ v, v ∈ nb ↔ (n, v) ∈ dkeys g.edges := by
  refine ⟨_, by unfold DiGraph.neighbors; rw [(dhas_iff _ _).2 h]; rfl, ?_⟩
  intro v
  simp only [List.mem_map, List.mem_filter, decide_eq_true_eq, dkeys]
  constructor
  · rintro ⟨⟨⟨x, y⟩, e⟩, ⟨hm, hx⟩, rfl⟩
    exact ⟨_, hm, by simp only at hx ⊢; rw [hx]⟩
  · rintro ⟨⟨⟨x, y⟩, e⟩, hm, hxy⟩
    cases hxy
    exact ⟨_, ⟨hm, rfl⟩, rfl⟩

/-- State of the graph inside the loop of `merge_nodes` after the nodes `done`. -/
structure MInv (g0 : DiGraph A E) (nodes : List Int) (new : Int) (a : A) (done : List Int)
    (g : DiGraph A E) : Prop where
  nodes_eq : g.nodes = g0.nodes ++ [(new, a)]
  nodup : (dkeys g.edges).Nodup
  old : ∀ u v, u ≠ new → dget g.edges (u, v) = dget g0.edges (u, v)
  fresh : ∀ v, dget g.edges (new, v) =
    if v ∈ nodes then none else done.reverse.findSome? (fun n => dget g0.edges (n, v))

theorem mergeLoop_spec (g0 : DiGraph A E) (nodes : List Int) (new : Int) (a : A)
    (wf : Spec.WfGraph g0) (hnew : new ∉ dkeys g0.nodes) (todo : List Int) :
    ∀ (done : List Int) (g : DiGraph A E), (∀ n ∈ todo, n ∈ dkeys g0.nodes) →
    MInv g0 nodes new a done g →
    ∃ g', mergeLoop nodes new a todo g = .ok g' ∧ MInv g0 nodes new a (done ++ todo) g' := by
  induction todo with
  | nil => intro done g _ inv; exact ⟨g, rfl, by simpa using inv⟩
  | cons n todo ih =>
    intro done g hin inv
    have hn0 := hin n (by simp)
    have hnn : n ≠ new := fun e => hnew (e ▸ hn0)
    have hkeys : dkeys g.nodes = dkeys g0.nodes ++ [new] := by rw [inv.nodes_eq]; simp [dkeys]
    have hng : n ∈ dkeys g.nodes := by rw [hkeys]; simp [hn0]
    obtain ⟨nb, hnb, hmem⟩ := neighbors_spec g n hng
    have hedge : ∀ v, v ∈ nb ↔ dget g0.edges (n, v) ≠ none := by
      intro v
      rw [hmem, ← inv.old n v hnn, ne_eq, dget_eq_none, not_not]
    have hstep : mergeLoop nodes new a (n :: todo) g =
        mergeLoop nodes new a todo (mergeFrom nodes new n a g nb) := by
      unfold mergeLoop
      rw [List.foldlM_cons]
      simp only [hnb, bind, Except.bind]
    obtain ⟨h1, h2, h3, h4⟩ := mergeFrom_spec nodes new n a hnn nb g (by rw [hkeys]; simp)
      (by
        intro v hv
        rw [hkeys]
        have := (hedge v).1 hv
        rw [ne_eq, dget_eq_none, not_not] at this
        exact List.mem_append_left _ (wf.ends _ _ this).2) inv.nodup
    have inv' : MInv g0 nodes new a (done ++ [n]) (mergeFrom nodes new n a g nb) := by
      refine ⟨h1.trans inv.nodes_eq, h2, ?_, ?_⟩
      · intro u v hu; rw [h3 u v hu, inv.old u v hu]
      · intro v
        rw [h4 v, inv.fresh v, inv.old n v hnn]
        rw [List.reverse_append, List.reverse_singleton, List.singleton_append,
          List.findSome?_cons]
        by_cases hv : v ∈ nodes
        · simp [hv]
        · by_cases hb : v ∈ nb
          · obtain ⟨e, he⟩ := Option.ne_none_iff_exists'.1 ((hedge v).1 hb)
            simp [hv, hb, he]
          · have he : dget g0.edges (n, v) = none := by
              by_contra hc; exact hb ((hedge v).2 hc)
            simp [hv, hb, he]
    obtain ⟨g', hg', inv''⟩ := ih (done ++ [n]) _ (fun m hm => hin m (by simp [hm])) inv'
    exact ⟨g', by rw [hstep, hg'], by simpa using inv''⟩

theorem dget_filter (p : Int × Int → Bool) (d : List ((Int × Int) × E)) (k : Int × Int) :
    dget (d.filter (fun q => p q.1)) k = if p k then dget d k else none := by
  induction d with
  | nil => simp [dget]
  | cons q d ih =>
    by_cases hq : p q.1
    · rw [List.filter_cons_of_pos (by simpa using hq)]
      unfold dget
      rw [ih]
      by_cases hk : q.1 = k
      · subst hk; simp [hq]
      · simp [hk]
    · rw [List.filter_cons_of_neg (by simpa using hq), ih]
      by_cases hk : q.1 = k
      · subst hk; simp [hq]
      · simp [dget, hk]

theorem removeAll_spec (ns : List Int) : ∀ (g : DiGraph A E), ns.Nodup →
    (∀ n ∈ ns, n ∈ dkeys g.nodes) →
    ns.foldlM (fun g n => g.removeNode n) g = (.ok
      { nodes := g.nodes.filter (fun p => decide (p.1 ∉ ns)),
        edges := g.edges.filter (fun p => decide (p.1.1 ∉ ns) && decide (p.1.2 ∉ ns)) } :
      Py (DiGraph A E)) := by
  induction ns with
  | nil =>
    intro g _ _
    simp [List.foldlM_nil]
    rfl
  | cons n ns ih =>
    intro g hnd hin
    rw [List.foldlM_cons]
    have h1 : g.removeNode n = .ok {
          nodes := g.nodes.filter (fun p => decide (p.1 ≠ n)),
          edges := g.edges.filter (fun p => decide (p.1.1 ≠ n) && decide (p.1.2 ≠ n)) } := by
      unfold DiGraph.removeNode
      rw [(dhas_iff _ _).2 (hin n (by simp))]
      rfl
    simp only [h1, bind, Except.bind]
    rw [List.nodup_cons] at hnd
    rw [ih _ hnd.2]
    · simp only [List.filter_filter]
      congr 2
      · apply List.filter_congr
        intro p _
        by_cases h : p.1 = n <;> simp [h]
      · apply List.filter_congr
        intro p _
        by_cases h : p.1.1 = n <;> by_cases h' : p.1.2 = n <;> simp [h, h']
    · intro m hm
      have := hin m (by simp [hm])
      unfold dkeys at this ⊢
      rw [List.mem_map] at this ⊢
      obtain ⟨p, hp, rfl⟩ := this
      refine ⟨p, List.mem_filter.2 ⟨hp, ?_⟩, rfl⟩
      have : p.1 ≠ n := fun e => hnd.1 (e ▸ hm)
      simpa using this

theorem foldl_max_le (l : List Int) : ∀ (a : Int), a ≤ l.foldl max a ∧ ∀ x ∈ l, x ≤ l.foldl max a := by
  induction l with
  | nil => intro a; simp
  | cons b l ih =>
    intro a
    simp only [List.foldl_cons, List.mem_cons]
    obtain ⟨h1, h2⟩ := ih (max a b)
    refine ⟨le_trans (le_max_left _ _) h1, ?_⟩
    rintro x (rfl | hx)
    · exact le_trans (le_max_right _ _) h1
    · exact h2 x hx

/-- **C52.** For a well-formed graph and a duplicate-free list of its nodes, merging
succeeds: the merged nodes are gone, exactly one node (with a label never used before) is new, the
edges among the remaining nodes are untouched, no edge touches a merged node, and the new node has
an out-edge to `v` iff some merged node had one; that edge carries the attribute of the last such
node in the list. Against the expectation, the edges *into* merged nodes are lost, not
redirected (last clause, and `C52_in_edges_lost`). -/
theorem C52_merge (g : DiGraph A E) (nodes : List Int) (a : A) (wf : Spec.WfGraph g)
    (hnd : nodes.Nodup) (hne : g.nodes ≠ []) (hin : ∀ n ∈ nodes, n ∈ dkeys g.nodes) :
    ∃ g' new, mergeNodes g nodes a = .ok (g', new) ∧ new ∉ dkeys g.nodes ∧
      g'.nodes = g.nodes.filter (fun p => decide (p.1 ∉ nodes)) ++ [(new, a)] ∧
      (∀ u v, u ∉ nodes → v ∉ nodes → u ≠ new → dget g'.edges (u, v) = dget g.edges (u, v)) ∧
      (∀ u v, u ∈ nodes ∨ v ∈ nodes → dget g'.edges (u, v) = none) ∧
      (∀ v, v ∉ nodes →
        dget g'.edges (new, v) = nodes.reverse.findSome? (fun n => dget g.edges (n, v))) ∧
      (∀ u, dget g'.edges (u, new) = none) := by
  obtain ⟨n, ns, hk⟩ : ∃ n ns, dkeys g.nodes = n :: ns := by
    cases h : g.nodes with
    | nil => exact absurd h hne
    | cons p l => exact ⟨p.1, dkeys l, rfl⟩
  set new := ns.foldl max n + 1 with hnew
  have hfresh : ∀ x ∈ dkeys g.nodes, x < new := by
    intro x hx
    rw [hk] at hx
    obtain ⟨h1, h2⟩ := foldl_max_le ns n
    rcases List.mem_cons.1 hx with rfl | hx
    · omega
    · have := h2 x hx; omega
  have hnm : new ∉ dkeys g.nodes := fun h => lt_irrefl _ (hfresh _ h)
  have hnn : new ∉ nodes := fun h => hnm (hin _ h)
  have hadd : (g.addNode new a) = { g with nodes := g.nodes ++ [(new, a)] } := by
    unfold DiGraph.addNode
    rw [dset_of_new _ _ _ hnm]
  have noNew : ∀ u v, (u = new ∨ v = new) → dget g.edges (u, v) = none := by
    intro u v huv
    rw [dget_eq_none]
    intro hm
    obtain ⟨h1, h2⟩ := wf.ends u v hm
    rcases huv with rfl | rfl
    · exact hnm h1
    · exact hnm h2
  have inv0 : MInv g nodes new a [] (g.addNode new a) := by
    rw [hadd]
    refine ⟨rfl, wf.edges, fun _ _ _ => rfl, ?_⟩
    intro v
    simp [noNew new v (Or.inl rfl)]
  obtain ⟨g1, hg1, inv⟩ := mergeLoop_spec g nodes new a wf hnm nodes [] _ hin inv0
  have hk1 : dkeys g1.nodes = dkeys g.nodes ++ [new] := by rw [inv.nodes_eq]; simp [dkeys]
  have hrem := removeAll_spec nodes g1 hnd (by
    intro m hm; rw [hk1]; exact List.mem_append_left _ (hin m hm))
  refine ⟨{ nodes := g1.nodes.filter (fun p => decide (p.1 ∉ nodes)),
            edges := g1.edges.filter (fun p => decide (p.1.1 ∉ nodes) && decide (p.1.2 ∉ nodes)) },
    new, ?_, hnm, ?_, ?_, ?_, ?_, ?_⟩
  rotate_left
  · rw [inv.nodes_eq, List.filter_append]
    simp [hnn]
  · intro u v hu hv hun
    rw [dget_filter (fun q => decide (q.1 ∉ nodes) && decide (q.2 ∉ nodes))]
    simp [hu, hv, inv.old u v hun]
  · intro u v huv
    rw [dget_filter (fun q => decide (q.1 ∉ nodes) && decide (q.2 ∉ nodes))]
    rcases huv with h | h <;> simp [h]
  · intro v hv
    rw [dget_filter (fun q => decide (q.1 ∉ nodes) && decide (q.2 ∉ nodes))]
    simp [hv, hnn, inv.fresh v]
  · intro u
    rw [dget_filter (fun q => decide (q.1 ∉ nodes) && decide (q.2 ∉ nodes))]
    by_cases hu : u = new
    · rw [hu, inv.fresh new]
      simp only [hnn, if_false, not_false_eq_true, decide_true, Bool.and_self, if_true]
      rw [List.findSome?_eq_none_iff]
      intro x _
      exact noNew x new (Or.inr rfl)
    · rw [inv.old u new hu, noNew u new (Or.inr rfl)]
      simp
  · unfold mergeNodes
    rw [hk]
    simp only [← hnew, hg1, List.nil_append, hrem, bind, Except.bind]

/-- The graph `1 → 2 → 3`, `1 → 3` used below. -/
def exTriangle : DiGraph Unit ℚ :=
  ⟨[(1, ()), (2, ()), (3, ())], [((1, 2), 5), ((2, 3), 7), ((1, 3), 9)]⟩

/-- The hypotheses of `C52_merge` are met by `exTriangle` and the nodes 1, 2; the new node 4
gets one edge to 3, with the weight of the last merged node (7; the 9 is lost). -/
example : Spec.WfGraph exTriangle ∧ [1, 2].Nodup ∧ exTriangle.nodes ≠ [] ∧
    (∀ n ∈ ([1, 2] : List Int), n ∈ dkeys exTriangle.nodes) ∧
    (mergeNodes exTriangle [1, 2] ()).map (fun r => (dkeys r.1.nodes, r.1.edges, r.2)) =
      .ok ([3, 4], [((4, 3), 7)], 4) := by
  refine ⟨⟨by decide, by decide, ?_⟩, by decide, by decide, by decide, by decide +kernel⟩
  intro u v h
  simp [exTriangle, dkeys] at h ⊢
  omega

/-- **C52, the claim is false for edges into merged nodes.** Whenever an outside node has an edge to
a merged node, that connection is gone after merging: nothing points to the new node. -/
theorem C52_in_edges_lost (g : DiGraph A E) (nodes : List Int) (a : A) (wf : Spec.WfGraph g)
    (hnd : nodes.Nodup) (hin : ∀ n ∈ nodes, n ∈ dkeys g.nodes) (u v : Int) (hu : u ∉ nodes)
    (hv : v ∈ nodes) (he : dget g.edges (u, v) ≠ none) :
    ∃ g' new, mergeNodes g nodes a = .ok (g', new) ∧ u ∈ dkeys g'.nodes ∧
      dget g'.edges (u, new) = none := by
  have hm : (u, v) ∈ dkeys g.edges := by
    by_contra hc; exact he ((dget_eq_none _ _).2 hc)
  have hun := (wf.ends u v hm).1
  have hne : g.nodes ≠ [] := by
    intro h; rw [h] at hun; simp [dkeys] at hun
  obtain ⟨g', new, h, hfr, hn, _, _, _, hlast⟩ := C52_merge g nodes a wf hnd hne hin
  refine ⟨g', new, h, ?_, hlast u⟩
  rw [hn]
  unfold dkeys at hun ⊢
  rw [List.map_append, List.mem_append]
  left
  rw [List.mem_map] at hun ⊢
  obtain ⟨p, hp, rfl⟩ := hun
  exact ⟨p, List.mem_filter.2 ⟨hp, by simpa using hu⟩, rfl⟩

/-- Merging only node 3 of `exTriangle` disconnects it from 1 and 2. -/
example : (mergeNodes exTriangle [3] ()).map (fun r => (dkeys r.1.nodes, r.1.edges, r.2)) =
    .ok ([1, 2, 4], [((1, 2), 5)], 4) := by decide +kernel

/-- **C52, error branches.** Merging in an empty graph, or naming a node twice, raises
(NetworkXError is modelled as ValueError). -/
theorem C52_raises (g : DiGraph A E) (nodes : List Int) (a : A) (wf : Spec.WfGraph g)
    (h : g.nodes = [] ∨ ¬ nodes.Nodup ∧ (∀ n ∈ nodes, n ∈ dkeys g.nodes)) :
    mergeNodes g nodes a = .error .value := by
  rcases h with h | ⟨hnd, hin⟩
  · unfold mergeNodes; rw [h]; rfl
  · have hne : g.nodes ≠ [] := by
      intro h
      cases nodes with
      | nil => exact hnd (by simp)
      | cons m _ => have := hin m (by simp); rw [h] at this; simp [dkeys] at this
    obtain ⟨n, ns, hk⟩ : ∃ n ns, dkeys g.nodes = n :: ns := by
      cases h : g.nodes with
      | nil => exact absurd h hne
      | cons p l => exact ⟨p.1, dkeys l, rfl⟩
    set new := ns.foldl max n + 1 with hnew
    have hnm : new ∉ dkeys g.nodes := by
      intro hx
      rw [hk] at hx
      obtain ⟨h1, h2⟩ := foldl_max_le ns n
      rcases List.mem_cons.1 hx with he | hx
      · omega
      · have := h2 _ hx; omega
    have hadd : (g.addNode new a) = { g with nodes := g.nodes ++ [(new, a)] } := by
      unfold DiGraph.addNode
      rw [dset_of_new _ _ _ hnm]
    have inv0 : MInv g nodes new a [] (g.addNode new a) := by
      rw [hadd]
      refine ⟨rfl, wf.edges, fun _ _ _ => rfl, ?_⟩
      intro v
      have : dget g.edges (new, v) = none := by
        rw [dget_eq_none]; intro hm; exact hnm (wf.ends _ _ hm).1
      simp [this]
    obtain ⟨g1, hg1, inv⟩ := mergeLoop_spec g nodes new a wf hnm nodes [] _ hin inv0
    have hdup : ∀ (ns : List Int) (g : DiGraph A E), ¬ ns.Nodup →
        ns.foldlM (fun g n => g.removeNode n) g = (.error .value : Py (DiGraph A E)) := by
      intro ns
      induction ns with
      | nil => intro g h; exact absurd List.nodup_nil h
      | cons m ns ih =>
        intro g h
        rw [List.foldlM_cons]
        by_cases hm : m ∈ dkeys g.nodes
        · have h1 : g.removeNode m = .ok {
              nodes := g.nodes.filter (fun p => decide (p.1 ≠ m)),
              edges := g.edges.filter (fun p => decide (p.1.1 ≠ m) && decide (p.1.2 ≠ m)) } := by
            unfold DiGraph.removeNode
            rw [(dhas_iff _ _).2 hm]
            rfl
          simp only [h1, bind, Except.bind]
          by_cases hd : ns.Nodup
          · have hmem : m ∈ ns := by
              by_contra hc; exact h (List.nodup_cons.2 ⟨hc, hd⟩)
            -- the second removal of m fails; everything before it keeps m out
            have miss : ∀ (ns : List Int) (g : DiGraph A E), m ∈ ns → m ∉ dkeys g.nodes →
                ns.foldlM (fun g n => g.removeNode n) g = (.error .value : Py (DiGraph A E)) := by
              intro ns
              induction ns with
              | nil => intro g hm; simp at hm
              | cons k ns ih2 =>
                intro g hm hg
                rw [List.foldlM_cons]
                cases hr : g.removeNode k with
                | error e =>
                  unfold DiGraph.removeNode at hr
                  split at hr
                  · cases hr
                  · cases hr; rfl
                | ok g2 =>
                  simp only [bind, Except.bind]
                  unfold DiGraph.removeNode at hr
                  split at hr
                  · rename_i hk2
                    cases hr
                    have hkm : k ≠ m := by
                      rintro rfl; exact hg ((dhas_iff _ _).1 hk2)
                    refine ih2 _ ?_ ?_
                    · rcases List.mem_cons.1 hm with e | h
                      · exact absurd e.symm hkm
                      · exact h
                    · intro hc
                      apply hg
                      unfold dkeys at hc ⊢
                      rw [List.mem_map] at hc ⊢
                      obtain ⟨p, hp, hpm⟩ := hc
                      exact ⟨p, (List.mem_filter.1 hp).1, hpm⟩
                  · cases hr
            refine miss ns _ hmem ?_
            intro hc
            unfold dkeys at hc
            rw [List.mem_map] at hc
            obtain ⟨p, hp, hpm⟩ := hc
            have := (List.mem_filter.1 hp).2
            simp [hpm] at this
          · exact ih _ hd
        · have h1 : g.removeNode m = .error .value := by
            unfold DiGraph.removeNode
            rw [(dhas_eq_false _ _).2 hm]
            rfl
          simp only [h1, bind, Except.bind]
    unfold mergeNodes
    rw [hk]
    simp only [← hnew, hg1, hdup nodes g1 hnd, bind, Except.bind]

example : (mergeNodes exTriangle [1, 1] ()).map (·.2) = .error .value := by decide +kernel
example : (mergeNodes (⟨[], []⟩ : DiGraph Unit ℚ) [] ()).map (·.2) = .error .value := by
  decide +kernel

end NGC
