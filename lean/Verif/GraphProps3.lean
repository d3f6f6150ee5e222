import Verif.GraphProps2

/-! Properties C49, C50, C52, C53, C85, C89, C90: tables, nodes, merging, iteration. -/

namespace NGC

open Spec

/-! ## C49 tables -/

theorem dget_zipIdx (l : List Int) (hn : l.Nodup) (k : Nat) (h : Int) (i : Nat) :
    dget (l.zipIdx k) h = some i ↔ k ≤ i ∧ l[i - k]? = some h := by
  induction l generalizing k with
  | nil => simp [dget]
  | cons a l ih =>
    rw [List.nodup_cons] at hn
    rw [List.zipIdx_cons, dget]
    by_cases ha : a = h
    · subst ha
      rw [if_pos rfl]
      constructor
      · intro h; cases h; simp
      · rintro ⟨h1, h2⟩
        rcases Nat.eq_or_lt_of_le h1 with h3 | h3
        · rw [h3]
        · obtain ⟨j, hj⟩ : ∃ j, i - k = j + 1 := ⟨i - k - 1, by omega⟩
          rw [hj, List.getElem?_cons_succ] at h2
          exact absurd (List.mem_of_getElem? h2) hn.1
    · rw [if_neg ha, ih hn.2]
      constructor
      · rintro ⟨h1, h2⟩
        refine ⟨by omega, ?_⟩
        have : i - k = (i - (k + 1)) + 1 := by omega
        rw [this, List.getElem?_cons_succ]
        exact h2
      · rintro ⟨h1, h2⟩
        rcases Nat.eq_or_lt_of_le h1 with h3 | h3
        · rw [← h3] at h2
          simp at h2
          exact absurd h2 ha
        · refine ⟨by omega, ?_⟩
          have : i - k = (i - (k + 1)) + 1 := by omega
          rw [this, List.getElem?_cons_succ] at h2
          exact h2

theorem dget_zipIdx_swap (l : List Int) (k : Nat) (h : Int) (i : Nat) :
    dget ((l.zipIdx k).map Prod.swap) i = some h ↔ k ≤ i ∧ l[i - k]? = some h := by
  induction l generalizing k with
  | nil => simp [dget]
  | cons a l ih =>
    rw [List.zipIdx_cons, List.map_cons, dget]
    simp only [Prod.swap]
    by_cases hk : k = i
    · subst hk
      simp
    · rw [if_neg hk]
      rw [ih]
      constructor
      · rintro ⟨h1, h2⟩
        refine ⟨by omega, ?_⟩
        have : i - k = (i - (k + 1)) + 1 := by omega
        rw [this, List.getElem?_cons_succ]
        exact h2
      · rintro ⟨h1, h2⟩
        refine ⟨by omega, ?_⟩
        have : i - k = (i - (k + 1)) + 1 := by omega
        rw [this, List.getElem?_cons_succ] at h2
        exact h2

/-- The invariant of the tables. -/
structure TInv (env : PyEnv) (t : Tables) : Prop where
  nodup : (dkeys t.hashToNotes).Nodup
  h2i : t.hashToIndex = (dkeys t.hashToNotes).zipIdx 1
  i2h : t.indexToHash = ((dkeys t.hashToNotes).zipIdx 1).map Prod.swap
  n2h : ∀ c h, dget t.notesToHash c = some h → h = env.hashSet c ∧ ∃ c', dget t.hashToNotes h = some c'
  h2n : ∀ h c, dget t.hashToNotes h = some c → env.hashSet c = h ∧ dget t.notesToHash c = some h

theorem tinv_empty (env : PyEnv) : TInv env Tables.empty := by
  refine ⟨by simp [Tables.empty, dkeys], rfl, rfl, ?_, ?_⟩ <;> (intro a b h; cases h)

theorem dkeys_zipIdx (l : List Int) (k : Nat) : dkeys (l.zipIdx k) = l := by
  unfold dkeys
  induction l generalizing k with
  | nil => rfl
  | cons a l ih => rw [List.zipIdx_cons, List.map_cons, ih]

theorem tinv_register (env : PyEnv) (t : Tables) (c : Finset Int) (inv : TInv env t) :
    TInv env (t.register env c) ∧
    (∀ h i, dget t.hashToIndex h = some i → dget (t.register env c).hashToIndex h = some i) ∧
    (∀ h, h ∈ dkeys (t.register env c).hashToNotes ↔ h = env.hashSet c ∨ h ∈ dkeys t.hashToNotes) := by
  have hkeys : dkeys (t.register env c).hashToNotes =
      if env.hashSet c ∈ dkeys t.hashToNotes then dkeys t.hashToNotes
      else dkeys t.hashToNotes ++ [env.hashSet c] := by
    unfold Tables.register
    simp only []
    split <;> exact dkeys_dset _ _ _
  have hn2h : (t.register env c).notesToHash = dset t.notesToHash c (env.hashSet c) := by
    unfold Tables.register; simp only []; split <;> rfl
  have hh2n : (t.register env c).hashToNotes = dset t.hashToNotes (env.hashSet c) c := by
    unfold Tables.register; simp only []; split <;> rfl
  have hidx : (t.register env c).hashToIndex = (dkeys (t.register env c).hashToNotes).zipIdx 1 ∧
      (t.register env c).indexToHash = ((dkeys (t.register env c).hashToNotes).zipIdx 1).map Prod.swap := by
    rw [hkeys]
    unfold Tables.register
    simp only []
    by_cases hm : env.hashSet c ∈ dkeys t.hashToNotes
    · have : dhas t.hashToIndex (env.hashSet c) = true := by
        rw [dhas_iff, inv.h2i, dkeys_zipIdx]; exact hm
      rw [if_pos this, if_pos hm]
      exact ⟨inv.h2i, inv.i2h⟩
    · have : ¬ dhas t.hashToIndex (env.hashSet c) = true := by
        rw [dhas_iff, inv.h2i, dkeys_zipIdx]; exact hm
      rw [if_neg this, if_neg hm]
      simp only []
      have hlen : (dset t.hashToNotes (env.hashSet c) c).length = 1 + (dkeys t.hashToNotes).length := by
        rw [dset_length, if_neg hm]
        unfold dkeys
        rw [List.length_map]; omega
      rw [hlen, List.zipIdx_append, List.map_append, dset_of_new, dset_of_new, inv.h2i, inv.i2h]
      · constructor
        · rfl
        · rfl
      · rw [inv.i2h]
        unfold dkeys
        rw [List.map_map]
        intro hc
        rw [List.mem_map] at hc
        obtain ⟨p, hp, he⟩ := hc
        have := List.mem_zipIdx hp
        simp only [Function.comp, Prod.swap] at he
        omega
      · rw [inv.h2i, dkeys_zipIdx]; exact hm
  have hmem : ∀ h, h ∈ dkeys (t.register env c).hashToNotes ↔ h = env.hashSet c ∨ h ∈ dkeys t.hashToNotes := by
    intro h; rw [hh2n, mem_dkeys_dset]
  have hnd : (dkeys (t.register env c).hashToNotes).Nodup := by
    rw [hh2n]; exact dset_nodup _ _ _ inv.nodup
  refine ⟨⟨hnd, hidx.1, hidx.2, ?_, ?_⟩, ?_, hmem⟩
  · intro c' h hg
    rw [hn2h, dget_dset] at hg
    rw [hh2n]
    split at hg
    · rename_i he
      cases hg
      subst he
      exact ⟨rfl, c, dget_dset_self _ _ _⟩
    · obtain ⟨h1, c2, h2⟩ := inv.n2h c' h hg
      refine ⟨h1, ?_⟩
      rw [dget_dset]
      split
      · exact ⟨_, rfl⟩
      · exact ⟨c2, h2⟩
  · intro h c' hg
    rw [hh2n, dget_dset] at hg
    rw [hn2h, dget_dset]
    split at hg
    · rename_i he
      cases hg
      rw [if_pos rfl]
      exact ⟨he, by rw [he]⟩
    · rename_i he
      obtain ⟨h1, h2⟩ := inv.h2n h c' hg
      refine ⟨h1, ?_⟩
      rw [if_neg]
      · exact h2
      · rintro rfl; exact he h1
  · intro h i hg
    rw [inv.h2i, dget_zipIdx _ inv.nodup] at hg
    rw [hidx.1, dget_zipIdx _ hnd, hkeys]
    refine ⟨hg.1, ?_⟩
    split
    · exact hg.2
    · rw [List.getElem?_append_left]
      · exact hg.2
      · exact (List.getElem?_eq_some_iff.1 hg.2).1

/-- Tables reachable by building any sequences, with any options and onto any graphs. -/
inductive Built (env : PyEnv) : Tables → Prop
  | fresh : Built env Tables.empty
  | step {t t' : Tables} {g' : MGraph} (s : MSeq) (o : BuildOpts) (g : Option MGraph) :
      Built env t → buildSequence env t s o g = .ok (t', g') → Built env t'

/-- `build_sequence` only registers chords. -/
theorem buildSequence_tables (env : PyEnv) (t : Tables) (s : MSeq) (o : BuildOpts) (g : Option MGraph)
    (t' : Tables) (g' : MGraph) (h : buildSequence env t s o g = .ok (t', g')) :
    ∃ cs : List (Finset Int), t' = cs.foldl (fun t c => t.register env c) t := by
  unfold buildSequence at h
  by_cases ho : o.ok = true
  · rw [ho] at h
    simp only [Bool.not_true, Bool.false_eq_true, if_false] at h
    cases hd : computeData env s o.tol o.filterSingle true with
    | error e => rw [hd] at h; cases h
    | ok r =>
      obtain ⟨data, m⟩ := r
      rw [hd] at h
      simp only [bind, Except.bind] at h
      by_cases hn : data = []
      · rw [if_pos hn] at h
        cases h
        exact ⟨[], rfl⟩
      · rw [if_neg hn] at h
        have key : ∀ g0 last, ∀ r, buildLoop env o (orderedGroups data) ⟨t, g0, last⟩ = .ok r →
            ∃ cs : List (Finset Int), r.tables = cs.foldl (fun t c => t.register env c) t := by
          intro g0 last r hr
          rw [buildLoop_flat] at hr
          have := foldlM_inv (fun (st : BState) (p : List Note × Finset Int) => chordStep env o p.1 st p.2)
            (fun pre st => st.tables = (pre.map (·.2)).foldl (fun t c => t.register env c) t) ?_
            _ [] ⟨t, g0, last⟩ r rfl hr
          · exact ⟨_, this⟩
          · intro pre p st st' hp hs
            obtain ⟨vel, x, _, _, _, rfl⟩ := chordStep_ok env o p.1 st st' p.2 hs
            simp only [List.map_append, List.foldl_append, hp]
            rfl
        cases g with
        | none =>
          simp only [] at h
          cases hb : buildLoop env o (orderedGroups data) ⟨t, DiGraph.empty, none⟩ with
          | error e => simp only [Option.getD_none, hb] at h; cases h
          | ok r =>
            simp only [Option.getD_none, hb] at h
            cases h
            exact key _ _ r hb
        | some g0 =>
          simp only [] at h
          cases hl : (dkeys g0.nodes).getLast? with
          | none => rw [hl] at h; cases h
          | some l =>
            rw [hl] at h
            simp only [Option.getD_some] at h
            cases hb : buildLoop env o (orderedGroups data) ⟨t, g0, some l⟩ with
            | error e => rw [hb] at h; cases h
            | ok r =>
              rw [hb] at h
              cases h
              exact key _ _ r hb
  · rw [Bool.not_eq_true] at ho
    rw [ho] at h
    cases h

theorem tinv_fold (env : PyEnv) (cs : List (Finset Int)) (t : Tables) (inv : TInv env t) :
    TInv env (cs.foldl (fun t c => t.register env c) t) ∧
    (∀ h i, dget t.hashToIndex h = some i →
      dget (cs.foldl (fun t c => t.register env c) t).hashToIndex h = some i) ∧
    (∀ h, h ∈ dkeys (cs.foldl (fun t c => t.register env c) t).hashToNotes ↔
      h ∈ cs.map env.hashSet ∨ h ∈ dkeys t.hashToNotes) := by
  induction cs generalizing t with
  | nil => exact ⟨inv, fun h i hi => hi, by simp⟩
  | cons c cs ih =>
    obtain ⟨h1, h2, h3⟩ := tinv_register env t c inv
    obtain ⟨g1, g2, g3⟩ := ih (t.register env c) h1
    refine ⟨g1, fun h i hi => g2 h i (h2 h i hi), ?_⟩
    intro h
    rw [List.foldl_cons, g3, h3, List.map_cons, List.mem_cons]
    tauto

theorem built_inv (env : PyEnv) (t : Tables) (h : Built env t) : TInv env t := by
  induction h with
  | fresh => exact tinv_empty env
  | step s o g _ hb ih =>
    obtain ⟨cs, rfl⟩ := buildSequence_tables env _ s o g _ _ hb
    exact (tinv_fold env cs _ ih).1

/-- C49: after any history of builds, `hash_to_index` and `index_to_hash` are inverse to each
other, every known chord has an index, and the indices are exactly 1..n. The full property asks for
0..n-1: see `C49_labels_start_at_one`. -/
theorem C49_index_bijection (env : PyEnv) (t : Tables) (h : Built env t) :
    (∀ x i, dget t.hashToIndex x = some i ↔ dget t.indexToHash i = some x) ∧
    (∀ x, (∃ i, dget t.hashToIndex x = some i) ↔ ∃ c, dget t.hashToNotes x = some c) ∧
    (∀ i, (∃ x, dget t.indexToHash i = some x) ↔ 1 ≤ i ∧ i ≤ t.hashToNotes.length) := by
  have inv := built_inv env t h
  refine ⟨?_, ?_, ?_⟩
  · intro x i
    rw [inv.h2i, inv.i2h, dget_zipIdx _ inv.nodup, dget_zipIdx_swap]
  · intro x
    constructor
    · rintro ⟨i, hi⟩
      rw [inv.h2i, dget_zipIdx _ inv.nodup] at hi
      exact dget_isSome_of_mem _ _ (List.mem_of_getElem? hi.2)
    · rintro ⟨c, hc⟩
      have hm : x ∈ dkeys t.hashToNotes := by
        by_contra hn
        rw [(dget_eq_none _ _).2 hn] at hc; cases hc
      apply dget_isSome_of_mem
      rw [inv.h2i, dkeys_zipIdx]; exact hm
  · intro i
    have hl : (dkeys t.hashToNotes).length = t.hashToNotes.length := by unfold dkeys; simp
    rw [inv.i2h]
    constructor
    · rintro ⟨x, hx⟩
      rw [dget_zipIdx_swap] at hx
      have := (List.getElem?_eq_some_iff.1 hx.2).1
      omega
    · rintro ⟨h1, h2⟩
      have : i - 1 < (dkeys t.hashToNotes).length := by omega
      refine ⟨(dkeys t.hashToNotes)[i - 1], ?_⟩
      rw [dget_zipIdx_swap]
      exact ⟨h1, List.getElem?_eq_getElem this⟩

/-- C49 is false for class labels 0..n-1: after building anything, index 0 is not used and the index
n, which is not a valid class among n, is. -/
theorem C49_labels_start_at_one (env : PyEnv) (t : Tables) (h : Built env t) (hne : t.hashToNotes ≠ []) :
    dget t.indexToHash 0 = none ∧ ∃ x, dget t.hashToIndex x = some t.hashToNotes.length := by
  obtain ⟨h1, _, h3⟩ := C49_index_bijection env t h
  constructor
  · cases hc : dget t.indexToHash 0 with
    | none => rfl
    | some x => have := (h3 0).1 ⟨x, hc⟩; omega
  · have : 0 < t.hashToNotes.length := List.length_pos_of_ne_nil hne
    obtain ⟨x, hx⟩ := (h3 t.hashToNotes.length).2 ⟨this, le_refl _⟩
    exact ⟨x, (h1 x _).2 hx⟩

/-- C49: an index once given is never changed by later builds. -/
theorem C49_index_stable (env : PyEnv) (t t' : Tables) (s : MSeq) (o : BuildOpts) (g : Option MGraph)
    (g' : MGraph) (h : Built env t) (hb : buildSequence env t s o g = .ok (t', g')) (x : Int) (i : Nat)
    (hx : dget t.hashToIndex x = some i) : dget t'.hashToIndex x = some i := by
  obtain ⟨cs, rfl⟩ := buildSequence_tables env _ s o g _ _ hb
  exact (tinv_fold env cs _ (built_inv env t h)).2.1 x i hx

/-- C49: when no two recorded chords have the same hash, `notes_to_hash` and `hash_to_notes` are
inverse to each other. -/
theorem C49_notes_inverse (env : PyEnv) (t : Tables) (h : Built env t)
    (hinj : ∀ c c' x x', dget t.notesToHash c = some x → dget t.notesToHash c' = some x' →
      env.hashSet c = env.hashSet c' → c = c') (c : Finset Int) (x : Int) :
    dget t.notesToHash c = some x ↔ dget t.hashToNotes x = some c := by
  have inv := built_inv env t h
  constructor
  · intro hc
    obtain ⟨h1, c', h2⟩ := inv.n2h c x hc
    obtain ⟨h3, h4⟩ := inv.h2n x c' h2
    have : c = c' := hinj c c' x x hc h4 (by rw [← h1, h3])
    rw [this]; exact h2
  · intro hc
    exact (inv.h2n x c hc).2

/-- C49: with a hash collision the tables are not inverse: the second chord replaces the first. -/
theorem C49_collision (env : PyEnv) (c c' : Finset Int) (hne : c ≠ c')
    (hcol : env.hashSet c = env.hashSet c') :
    let t := (Tables.empty.register env c).register env c'
    dget t.notesToHash c = some (env.hashSet c) ∧ dget t.hashToNotes (env.hashSet c) = some c' := by
  intro t
  have h1 : t.notesToHash = dset (dset [] c (env.hashSet c)) c' (env.hashSet c') := by
    simp only [t]
    unfold Tables.register Tables.empty
    simp only []
    split <;> split <;> rfl
  have h2 : t.hashToNotes = dset (dset [] (env.hashSet c) c) (env.hashSet c') c' := by
    simp only [t]
    unfold Tables.register Tables.empty
    simp only []
    split <;> split <;> rfl
  rw [h1, h2, dget_dset, if_neg hne.symm, dget_dset_self, hcol, dget_dset_self]
  exact ⟨rfl, rfl⟩

example : (buildSequence exEnv Tables.empty exWhole {} none).map (fun r =>
    (r.1.hashToIndex, r.1.indexToHash)) = .ok ([(1, 1), (2, 2), (4, 3)], [(1, 1), (2, 2), (3, 4)]) := by
  decide +kernel

/-! ## C50 nodes -/

/-- C50: the nodes of a freshly built graph are exactly the numbers of the chords visited, each once,
in order of first visit. -/
theorem C50_nodes (env : PyEnv) (t : Tables) (s : MSeq) (o : BuildOpts) (t' : Tables) (g' : MGraph)
    (data : List (Int × List Note)) (m : Nat)
    (h : buildSequence env t s o none = .ok (t', g'))
    (hd : computeData env s o.tol o.filterSingle true = .ok (data, m)) :
    dkeys g'.nodes = firstSeen (visited env o.size.toNat data) := by
  obtain ⟨⟨last, inv⟩, _⟩ := build_inv env t s o t' g' data m h hd
  exact inv.nodes_eq

/-- C50: every node carries its own number, a label and a feature vector; the vector is the one
computed for a chord visited with that number; its number has an index. -/
theorem C50_complete (env : PyEnv) (t : Tables) (ht : Built env t) (s : MSeq) (o : BuildOpts)
    (t' : Tables) (g' : MGraph) (h : buildSequence env t s o none = .ok (t', g')) (k : Int) (a : NodeAttr)
    (ha : dget g'.nodes k = some a) :
    a.nodeHash = some k ∧ a.label.isSome = true ∧ (∃ i, dget t'.hashToIndex k = some i) ∧
    ∃ c x, env.hashSet c = k ∧ a.attr = some x ∧
      (o.velocity = false → createTensor o.ty (env.iter c) none o.size.toNat 127 = .ok x) := by
  obtain ⟨_, data, m, hd, _⟩ := buildSequence_fresh env t s o t' g' h
  obtain ⟨⟨last, inv⟩, hn, htab⟩ := build_inv env t s o t' g' data m h hd
  obtain ⟨h1, h2, p, hp, h3, vel, x, h4, h5, _, h6⟩ := hn k a ha
  refine ⟨h1, h2, ?_, p.2, x, h3, h4, ?_⟩
  · have hb : Built env t' := Built.step s o none ht h
    apply ((C49_index_bijection env t' hb).2.1 k).2
    apply dget_isSome_of_mem
    rw [htab, (tinv_fold env _ t (built_inv env t ht)).2.2]
    left
    rw [← h3]
    apply List.mem_map_of_mem
    rw [List.mem_flatMap] at hp ⊢
    obtain ⟨ns, hns, hp⟩ := hp
    obtain ⟨c, hc, rfl⟩ := List.mem_map.1 hp
    exact ⟨ns, hns, hc⟩
  · intro hv
    rw [← h5 hv]; exact h6

/-! ## C85 is_connected -/

theorem mem_neighbors {A E : Type} (g : DiGraph A E) (u v : Int) (hv : v ∈ dkeys g.nodes) :
    ∃ l, g.neighbors v = .ok l ∧ (u ∈ l ↔ g.hasEdge v u = true) := by
  unfold DiGraph.neighbors
  rw [if_pos ((dhas_iff _ _).2 hv)]
  refine ⟨_, rfl, ?_⟩
  unfold DiGraph.hasEdge
  rw [dhas_iff]
  unfold dkeys
  simp only [List.mem_map, List.mem_filter, decide_eq_true_eq]
  constructor
  · rintro ⟨p, ⟨hp, h1⟩, h2⟩
    exact ⟨p, hp, by rw [← h1, ← h2]⟩
  · rintro ⟨p, hp, he⟩
    exact ⟨p, ⟨hp, by rw [he]⟩, by rw [he]⟩

/-- C85: on a graph that contains `v`, `is_connected(u, v)` tells whether there is an edge from `v` to
`u` (against the argument order), while `get_edge_connected(u, v)` returns the edge from `u` to `v`. -/
theorem C85_is_connected_direction {A E : Type} (g : DiGraph A E) (u v : Int) (hu : u ∈ dkeys g.nodes)
    (hv : v ∈ dkeys g.nodes) : isConnected g u v = .ok (g.hasEdge v u) ∧
      edgeConnected g u v = if g.hasEdge u v then some (u, v) else none := by
  constructor
  · obtain ⟨l, hl, hm⟩ := mem_neighbors g u v hv
    unfold isConnected
    rw [hl]
    simp only [bind, Except.bind]
    congr 1
    by_cases h : g.hasEdge v u = true
    · rw [h]; simpa using hm.2 h
    · have : u ∉ l := fun h' => h (hm.1 h')
      rw [Bool.not_eq_true] at h
      rw [h]; simpa using this
  · unfold edgeConnected
    rw [if_pos (by rw [(dhas_iff _ _).2 hu, (dhas_iff _ _).2 hv]; rfl)]

/-- C85 is false in playing direction: of two different chords played once one after the other,
`is_connected(first, second)` is False and `is_connected(second, first)` is True. -/
theorem C85_played_pair_reversed (env : PyEnv) (t : Tables) (s : MSeq) (o : BuildOpts) (t' : Tables)
    (g' : MGraph) (data : List (Int × List Note)) (m : Nat)
    (h : buildSequence env t s o none = .ok (t', g'))
    (hd : computeData env s o.tol o.filterSingle true = .ok (data, m)) (u v : Int) (hne : u ≠ v)
    (hu : (u, v) ∈ transitions (visited env o.size.toNat data))
    (hv : (v, u) ∉ transitions (visited env o.size.toNat data)) :
    isConnected g' u v = .ok false ∧ isConnected g' v u = .ok true := by
  obtain ⟨⟨last, inv⟩, _⟩ := build_inv env t s o t' g' data m h hd
  obtain ⟨c1, c2, c3⟩ := C48_edges env t s o t' g' data m h hd
  have hvu : g'.hasEdge v u = false := by
    by_contra hc
    rw [Bool.not_eq_false] at hc
    rcases c2 v u hc with h | h
    · exact hv h
    · exact hne h.1.symm
  have huv : g'.hasEdge u v = true := by
    rcases c1 u v hu with h | h
    · exact h
    · rw [hvu] at h; cases h
  have hmem : u ∈ dkeys g'.nodes ∧ v ∈ dkeys g'.nodes := by
    unfold DiGraph.hasEdge dhas at huv
    obtain ⟨w, hw⟩ := Option.isSome_iff_exists.1 huv
    have := inv.ends u v w hw
    rw [inv.nodes_eq, mem_firstSeen, mem_firstSeen]
    exact this
  rw [(C85_is_connected_direction g' u v hmem.1 hmem.2).1,
    (C85_is_connected_direction g' v u hmem.2 hmem.1).1, huv, hvu]
  exact ⟨rfl, rfl⟩

example : (buildSequence exEnv Tables.empty exWhole {} none).map (fun r =>
    (decide (isConnected r.2 1 4 = .ok false), decide (isConnected r.2 4 1 = .ok true))) =
    .ok (true, true) := by decide +kernel

/-! ## C53 graphs() -/

/-- C53 is false: however many graphs were built, iterating over `graphs()` yields only the first,
labelled by its indices, and drops the others. -/
theorem C53_only_first_graph (b : Builder) (skip : Bool) (ys : List PygData) (b' : Builder)
    (h : graphs b skip = .ok (ys, b')) :
    ys.length = min 1 b.pyg.length ∧ (b.pyg ≠ [] → b'.pyg = [] ∧ b'.sub = []) ∧
    ∀ y ∈ ys, ∃ g, b.pyg.head? = some g ∧ labelGraph b.tables skip g = .ok y := by
  unfold graphs at h
  split at h
  · cases h
  · cases hp : b.pyg with
    | nil =>
      rw [hp] at h
      simp only [List.length_nil, graphsLoop, bind, Except.bind] at h
      cases h
      simp
    | cons g rest =>
      rw [hp] at h
      simp only [List.length_cons, graphsLoop, List.getElem?_cons_zero, bind, Except.bind] at h
      cases hl : labelGraph b.tables skip g with
      | error e => rw [hl] at h; cases h
      | ok y =>
        rw [hl] at h
        simp only [] at h
        have : ∀ fuel, graphsLoop b.tables skip fuel (0 + 1) [] = .ok ([], []) := by
          intro fuel; cases fuel <;> rfl
        rw [this] at h
        cases h
        refine ⟨by simp, fun _ => ⟨rfl, by simp⟩, ?_⟩
        intro y' hy
        rw [List.mem_singleton] at hy
        subst hy
        exact ⟨g, rfl, hl⟩

/-- C53: with nothing built, `graphs()` raises ValueError. -/
theorem C53_nothing_built (b : Builder) (skip : Bool) (h : b.tables.hashToNotes = []) :
    graphs b skip = .error .value := by
  unfold graphs
  rw [if_pos h]

example : ((build exEnv ⟨Tables.empty, [], []⟩ [exWhole, exMelody] {}).bind (fun b =>
    (graphs b).map (fun r => (b.pyg.length, r.1.length, r.1.map (·.y))))) =
    .ok (2, 1, [some [1, 2, 3]]) := by decide +kernel

/-! ## C89 conversion -/

/-- C89: conversion of a freshly built graph succeeds; node numbers, vectors, edges and weights are
aligned, every edge end point is a position in the node list, and every edge with its weight appears
exactly as often as in the graph. -/
theorem C89_conversion (env : PyEnv) (t : Tables) (s : MSeq) (o : BuildOpts) (t' : Tables) (g' : MGraph)
    (h : buildSequence env t s o none = .ok (t', g')) :
    ∃ d, fromNetworkx g' = .ok d ∧ d.nodeHash = dkeys g'.nodes ∧ d.attrs.length = d.nodeHash.length ∧
      d.weight.length = d.edgeIndex.length ∧
      (∀ e ∈ d.edgeIndex, e.1 < d.nodeHash.length ∧ e.2 < d.nodeHash.length) ∧
      ((d.edgeIndex.zip d.weight).map (fun p =>
        ((d.nodeHash.getD p.1.1 0, d.nodeHash.getD p.1.2 0), p.2))).Perm g'.edges := by
  obtain ⟨_, data, m, hd, _⟩ := buildSequence_fresh env t s o t' g' h
  obtain ⟨⟨last, inv⟩, hn, _⟩ := build_inv env t s o t' g' data m h hd
  have hnd : (dkeys g'.nodes).Nodup := by rw [inv.nodes_eq]; exact firstSeen_nodup _
  have hnodes : ∀ p ∈ g'.nodes, p.2.nodeHash = some p.1 ∧ ∃ x, p.2.attr = some x := by
    rintro ⟨k, a⟩ hp
    obtain ⟨h1, _, _, _, _, _, x, h4, _⟩ := hn k a (dget_of_mem _ hnd k a hp)
    exact ⟨h1, x, h4⟩
  have m1 : ∀ l : List (Int × NodeAttr), (∀ p ∈ l, p.2.nodeHash = some p.1 ∧ ∃ x, p.2.attr = some x) →
      l.mapM (fun p => needAttr p.2.nodeHash) =
        .ok (l.map (·.1)) ∧
      ∃ xs, l.mapM (fun p => needAttr p.2.attr) =
        .ok xs ∧ xs.length = l.length := by
    intro l
    induction l with
    | nil => intro _; exact ⟨rfl, [], rfl, rfl⟩
    | cons p l ih =>
      intro hl
      obtain ⟨i1, xs, i2, i3⟩ := ih (fun q hq => hl q (List.mem_cons_of_mem _ hq))
      obtain ⟨h1, x, h2⟩ := hl p (by simp)
      refine ⟨?_, x :: xs, ?_, by simp [i3]⟩
      · rw [List.mapM_cons, i1, h1]; rfl
      · rw [List.mapM_cons, i2, h2]; rfl
  obtain ⟨e1, xs, e2, e3⟩ := m1 g'.nodes hnodes
  unfold fromNetworkx
  rw [e1, e2]
  refine ⟨_, rfl, rfl, by simp [e3], by simp, ?_, ?_⟩
  · intro e he
    simp only [List.mem_map] at he
    obtain ⟨p, hp, rfl⟩ := he
    have hends : p.1.1 ∈ dkeys g'.nodes ∧ p.1.2 ∈ dkeys g'.nodes := by
      unfold DiGraph.edgeList at hp
      rw [List.mem_flatMap] at hp
      obtain ⟨q, _, hq⟩ := hp
      have hm := (List.mem_filter.1 hq).1
      obtain ⟨⟨u, v⟩, w⟩ := p
      have := inv.ends u v w (dget_of_mem _ inv.edges_nodup _ _ hm)
      rw [inv.nodes_eq, mem_firstSeen, mem_firstSeen]
      exact this
    exact ⟨List.idxOf_lt_length_of_mem hends.1, List.idxOf_lt_length_of_mem hends.2⟩
  · simp only []
    have hz : ((g'.edgeList.map (fun e => ((dkeys g'.nodes).idxOf e.1.1, (dkeys g'.nodes).idxOf e.1.2))).zip
        (g'.edgeList.map (·.2))).map (fun p =>
        (((g'.nodes.map (·.1)).getD p.1.1 0, (g'.nodes.map (·.1)).getD p.1.2 0), p.2)) = g'.edgeList := by
      rw [List.zip_map', List.map_map]
      have : ∀ e ∈ g'.edgeList, ((fun p : (Nat × Nat) × ℚ =>
          (((g'.nodes.map (·.1)).getD p.1.1 0, (g'.nodes.map (·.1)).getD p.1.2 0), p.2)) ∘
          (fun e : (Int × Int) × ℚ => (((dkeys g'.nodes).idxOf e.1.1, (dkeys g'.nodes).idxOf e.1.2), e.2))) e = e := by
        intro p hp
        unfold DiGraph.edgeList at hp
        rw [List.mem_flatMap] at hp
        obtain ⟨q, _, hq⟩ := hp
        have hm := (List.mem_filter.1 hq).1
        obtain ⟨⟨u, v⟩, w⟩ := p
        have hen := inv.ends u v w (dget_of_mem _ inv.edges_nodup _ _ hm)
        have this : u ∈ dkeys g'.nodes ∧ v ∈ dkeys g'.nodes := by
          rw [inv.nodes_eq, mem_firstSeen, mem_firstSeen]; exact hen
        simp only [Function.comp]
        have g1 : ∀ x ∈ dkeys g'.nodes, (g'.nodes.map (·.1)).getD ((dkeys g'.nodes).idxOf x) 0 = x := by
          intro x hx
          show (dkeys g'.nodes).getD ((dkeys g'.nodes).idxOf x) 0 = x
          rw [List.getD_eq_getElem?_getD, List.getElem?_eq_getElem (List.idxOf_lt_length_of_mem hx)]
          simp
        rw [g1 u this.1, g1 v this.2]
      exact (List.map_congr_left this).trans (List.map_id _)
    rw [hz]
    -- grouping the edges by source is a permutation
    unfold DiGraph.edgeList
    have key : ∀ (ks : List (Int × NodeAttr)), (dkeys ks).Nodup → ∀ (es : List ((Int × Int) × ℚ)),
        (∀ e ∈ es, e.1.1 ∈ dkeys ks) →
        (ks.flatMap (fun p => es.filter (fun e => decide (e.1.1 = p.1)))).Perm es := by
      intro ks
      induction ks with
      | nil =>
        intro _ es hes
        cases es with
        | nil => simp
        | cons e es => have := hes e (by simp); simp [dkeys] at this
      | cons q ks ih =>
        intro hk es hes
        unfold dkeys at hk
        rw [List.map_cons, List.nodup_cons] at hk
        rw [List.flatMap_cons]
        have hsplit := List.filter_append_perm (fun e : (Int × Int) × ℚ => decide (e.1.1 = q.1)) es
        refine List.Perm.trans ?_ hsplit
        refine List.Perm.append_left _ ?_
        have ih' := ih hk.2 (es.filter (fun e => !decide (e.1.1 = q.1))) ?_
        · refine List.Perm.trans ?_ ih'
          apply List.Perm.of_eq
          have : ∀ p ∈ ks, es.filter (fun e => decide (e.1.1 = p.1)) =
              (es.filter (fun e => !decide (e.1.1 = q.1))).filter (fun e => decide (e.1.1 = p.1)) := by
            intro p hp
            rw [List.filter_filter]
            apply List.filter_congr
            intro e _
            have hpq : p.1 ≠ q.1 := by
              intro e; apply hk.1; rw [← e]; exact List.mem_map_of_mem hp
            by_cases h1 : e.1.1 = p.1
            · simp [h1, hpq]
            · simp [h1]
          rw [List.flatMap_def, List.flatMap_def, List.map_congr_left this]
        · intro e he
          rw [List.mem_filter] at he
          have := hes e he.1
          unfold dkeys at this ⊢
          rw [List.map_cons, List.mem_cons] at this
          rcases this with h1 | h1
          · simp [h1] at he
          · exact h1
    refine key g'.nodes hnd g'.edges ?_
    rintro ⟨⟨u, v⟩, w⟩ he
    have := inv.ends u v w (dget_of_mem _ inv.edges_nodup _ _ he)
    rw [inv.nodes_eq, mem_firstSeen]
    exact this.1

/-! ## C90 tracks skipped by build -/

/-- C90 is false for tracks of a single note: `build` leaves them out entirely, like drum tracks. -/
theorem C90_single_note_track_dropped (env : PyEnv) (b : Builder) (o : BuildOpts) (perInstr : Bool)
    (pre post : List MSeq) (s : MSeq) (h : s.instr.isDrum = true ∨ s.notes.length = 1) :
    build env b (pre ++ s :: post) o perInstr = build env b (pre ++ post) o perInstr := by
  have hs : ∀ st, buildTrack env o perInstr st s = .ok st := by
    intro st
    unfold buildTrack
    by_cases hd : s.instr.isDrum = true
    · rw [if_pos hd]
    · rw [if_neg hd, if_pos]
      rcases h with h | h
      · exact absurd h hd
      · exact h
  unfold build
  rw [List.foldlM_append, List.foldlM_append]
  have : ∀ st, List.foldlM (buildTrack env o perInstr) st (s :: post) =
      List.foldlM (buildTrack env o perInstr) st post := by
    intro st
    rw [List.foldlM_cons, hs]
    rfl
  simp only [this]

/-- C90: a melodic track of several notes adds one graph when it has a melodic audible note and is
built per instrument without the single-note filter. -/
theorem C90_track_adds_graph (env : PyEnv) (henv : env.IterOk) (b : Builder) (large : Option MGraph) (o : BuildOpts)
    (s : MSeq) (h1 : s.instr.isDrum = false) (h2 : s.notes.length ≠ 1) (hf : o.filterSingle = false)
    (h3 : ∃ n ∈ s.notes, sounding n = true) (st : Builder × Option MGraph)
    (h : buildTrack env o true (b, large) s = .ok st) :
    st.1.pyg.length = b.pyg.length + 1 ∧ st.1.sub.length = b.sub.length + 1 := by
  unfold buildTrack at h
  rw [h1] at h
  simp only [Bool.false_eq_true, if_false, h2, if_true] at h
  cases hb : buildSequence env b.tables s o none with
  | error e => simp only [hb, bind, Except.bind] at h; cases h
  | ok r =>
    obtain ⟨t', g'⟩ := r
    simp only [hb, bind, Except.bind] at h
    have hne : g'.nodes ≠ [] := by
      obtain ⟨ho, data, m, hd, _⟩ := buildSequence_fresh env _ s o t' g' hb
      have hd' := hd
      rw [hf] at hd'
      obtain ⟨p1, p2, _⟩ := C45_partition env s o.tol true data m hd'
      have hk := C50_nodes env _ s o t' g' data m hb hd
      intro hnil
      rw [hnil] at hk
      obtain ⟨n, hn, hsn⟩ := h3
      have hdne : data ≠ [] := by
        intro h0
        subst h0
        have := p1.mem_iff.2 (List.mem_filter.2 ⟨hn, hsn⟩)
        simp at this
      obtain ⟨⟨k, ns⟩, hp⟩ := List.exists_mem_of_ne_nil data hdne
      have hns : ns ∈ orderedGroups data := by
        unfold orderedGroups
        exact List.mem_map.2 ⟨(k, ns), (sortByKey_perm _ data).mem_iff.2 hp, rfl⟩
      have hnsne := (p2 k ns hp).1
      have hsub : subGroups env o.size.toNat ns ≠ [] := by
        unfold subGroups
        simp only []
        split
        · rename_i hc
          intro h0
          rw [List.map_eq_nil_iff] at h0
          cases hi : env.iter (ns.map Note.pitch).toFinset with
          | nil =>
            obtain ⟨n, hn⟩ := List.exists_mem_of_ne_nil ns hnsne
            have := ((henv (ns.map Note.pitch).toFinset).2 n.pitch).2
              (List.mem_toFinset.2 (List.mem_map_of_mem hn))
            rw [hi] at this
            cases this
          | cons a l =>
            rw [hi] at h0
            simp [chunksGo] at h0
        · simp
      obtain ⟨c, hc⟩ := List.exists_mem_of_ne_nil _ hsub
      have : env.hashSet c ∈ visited env o.size.toNat data := by
        unfold visited
        exact List.mem_map_of_mem (List.mem_flatMap.2 ⟨ns, hns, hc⟩)
      rw [← mem_firstSeen, ← hk] at this
      simp [dkeys] at this
    rw [if_neg hne] at h
    split at h
    · cases h
    · cases hfn : fromNetworkx g' with
      | error e => rw [hfn] at h; cases h
      | ok d =>
        rw [hfn] at h
        cases h
        simp

end NGC
