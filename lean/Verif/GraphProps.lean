import Verif.GraphLemmas
import Verif.SeqProps
import Mathlib.Tactic.FinCases

/-! Properties C45-C51, C53, C54 and C84-C91: the graph builder. -/

namespace NGC

open Spec

namespace Spec

/-- Node numbers of the chords in the order in which the builder visits them: the groups of notes in
the order of their keys, each cut into chords. -/
def visited (env : PyEnv) (size : Nat) (data : List (Int × List Note)) : List Int :=
  ((orderedGroups data).flatMap (subGroups env size)).map env.hashSet

end Spec

/-! ### From the monadic loop to the invariants -/

/-- The loop as a loop over pairs (group, chord). -/
theorem buildLoop_flat (env : PyEnv) (o : BuildOpts) (groups : List (List Note)) (st : BState) :
    buildLoop env o groups st =
      (groups.flatMap (fun ns => (subGroups env o.size.toNat ns).map (fun c => (ns, c)))).foldlM
        (fun st p => chordStep env o p.1 st p.2) st :=
  foldlM_flatMap (fun st ns c => chordStep env o ns st c) (subGroups env o.size.toNat) groups st

theorem flat_hashes (env : PyEnv) (o : BuildOpts) (data : List (Int × List Note)) :
    ((orderedGroups data).flatMap (fun ns => (subGroups env o.size.toNat ns).map (fun c => (ns, c)))).map
      (fun p => env.hashSet p.2) = visited env o.size.toNat data := by
  unfold visited
  generalize orderedGroups data = l
  induction l with
  | nil => rfl
  | cons a l ih => simp [List.flatMap_cons, ih]

/-- What one chord does when it does not raise. -/
theorem chordStep_ok (env : PyEnv) (o : BuildOpts) (ns : List Note) (st st' : BState) (c : Finset Int)
    (h : chordStep env o ns st c = .ok st') : ∃ vel x,
      (o.velocity = false → vel = none) ∧
      (o.velocity = true → ∃ v, vel = some v ∧ rescaleVelocities (groupVelocities env ns c) = .ok v) ∧
      createTensor o.ty (env.iter c) vel o.size.toNat 127 = .ok x ∧
      st' = { tables := st.tables.register env c
              graph := linkChord st.graph st.last (env.hashSet c) x
                ((ns.map (fun n => env.noteName n.pitch)).toFinset)
              last := some (env.hashSet c) } := by
  unfold chordStep at h
  by_cases hv : o.velocity = true
  · rw [if_pos hv] at h
    cases hr : rescaleVelocities (groupVelocities env ns c) with
    | error e => rw [hr] at h; cases h
    | ok v =>
      rw [hr] at h
      simp only [Except.map, bind, Except.bind] at h
      cases ht : createTensor o.ty (env.iter c) (some v) o.size.toNat 127 with
      | error e => rw [ht] at h; cases h
      | ok x =>
        rw [ht] at h
        refine ⟨some v, x, by simp [hv], fun _ => ⟨v, rfl, rfl⟩, ht, ?_⟩
        cases h; rfl
  · rw [if_neg hv] at h
    simp only [bind, Except.bind] at h
    cases ht : createTensor o.ty (env.iter c) none o.size.toNat 127 with
    | error e => rw [ht] at h; cases h
    | ok x =>
      rw [ht] at h
      refine ⟨none, x, fun _ => rfl, fun h' => absurd h' hv, ht, ?_⟩
      cases h; rfl

/-- A node is complete and carries the feature vector of a chord with its number. -/
def NodeOk (env : PyEnv) (o : BuildOpts) (ps : List (List Note × Finset Int)) (h : Int)
    (a : NodeAttr) : Prop :=
  a.nodeHash = some h ∧ a.label.isSome = true ∧
  ∃ p ∈ ps, env.hashSet p.2 = h ∧ ∃ vel x, a.attr = some x ∧
    (o.velocity = false → vel = none) ∧
    (o.velocity = true → ∃ v, vel = some v ∧ rescaleVelocities (groupVelocities env p.1 p.2) = .ok v) ∧
    createTensor o.ty (env.iter p.2) vel o.size.toNat 127 = .ok x

theorem NodeOk.mono (env : PyEnv) (o : BuildOpts) (ps qs : List (List Note × Finset Int)) (h : Int)
    (a : NodeAttr) (hk : NodeOk env o ps h a) : NodeOk env o (ps ++ qs) h a := by
  obtain ⟨h1, h2, p, hp, h3⟩ := hk
  exact ⟨h1, h2, p, List.mem_append_left _ hp, h3⟩

/-- Nodes of the graph after one more chord. -/
theorem linkChord_nodes (g : MGraph) (last : Option Int) (h : Int) (attr : Tens)
    (names : Finset String) (hl : ∀ l, last = some l → l ∈ dkeys g.nodes) (k : Int) (a : NodeAttr)
    (hk : dget (linkChord g last h attr names).nodes k = some a) :
    dget g.nodes k = some a ∨ (k = h ∧ a.attr = some attr ∧ a.label.isSome = true ∧ a.nodeHash = some h) := by
  have key : ∀ (b : NodeAttr) (u : Int), u ∈ dkeys (g.addNode h b).nodes → b.attr = some attr →
      b.label.isSome = true → b.nodeHash = some h →
      dget ((g.addNode h b).addEdge .none u h 1).nodes k = some a →
      dget g.nodes k = some a ∨ (k = h ∧ a.attr = some attr ∧ a.label.isSome = true ∧ a.nodeHash = some h) := by
    intro b u hu hb1 hb2 hb3 hb
    rw [addEdge_of_mem _ _ _ _ _ hu
      (by unfold DiGraph.addNode; simp only []; rw [mem_dkeys_dset]; exact Or.inl rfl)] at hb
    unfold DiGraph.addNode at hb
    simp only [] at hb
    rw [dget_dset] at hb
    by_cases hh : h = k
    · rw [if_pos hh] at hb
      cases hb
      exact Or.inr ⟨hh.symm, hb1, hb2, hb3⟩
    · rw [if_neg hh] at hb
      exact Or.inl hb
  unfold linkChord at hk
  cases hlast : last with
  | none =>
    rw [hlast] at hk
    exact key _ h (by unfold DiGraph.addNode; simp only []; rw [mem_dkeys_dset]; exact Or.inl rfl)
      rfl rfl rfl hk
  | some l =>
    rw [hlast] at hk
    simp only [] at hk
    split at hk
    · exact Or.inl hk
    · split at hk
      · exact Or.inl hk
      · refine key _ l ?_ rfl rfl rfl hk
        unfold DiGraph.addNode
        simp only []
        rw [mem_dkeys_dset]
        exact Or.inr (hl l hlast)

/-- The empty graph satisfies the invariant for no chords. -/
theorem ginv_nil : GInv [] DiGraph.empty none := by
  refine ⟨rfl, rfl, by simp [DiGraph.empty, dkeys], ?_, ?_, ?_, ?_, ?_, ?_, by simp [DiGraph.empty]⟩
  all_goals (intros; simp_all [DiGraph.empty, dget, transitions])

/-- The invariants after a fresh build loop. -/
theorem buildLoop_inv (env : PyEnv) (o : BuildOpts) (t : Tables) (groups : List (List Note))
    (st : BState) (h : buildLoop env o groups ⟨t, DiGraph.empty, none⟩ = .ok st) :
    let ps := groups.flatMap (fun ns => (subGroups env o.size.toNat ns).map (fun c => (ns, c)))
    GInv (ps.map (fun p => env.hashSet p.2)) st.graph st.last ∧
    (∀ k a, dget st.graph.nodes k = some a → NodeOk env o ps k a) ∧
    st.tables = (ps.map (·.2)).foldl (fun t c => t.register env c) t := by
  rw [buildLoop_flat] at h
  intro ps
  have := foldlM_inv (fun st p => chordStep env o p.1 st p.2)
    (fun pre st => GInv (pre.map (fun p => env.hashSet p.2)) st.graph st.last ∧
      (pre = [] → st.graph = DiGraph.empty ∧ st.last = none) ∧
      (∀ k a, dget st.graph.nodes k = some a → NodeOk env o pre k a) ∧
      st.tables = (pre.map (·.2)).foldl (fun t c => t.register env c) t) ?_
    ps [] ⟨t, DiGraph.empty, none⟩ st ⟨ginv_nil, fun _ => ⟨rfl, rfl⟩, ?_, rfl⟩ h
  · rw [List.nil_append] at this
    exact ⟨this.1, this.2.2.1, this.2.2.2⟩
  · intro pre p s s' ⟨i1, i2, i3, i4⟩ hs
    obtain ⟨vel, x, hv1, hv2, hx, rfl⟩ := chordStep_ok env o p.1 s s' p.2 hs
    refine ⟨?_, by simp, ?_, ?_⟩
    · rw [List.map_append]
      refine ginv_link _ _ _ _ _ _ ?_
      by_cases hp : pre = []
      · subst hp; exact Or.inl ⟨rfl, i2 rfl⟩
      · exact Or.inr ⟨by simpa using hp, i1⟩
    · intro k a hk
      simp only [] at hk
      have hlast : ∀ l, s.last = some l → l ∈ dkeys s.graph.nodes := by
        intro l hl
        rw [i1.nodes_eq, mem_firstSeen]
        rw [i1.last_eq] at hl
        exact mem_of_getLast hl
      rcases linkChord_nodes _ _ _ _ _ hlast k a hk with h1 | ⟨rfl, h1, h2, h3⟩
      · exact (i3 k a h1).mono env o pre [p] k a
      · exact ⟨h3, h2, p, by simp, rfl, vel, x, h1, hv1, hv2, hx⟩
    · rw [List.map_append, List.foldl_append, i4]
      rfl
  · intro k a hk
    cases hk

/-- Unfolding `build_sequence` on a fresh graph. -/
theorem buildSequence_fresh (env : PyEnv) (t : Tables) (s : MSeq) (o : BuildOpts) (t' : Tables)
    (g' : MGraph) (h : buildSequence env t s o none = .ok (t', g')) :
    o.ok = true ∧ ∃ data m, computeData env s o.tol o.filterSingle true = .ok (data, m) ∧
      ∃ st, buildLoop env o (orderedGroups data) ⟨t, DiGraph.empty, none⟩ = .ok st ∧
        st.tables = t' ∧ st.graph = g' := by
  unfold buildSequence at h
  by_cases ho : o.ok = true
  · refine ⟨ho, ?_⟩
    rw [ho] at h
    simp only [Bool.not_true, Bool.false_eq_true, if_false] at h
    cases hd : computeData env s o.tol o.filterSingle true with
    | error e => rw [hd] at h; cases h
    | ok r =>
      obtain ⟨data, m⟩ := r
      rw [hd] at h
      refine ⟨data, m, rfl, ?_⟩
      simp only [bind, Except.bind, Option.getD_none] at h
      by_cases hn : data = []
      · subst hn
        rw [if_pos rfl] at h
        cases h
        exact ⟨⟨t, DiGraph.empty, none⟩, rfl, rfl, rfl⟩
      · rw [if_neg hn] at h
        cases hb : buildLoop env o (orderedGroups data) ⟨t, DiGraph.empty, none⟩ with
        | error e => rw [hb] at h; cases h
        | ok st =>
          rw [hb] at h
          cases h
          exact ⟨st, rfl, rfl, rfl⟩
  · rw [Bool.not_eq_true] at ho
    rw [ho] at h
    cases h

/-- The invariants of a freshly built graph. -/
theorem build_inv (env : PyEnv) (t : Tables) (s : MSeq) (o : BuildOpts) (t' : Tables) (g' : MGraph)
    (data : List (Int × List Note)) (m : Nat)
    (h : buildSequence env t s o none = .ok (t', g'))
    (hd : computeData env s o.tol o.filterSingle true = .ok (data, m)) :
    (∃ last, GInv (visited env o.size.toNat data) g' last) ∧
    (∀ k a, dget g'.nodes k = some a → NodeOk env o
      ((orderedGroups data).flatMap (fun ns => (subGroups env o.size.toNat ns).map (fun c => (ns, c)))) k a) ∧
    t' = ((orderedGroups data).flatMap (subGroups env o.size.toNat)).foldl (fun t c => t.register env c) t := by
  obtain ⟨_, data', m', hd', st, hb, rfl, rfl⟩ := buildSequence_fresh env t s o t' g' h
  rw [hd] at hd'
  cases hd'
  obtain ⟨i1, i2, i3⟩ := buildLoop_inv env o t _ st hb
  rw [flat_hashes] at i1
  refine ⟨⟨st.last, i1⟩, i2, ?_⟩
  rw [i3]
  congr 1
  generalize orderedGroups data = l
  induction l with
  | nil => rfl
  | cons a l ih => simp [List.flatMap_cons, ih]

/-! ## A concrete builder used in the examples -/

/-- Hash of a non-negative float in CPython (`_Py_HashDouble`): value modulo 2^61-1. Every float has
a power of two as denominator, and 2^61 = 1 modulo 2^61-1. -/
def pyHashFloat (q : ℚ) : Int := (q.num * ((2 : Int) ^ (61 - (Nat.log2 q.den) % 61 : Nat))) % ((2 : Int) ^ (61 : Nat) - 1)

/-- An environment: real float hashes, a chord is numbered by its bit mask. -/
def exEnv : PyEnv where
  hashTime := pyHashFloat
  hashSet := fun s => ((List.range 128).map (fun i : Nat => if (i : Int) ∈ s then (2 : Int) ^ i else 0)).sum
  iter := fun s => ((List.range 128).map (fun i : Nat => (i : Int))).filter (fun i => decide (i ∈ s))
  noteName := fun _ => "C4"

/-- Three notes at 0, 0.5 and 1 second. -/
def exMelody : MSeq := MSeq.mk'
  [{ exNote with pitch := 0, start := 0, stop := 1/2 }, { exNote with pitch := 1, start := 1/2, stop := 1 },
   { exNote with pitch := 2, start := 1, stop := 2 }] { num := 0, name := "Piano", isDrum := false }

/-- Notes on whole seconds: 0 1 1 0 2. -/
def exWhole : MSeq := MSeq.mk'
  [{ exNote with pitch := 0, start := 0, stop := 1 }, { exNote with pitch := 1, start := 1, stop := 2 },
   { exNote with pitch := 1, start := 2, stop := 3 }, { exNote with pitch := 0, start := 3, stop := 4 },
   { exNote with pitch := 2, start := 4, stop := 5 }] { num := 0, name := "Piano", isDrum := false }

example : (buildSequence exEnv Tables.empty exWhole {} none).map (fun r => (dkeys r.2.nodes, r.2.edges)) =
    .ok ([1, 2, 4], [((1, 1), 1), ((1, 2), 2), ((2, 2), 1), ((1, 4), 1)]) := by decide +kernel

/-! ## C47 weights -/

/-- C47: in a freshly built graph the weights of all edges add up to the number of chords visited;
the weight of each edge is the number of times its two ends follow each other, in either order, plus
one for the self edge with which the first chord is entered. -/
theorem C47_weights (env : PyEnv) (t : Tables) (s : MSeq) (o : BuildOpts) (t' : Tables) (g' : MGraph)
    (data : List (Int × List Note)) (m : Nat)
    (h : buildSequence env t s o none = .ok (t', g'))
    (hd : computeData env s o.tol o.filterSingle true = .ok (data, m)) :
    (g'.edges.map (·.2)).sum = ((visited env o.size.toNat data).length : ℚ) ∧
    ∀ u v w, dget g'.edges (u, v) = some w →
      w = (adjacencies (visited env o.size.toNat data) u v : ℚ) +
        (if u = v ∧ (visited env o.size.toNat data).head? = some u then 1 else 0) := by
  obtain ⟨⟨last, inv⟩, _⟩ := build_inv env t s o t' g' data m h hd
  exact ⟨inv.total, inv.weight⟩

/-! ## C48 edges -/

/-- C48: two chords visited in succession are always joined by an edge; every edge comes from two
chords visited in that order, except the self edge of the first chord; two different nodes are never
joined in both directions. -/
theorem C48_edges (env : PyEnv) (t : Tables) (s : MSeq) (o : BuildOpts) (t' : Tables) (g' : MGraph)
    (data : List (Int × List Note)) (m : Nat)
    (h : buildSequence env t s o none = .ok (t', g'))
    (hd : computeData env s o.tol o.filterSingle true = .ok (data, m)) :
    (∀ u v, (u, v) ∈ transitions (visited env o.size.toNat data) →
      g'.hasEdge u v = true ∨ g'.hasEdge v u = true) ∧
    (∀ u v, g'.hasEdge u v = true → (u, v) ∈ transitions (visited env o.size.toNat data) ∨
      (u = v ∧ (visited env o.size.toNat data).head? = some u)) ∧
    (∀ u v, u ≠ v → g'.hasEdge u v = true → g'.hasEdge v u = false) := by
  obtain ⟨⟨last, inv⟩, _⟩ := build_inv env t s o t' g' data m h hd
  have key : ∀ u v, g'.hasEdge u v = true ↔ ∃ w, dget g'.edges (u, v) = some w := by
    intro u v
    unfold DiGraph.hasEdge dhas
    exact Option.isSome_iff_exists
  refine ⟨?_, ?_, ?_⟩
  · intro u v huv
    rw [key, key]
    exact inv.covered u v huv
  · intro u v huv
    obtain ⟨w, hw⟩ := (key u v).1 huv
    exact inv.justified u v w hw
  · intro u v hne huv
    by_contra hc
    rw [Bool.not_eq_false] at hc
    obtain ⟨w, hw⟩ := (key u v).1 huv
    obtain ⟨w', hw'⟩ := (key v u).1 hc
    exact hne (inv.anti u v w w' hw hw')

/-- C48 is false for the playing order: the groups are visited in the order of the hashes of their
times. Notes 0, 1, 2 played at 0, 0.5 and 1 second are visited as 0, 2, 1: the graph joins note 0 to
note 2 and has no edge between notes 0 and 1. -/
theorem C48_playing_order_lost :
    (buildSequence exEnv Tables.empty exMelody {} none).map (fun r =>
      (r.2.hasEdge 1 4, r.2.hasEdge 1 2, r.2.hasEdge 2 1)) = .ok (true, false, false) := by
  decide +kernel

end NGC
