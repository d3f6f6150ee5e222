import Verif.PyDict
import Verif.Seq
import Mathlib.Data.Finset.Card

/-!
Model of `neural_graph_composer/midi_graph_builder.py`.

Left out: logging, warnings, `from_file`, plotting, the tensor packing inside
`from_midi_networkx` (grouping of attributes into torch tensors), the `mapping` and `node_weights`
dictionaries (written, never read). Tensors are lists of rationals. `networkx` and numpy functions
are modelled by their documented meaning.
-/

namespace NGC

/-- What the interpreter decides: `hash` of a number and of a frozenset of pitches, the iteration
order of a frozenset, and `librosa.midi_to_note`. -/
structure PyEnv where
  hashTime : ℚ → Int
  hashSet : Finset Int → Int
  iter : Finset Int → List Int
  noteName : Int → String

/-- Iterating over a set yields each member once. -/
def PyEnv.IterOk (env : PyEnv) : Prop := ∀ s, (env.iter s).Nodup ∧ ∀ x, x ∈ env.iter s ↔ x ∈ s

/-! ### Velocities (lines 601-666) -/

/-- `np.clip(x, lo, hi)`. -/
def clipQ (lo hi x : ℚ) : ℚ := min hi (max lo x)

/-- `rescale_velocities` (midi_graph_builder.py 601-639). The integer results of the second branch
are given as rationals; `np.min` of an empty array raises ValueError. -/
def rescaleVelocities (vs : List ℚ) (tmin : ℚ := 32) (tmax : ℚ := 127) : Py (List ℚ) :=
  match vs with
  | [] => .error .value
  | [v] => .ok [clipQ tmin tmax ((roundHE (v * (tmax - tmin) / 127 + tmin) : Int) : ℚ)]
  | v :: rest =>
    let lo := rest.foldl min v
    let hi := rest.foldl max v
    let den := hi - lo
    let scaled := if den ≤ 0 then vs.map (fun _ => tmin)
      else vs.map (fun x => (x - lo) * (tmax - tmin) / den + tmin)
    .ok (scaled.map (fun x => ((pyInt (clipQ 0 127 x) : Int) : ℚ)))

/-- `np.mean`. -/
def mean (vs : List ℚ) : ℚ := vs.sum / vs.length

/-- `scale_relative_velocities` (midi_graph_builder.py 642-666). With a zero mean numpy yields nan
(0/0) or inf and the cast to int is platform dependent: not modelled, `none`. -/
def scaleRelative (vs : List ℚ) (factor : ℚ) : Option (List ℚ) :=
  if mean vs = 0 then none
  else some (vs.map (fun v => ((pyInt (clipQ 0 127 (v / mean vs * factor * mean vs)) : Int) : ℚ)))

/-! ### Grouping (lines 580-749) -/

/-- `same_start_time` (midi_graph_builder.py 580-587). -/
def sameStartTime (n : Note) (tol : ℚ) : Bool := decide (|n.start - n.start| < tol)

/-- `np.diff`. -/
def diffs : List ℚ → List ℚ
  | a :: b :: rest => (b - a) :: diffs (b :: rest)
  | _ => []

/-- `instrument_time_differences` (midi_graph_builder.py 590-598). -/
def timeDifferences (s : MSeq) : List ℚ :=
  diffs (sortByKey id ((s.notes.filter (fun _ => !s.instr.isDrum && decide (0 < s.notes.length))).map
    Note.start))

/-- `np.percentile(l, q)` with linear interpolation, `l` not empty (0 otherwise). -/
def percentile (l : List ℚ) (q : ℚ) : ℚ :=
  let s := sortByKey id l
  let pos := q / 100 * ((l.length : ℚ) - 1)
  let i := ⌊pos⌋.toNat
  let a := s.getD i 0
  let b := s.getD (i + 1) a
  a + (b - a) * (pos - i)

/-- `compute_tolerance` (midi_graph_builder.py 669-693). -/
def computeTolerance (s : MSeq) (q : ℚ := 95) : ℚ :=
  let d := timeDifferences s
  if d.length < 2 then 0 else percentile d q

/-- The time key of a note before hashing (midi_graph_builder.py 727-732). -/
def adjTime (tol : ℚ) (auto : Bool) (t : ℚ) : ℚ :=
  if tol = 0 then t
  else if auto then around2 ((roundHE (t / tol) : ℚ) * tol)
  else around2 (t / tol) * tol

/-- The notes that are not skipped (midi_graph_builder.py 722). -/
def eligible (n : Note) : Bool := !n.isDrum && decide (n.velocity ≠ 0)

/-- One round of the loop of `compute_data` (midi_graph_builder.py 720-743) on the dictionary and
the running maximum. -/
def groupStep (env : PyEnv) (tol : ℚ) (auto : Bool) (st : List (Int × List Note) × Nat) (n : Note) :
    Py (List (Int × List Note) × Nat) :=
  if eligible n then
    if n.start < 0 then .error .assertion
    else if adjTime tol auto n.start < 0 then .error .assertion
    else
      let k := env.hashTime (adjTime tol auto n.start)
      let old := (dget st.1 k).getD []
      let d := dset st.1 k (old ++ [n])
      .ok (d, max st.2 (old.length + 1))
  else .ok st

/-- `compute_data` (midi_graph_builder.py 696-749). -/
def computeData (env : PyEnv) (s : MSeq) (tol : ℚ) (filterSingle auto : Bool) :
    Py (List (Int × List Note) × Nat) := do
  let tol' := if auto then computeTolerance s else tol
  let r ← s.notes.foldlM (groupStep env tol' auto) ([], 0)
  .ok (if filterSingle then r.1.filter (fun p => decide (1 < p.2.length)) else r.1, r.2)

/-! ### Feature vectors (lines 752-845) -/

/-- `NodeAttributeType` (midi_graph_builder.py 45-49). -/
inductive AttrType where
  | tensor | oneHot
  deriving DecidableEq

/-- A torch tensor of rank 1 or 2. -/
inductive Tens where
  | vec (l : List ℚ)
  | mat (rows : List (List ℚ))
  deriving DecidableEq

/-- `torch.zeros(size)` with a prefix assigned. -/
def padTo (size : Nat) (l : List ℚ) : List ℚ := l ++ List.replicate (size - l.length) 0

/-- One row of `torch.nn.functional.one_hot`. -/
def oneHotRow (classes : Nat) (p : Int) : List ℚ :=
  (List.range classes).map (fun i : Nat => if (i : Int) = p then 1 else 0)

/-- `torch.nn.functional.one_hot`: RuntimeError on a negative or too large class. -/
def oneHot (classes : Nat) (ps : List Int) : Py (List (List ℚ)) :=
  if ps.all (fun p => decide (0 ≤ p) && decide (p < classes)) then .ok (ps.map (oneHotRow classes))
  else .error .runtime

/-- `create_tensor` (midi_graph_builder.py 752-845) on `list(pitch_set)`. -/
def createTensor (ty : AttrType) (pitches : List Int) (vel : Option (List ℚ)) (size : Nat)
    (classes : Nat) : Py Tens :=
  match ty with
  | .tensor =>
    let p := (pitches.map (fun x : Int => (x : ℚ))).take size
    match vel with
    | none => .ok (.vec (padTo size p))
    | some v =>
      if size < v.length then .error .runtime
      else if !(padTo size p).all (fun x => decide (0 ≤ x)) then .error .assertion
      else if !(padTo size v).all (fun x => decide (0 ≤ x)) then .error .assertion
      else .ok (.mat [padTo size p, padTo size v])
  | .oneHot => do
    let rows ← oneHot classes pitches
    match vel with
    | none => .ok (.mat rows)
    | some v =>
      if v.length ≠ rows.length then .error .runtime
      else .ok (.mat (List.zipWith (fun r x => r ++ [x]) rows v))

/-! ### Directed graphs (networkx) -/

/-- `nx.DiGraph`: nodes with attributes in insertion order, and edges with an attribute. -/
structure DiGraph (A E : Type) where
  nodes : List (Int × A)
  edges : List ((Int × Int) × E)

namespace DiGraph
variable {A E : Type}

/-- `nx.DiGraph()`. -/
def empty : DiGraph A E := ⟨[], []⟩

/-- `g.has_edge(u, v)`. -/
def hasEdge (g : DiGraph A E) (u v : Int) : Bool := dhas g.edges (u, v)

/-- `g.add_node(n, **attrs)` with a full set of attributes: overwrites them. -/
def addNode (g : DiGraph A E) (n : Int) (a : A) : DiGraph A E := { g with nodes := dset g.nodes n a }

/-- `g.add_node(n)` without attributes. -/
def touch (g : DiGraph A E) (dflt : A) (n : Int) : DiGraph A E :=
  if dhas g.nodes n then g else { g with nodes := g.nodes ++ [(n, dflt)] }

/-- `g.add_edge(u, v, **attr)`: missing end points are created with the attributes `dflt`. -/
def addEdge (g : DiGraph A E) (dflt : A) (u v : Int) (e : E) : DiGraph A E :=
  let g1 := (g.touch dflt u).touch dflt v
  { g1 with edges := dset g1.edges (u, v) e }

/-- `g.remove_node(n)`: NetworkXError (a ValueError here) if missing. -/
def removeNode (g : DiGraph A E) (n : Int) : Py (DiGraph A E) :=
  if dhas g.nodes n then
    .ok { nodes := g.nodes.filter (fun p => decide (p.1 ≠ n)),
          edges := g.edges.filter (fun p => decide (p.1.1 ≠ n) && decide (p.1.2 ≠ n)) }
  else .error .value

/-- `list(g.neighbors(n))` (successors): NetworkXError (a ValueError here) if missing. -/
def neighbors (g : DiGraph A E) (n : Int) : Py (List Int) :=
  if dhas g.nodes n then .ok ((g.edges.filter (fun p => decide (p.1.1 = n))).map (·.1.2))
  else .error .value

/-- `list(g.edges)`: grouped by source in node order. -/
def edgeList (g : DiGraph A E) : List ((Int × Int) × E) :=
  g.nodes.flatMap (fun p => g.edges.filter (fun e => decide (e.1.1 = p.1)))

end DiGraph

/-- The inner loop of `merge_nodes` over the neighbours of one node (midi_graph_builder.py
426-428). The new node exists already and has attributes `a`. -/
def mergeFrom {A E : Type} (nodes : List Int) (new node : Int) (a : A) (g : DiGraph A E)
    (nbrs : List Int) : DiGraph A E :=
  nbrs.foldl (fun g v =>
    if v ∈ nodes then g
    else match dget g.edges (node, v) with
      | some e => g.addEdge a new v e
      | none => g) g

/-- The outer loop of `merge_nodes` (midi_graph_builder.py 425-428). -/
def mergeLoop {A E : Type} (nodes : List Int) (new : Int) (a : A) (todo : List Int)
    (g : DiGraph A E) : Py (DiGraph A E) :=
  todo.foldlM (fun g n => do
    let nb ← g.neighbors n
    .ok (mergeFrom nodes new n a g nb)) g

/-- `merge_nodes` (midi_graph_builder.py 412-434), with `merged` the attributes of the new node. -/
def mergeNodes {A E : Type} (g : DiGraph A E) (nodes : List Int) (merged : A) :
    Py (DiGraph A E × Int) :=
  match dkeys g.nodes with
  | [] => .error .value
  | n :: ns => do
    let new := ns.foldl max n + 1
    let g1 ← mergeLoop nodes new merged nodes (g.addNode new merged)
    let g2 ← nodes.foldlM (fun g n => g.removeNode n) g1
    .ok (g2, new)

/-- `is_connected(graph, u, v)` on node hashes (midi_graph_builder.py 359-394). -/
def isConnected {A E : Type} (g : DiGraph A E) (u v : Int) : Py Bool := do
  let nb ← g.neighbors v
  .ok (decide (u ∈ nb))

/-- `get_edge_connected` on node hashes (midi_graph_builder.py 397-409). -/
def edgeConnected {A E : Type} (g : DiGraph A E) (u v : Int) : Option (Int × Int) :=
  if dhas g.nodes u && dhas g.nodes v then
    if g.hasEdge u v then some (u, v) else none
  else none

/-! ### Building (lines 847-1077) -/

/-- The `label` attribute of a node: the first node of a graph gets its hash, the others the set of
note names of the whole group (midi_graph_builder.py 1051-1054, 1068). -/
inductive Label where
  | hash (h : Int)
  | names (s : Finset String)
  deriving DecidableEq

/-- Attributes of a node. `none` in an attribute means the attribute is missing (a node that was
only created by `add_edge`). -/
structure NodeAttr where
  attr : Option Tens
  label : Option Label
  nodeHash : Option Int
  deriving DecidableEq

/-- No attributes. -/
def NodeAttr.none : NodeAttr := ⟨Option.none, Option.none, Option.none⟩

abbrev MGraph := DiGraph NodeAttr ℚ

/-- The tables of a builder (midi_graph_builder.py 137-140). -/
structure Tables where
  notesToHash : List (Finset Int × Int)
  hashToNotes : List (Int × Finset Int)
  hashToIndex : List (Int × Nat)
  indexToHash : List (Nat × Int)

/-- A fresh builder. -/
def Tables.empty : Tables := ⟨[], [], [], []⟩

/-- Registering a chord (midi_graph_builder.py 1023-1034). The first test asks whether an integer is
a key of a dictionary whose keys are frozensets: it never is, so the entry is always written. -/
def Tables.register (t : Tables) (env : PyEnv) (chord : Finset Int) : Tables :=
  let h := env.hashSet chord
  let t1 := { t with notesToHash := dset t.notesToHash chord h
                     hashToNotes := dset t.hashToNotes h chord }
  if dhas t1.hashToIndex h then t1
  else
    let n := t1.hashToNotes.length
    { t1 with hashToIndex := dset t1.hashToIndex h n, indexToHash := dset t1.indexToHash n h }

/-- The weight/node update for one chord (midi_graph_builder.py 1050-1071). -/
def linkChord (g : MGraph) (last : Option Int) (h : Int) (attr : Tens) (names : Finset String) :
    MGraph :=
  match last with
  | none => (g.addNode h ⟨some attr, some (.hash h), some h⟩).addEdge .none h h 1
  | some l =>
    match dget g.edges (h, l) with
    | some w => { g with edges := dset g.edges (h, l) (w + 1) }
    | none =>
      match dget g.edges (l, h) with
      | some w => { g with edges := dset g.edges (l, h) (w + 1) }
      | none => (g.addNode h ⟨some attr, some (.names names), some h⟩).addEdge .none l h 1

/-- `itertools.islice` loop (midi_graph_builder.py 993-1000): consecutive runs of `size` elements.
The first argument is fuel, the number of elements suffices. -/
def chunksGo (size : Nat) : Nat → List Int → List (List Int)
  | 0, _ => []
  | fuel + 1, l => if l = [] then [] else l.take size :: chunksGo size fuel (l.drop size)

/-- The sub groups of a group of notes (midi_graph_builder.py 991-1002). -/
def subGroups (env : PyEnv) (size : Nat) (notes : List Note) : List (Finset Int) :=
  let pg := (notes.map Note.pitch).toFinset
  if size < pg.card then
    (chunksGo size (env.iter pg).length (env.iter pg)).map List.toFinset
  else [pg]

/-- Velocities of a sub group (midi_graph_builder.py 1009-1018): the loudest note of each pitch.
Every pitch of a sub group occurs in the notes, so the `KeyError` of the lookup cannot happen; the
maximum of an empty list is given as 0. -/
def groupVelocities (env : PyEnv) (notes : List Note) (chord : Finset Int) : List ℚ :=
  (env.iter chord).map (fun p =>
    maxDefault 0 ((notes.filter (fun n => decide (n.pitch = p))).map (fun n => (n.velocity : ℚ))))

/-- Options of `build_sequence` (midi_graph_builder.py 847-856). -/
structure BuildOpts where
  size : Int := 12
  buckets : Int := 8
  ty : AttrType := .tensor
  filterSingle : Bool := false
  tol : ℚ := 1/5
  velocity : Bool := false

/-- State of the main loop. -/
structure BState where
  tables : Tables
  graph : MGraph
  last : Option Int

/-- One sub group (midi_graph_builder.py 1004-1071). -/
def chordStep (env : PyEnv) (o : BuildOpts) (notes : List Note) (st : BState) (chord : Finset Int) :
    Py BState := do
  let vel ← if o.velocity then (rescaleVelocities (groupVelocities env notes chord)).map some
            else .ok none
  let x ← createTensor o.ty (env.iter chord) vel o.size.toNat 127
  .ok { tables := st.tables.register env chord
        graph := linkChord st.graph st.last (env.hashSet chord) x
          ((notes.map (fun n => env.noteName n.pitch)).toFinset)
        last := some (env.hashSet chord) }

/-- The main loop over time keys in sorted order (midi_graph_builder.py 983-1071). -/
def buildLoop (env : PyEnv) (o : BuildOpts) (groups : List (List Note)) (st : BState) : Py BState :=
  groups.foldlM (fun st notes => (subGroups env o.size.toNat notes).foldlM (chordStep env o notes) st) st

/-- The groups in the order in which the main loop visits them: sorted by hash of the time
(midi_graph_builder.py 960-961, 983-986). -/
def orderedGroups (data : List (Int × List Note)) : List (List Note) :=
  (sortByKey (fun p : Int × List Note => (p.1 : ℚ)) data).map (·.2)

/-- Argument checks (midi_graph_builder.py 933-948; types are right in the model). -/
def BuildOpts.ok (o : BuildOpts) : Bool :=
  decide (0 < o.size) && decide (o.size ≤ 128) && decide (0 < o.buckets) &&
    decide (0 ≤ o.tol) && decide (o.tol ≤ 1)

/-- `build_sequence` (midi_graph_builder.py 847-1077). -/
def buildSequence (env : PyEnv) (t : Tables) (s : MSeq) (o : BuildOpts) (g : Option MGraph) :
    Py (Tables × MGraph) :=
  if !o.ok then .error .value
  else do
    let (data, _) ← computeData env s o.tol o.filterSingle true
    if data = [] then .ok (t, g.getD DiGraph.empty)
    else
      let last ← match g with
        | none => .ok none
        | some g => match (dkeys g.nodes).getLast? with
          | none => .error .index
          | some l => .ok (some l)
      let st ← buildLoop env o (orderedGroups data) ⟨t, g.getD DiGraph.empty, last⟩
      .ok (st.tables, st.graph)

/-! ### Conversion and iteration (lines 222-335, 470-577, 1115-1166) -/

/-- The parts of a PyG `Data` object that are modelled. -/
structure PygData where
  nodeHash : List Int
  attrs : List Tens
  edgeIndex : List (Nat × Nat)
  weight : List ℚ
  label : Option (List Nat) := none
  y : Option (List Nat) := none
  deriving DecidableEq

/-- A required attribute (midi_graph_builder.py 271-272): ValueError when it is missing. -/
def needAttr {α : Type} : Option α → Py α
  | some a => .ok a
  | none => .error .value

/-- `from_midi_networkx` (midi_graph_builder.py 222-335): nodes are relabelled by their position.
Every node of a built graph has the three attributes; otherwise ValueError. -/
def fromNetworkx (g : MGraph) : Py PygData := do
  let nh ← g.nodes.mapM (fun p => needAttr p.2.nodeHash)
  let at' ← g.nodes.mapM (fun p => needAttr p.2.attr)
  .ok { nodeHash := nh
        attrs := at'
        edgeIndex := g.edgeList.map (fun e =>
          ((dkeys g.nodes).idxOf e.1.1, (dkeys g.nodes).idxOf e.1.2))
        weight := g.edgeList.map (·.2) }

/-- The state of a builder that `build` and `graphs` change. -/
structure Builder where
  tables : Tables
  pyg : List PygData
  sub : List MGraph

/-- One track of `build` (midi_graph_builder.py 516-567). -/
def buildTrack (env : PyEnv) (o : BuildOpts) (perInstr : Bool) (st : Builder × Option MGraph)
    (s : MSeq) : Py (Builder × Option MGraph) :=
  if s.instr.isDrum then .ok st
  else if s.notes.length = 1 then .ok st
  else do
    let (t, g) ← buildSequence env st.1.tables s o (if perInstr then none else st.2)
    let b := { st.1 with tables := t }
    if g.nodes = [] then .ok (b, st.2)
    else if g.nodes.any (fun p => p.2.attr.isNone || p.2.nodeHash.isNone) then .error .value
    else if perInstr then do
      let d ← fromNetworkx g
      .ok ({ b with pyg := b.pyg ++ [d], sub := b.sub ++ [g] }, st.2)
    else .ok (b, some g)

/-- `build` (midi_graph_builder.py 470-577) over the tracks in iteration order.
`nx.compose(large, g)` is `g`, because `g` was built on top of `large` (line 560). -/
def build (env : PyEnv) (b : Builder) (tracks : List MSeq) (o : BuildOpts) (perInstr : Bool := true) :
    Py Builder := do
  let (b1, large) ← tracks.foldlM (buildTrack env o perInstr) (b, none)
  match large with
  | some g =>
    if perInstr then .ok b1
    else do
      let d ← fromNetworkx g
      .ok { b1 with pyg := b1.pyg ++ [d], sub := b1.sub ++ [g] }
  | none => .ok b1

/-- The labelling of one yielded graph (midi_graph_builder.py 1133-1137, 1158-1159). -/
def labelGraph (t : Tables) (skip : Bool) (g : PygData) : Py PygData := do
  let idx ← g.nodeHash.mapM (fun h => match dget t.hashToIndex h with
    | some i => .ok i
    | none => .error .key)
  .ok { g with label := if skip then none else some idx, y := some idx }

/-- The loop of `graphs()` over the live list (midi_graph_builder.py 1132-1166): position `i`, the
list is emptied after each yield. The first argument is fuel: the list shrinks to nothing after one
round. -/
def graphsLoop (t : Tables) (skip : Bool) : Nat → Nat → List PygData → Py (List PygData × List PygData)
  | 0, _, live => .ok ([], live)
  | fuel + 1, i, live =>
    match live[i]? with
    | none => .ok ([], live)
    | some g => do
      let g' ← labelGraph t skip g
      let r ← graphsLoop t skip fuel (i + 1) []
      .ok (g' :: r.1, r.2)

/-- `list(builder.graphs(skip_label))` (midi_graph_builder.py 1115-1166): what is yielded, and the
builder afterwards. -/
def graphs (b : Builder) (skip : Bool := false) : Py (List PygData × Builder) :=
  if b.tables.hashToNotes = [] then .error .value
  else do
    let r ← graphsLoop b.tables skip b.pyg.length 0 b.pyg
    .ok (r.1, { b with pyg := r.2, sub := if b.pyg = [] then b.sub else [] })

end NGC
