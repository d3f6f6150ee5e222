import Verif.GraphExtra
import Verif.Dataset

/-!
Model of the processing of a `MidiDataset` from the raw files to the graphs and tables it saves: the
two loops over the raw files (`_mask_per_instrument`, `_mask_entire_graph`) with ONE graph builder for
all files, `process`. In `Dataset` what a raw file produces is a parameter; here it is what the builder
of `Graph` produces.

Left out: `pre_transform` (it is applied once to each finished graph), `is_sanity_check` (see C138, C194),
printing, counting of instruments.
-/

namespace NGC

/-- The settings of a dataset that the loops use (midi_dataset.py 50-70, 186-240). -/
structure DataOpts where
  build : BuildOpts := {}
  train : ℚ := 7/10
  val : ℚ := 15/100
  split : Bool := true
  skipLabel : Bool := true

/-- A graph of a dataset with its train, validation and test mask. -/
structure MaskedData where
  graph : PygData
  masks : Option (List Bool × List Bool × List Bool)
  deriving DecidableEq

/-- `pre_filter`, the masks and `append` for one graph (midi_dataset.py 484-511, 633-662). `rnd k n` is what
`np.random.permutation(n)` returns for the k-th graph kept. -/
def addMasked (o : DataOpts) (keep : PygData → Bool) (rnd : Nat → Nat → List Nat) (l : List MaskedData) (g : PygData) : List MaskedData :=
  if keep g then
    l ++ [⟨g, if o.split then some (splitMasks o.train o.val g.attrs.length (rnd l.length g.attrs.length)) else none⟩]
  else l

/-- One raw file of `_mask_per_instrument` (midi_dataset.py 460-513). `file` is what `MidiReader.read` does: the
tracks in order of their number, or an exception. A KeyError skips the file; `build` and `graphs` raise none
(`build_no_key`, `graphs_no_key` in `PipelineProps`), so only reading is guarded here. -/
def instFile (env : PyEnv) (o : DataOpts) (keep : PygData → Bool) (rnd : Nat → Nat → List Nat) (st : Builder × List MaskedData) :
    Py (List MSeq) → Py (Builder × List MaskedData)
  | .error .key => .ok st
  | .error e => .error e
  | .ok tracks => do
    let b ← build env st.1 tracks o.build true
    let r ← graphs b o.skipLabel
    .ok (r.2, r.1.foldl (addMasked o keep rnd) st.2)

/-- `_mask_per_instrument` (midi_dataset.py 451-513). -/
def instPass (env : PyEnv) (o : DataOpts) (keep : PygData → Bool) (rnd : Nat → Nat → List Nat) (files : List (Py (List MSeq)))
    (st : Builder × List MaskedData) : Py (Builder × List MaskedData) :=
  files.foldlM (instFile env o keep rnd) st

/-- `next(builder.graphs())` (midi_graph_builder.py 1115-1166): the generator is left at its `yield`, so the
lists of the builder are not emptied. -/
def nextGraph (b : Builder) : Py PygData :=
  if b.tables.hashToNotes = [] then .error .value
  else match b.pyg with
    | [] => .error .stopIteration
    | g :: _ => labelGraph b.tables false g

/-- One raw file of `_mask_entire_graph` (midi_dataset.py 610-670). The builder keeps its graphs, so from the
second file on the graph taken is again that of the first. -/
def wholeFile (env : PyEnv) (o : DataOpts) (keep : PygData → Bool) (rnd : Nat → Nat → List Nat) (st : Builder × List MaskedData) :
    Py (List MSeq) → Py (Builder × List MaskedData)
  | .error .key => .ok st
  | .error .fileNotFound => .ok st
  | .error e => .error e
  | .ok tracks => do
    let b ← build env st.1 tracks o.build false
    let g ← nextGraph b
    .ok (b, addMasked o keep rnd st.2 g)

/-- `_mask_entire_graph` (midi_dataset.py 610-670). -/
def wholePass (env : PyEnv) (o : DataOpts) (keep : PygData → Bool) (rnd : Nat → Nat → List Nat) (files : List (Py (List MSeq)))
    (st : Builder × List MaskedData) : Py (Builder × List MaskedData) :=
  files.foldlM (wholeFile env o keep rnd) st

/-- What `process` saves in one file. -/
structure SavedSet where
  data : List MaskedData
  tables : Tables

/-- `process` without files on disk (midi_dataset.py 540-608): the contents of the per-instrument file and of the
other file. `collate` of an empty list raises IndexError. The second file gets the graphs of the first pass. -/
def processFiles (env : PyEnv) (o : DataOpts) (keep : PygData → Bool) (rnd rnd2 : Nat → Nat → List Nat) (files : List (Py (List MSeq))) :
    Py (SavedSet × SavedSet) := do
  let r1 ← instPass env o keep rnd files (⟨Tables.empty, [], []⟩, [])
  if r1.2 = [] then .error .index
  else do
    let r2 ← wholePass env o keep rnd2 files (r1.1, [])
    .ok (⟨r1.2, r1.1.tables⟩, ⟨r1.2, r2.1.tables⟩)

/-- `total_num_classes` after loading (midi_dataset.py 406-410, 317-318). -/
def SavedSet.totalClasses (s : SavedSet) : Nat := s.tables.indexToHash.length

end NGC
