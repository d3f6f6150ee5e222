import Verif.Graph
import Verif.Sequences

/-!
Model of the rest of `midi_graph_builder.py`: the constructor and its settings, the factory methods, neighbour queries, `connect_instruments` and the
self-check of `graphs`.
-/

namespace NGC

/-! ### Queries -/

/-- The argument of `neighbors`: a list of notes or a list of pitches (lists that mix both are left out). -/
inductive ChordArg where
  | notes (l : List Note)
  | pitches (l : List Int)

/-- `neighbors(midi_graph, u)` (midi_graph_builder.py 338-356): for an empty list the node looked up is 0. -/
def neighborsOf {A E : Type} (env : PyEnv) (g : DiGraph A E) (u : ChordArg) : Py (List Int) :=
  match u with
  | .notes [] => g.neighbors 0
  | .pitches [] => g.neighbors 0
  | .notes l => g.neighbors (env.hashSet (l.map (·.pitch)).toFinset)
  | .pitches l => g.neighbors (env.hashSet l.toFinset)

/-- `connect_instruments(graph, midi_seqs)` (midi_graph_builder.py 437-468) on a graph whose nodes have the attributes that this code base gives them: the first node asked
for its `start_time` ends the call with KeyError. -/
def connectInstruments (g : MGraph) : Py MGraph :=
  if g.nodes = [] then .ok g else .error .key

/-! ### The builder object -/

/-- The settings given to the constructor (midi_graph_builder.py 74-82). -/
structure Settings where
  perInstr : Bool := true
  size : Option Int := some 12
  velocity : Bool := false
  tol : ℚ := 1/5
  ty : AttrType := .tensor

/-- The `midi_data` argument. -/
inductive MidiArg where
  | none
  | seq (s : MSeq)
  | seqs (t : Tracks MSeq)
  | other

/-- A builder object: its settings, the song it was made for and the state that `build` changes. -/
structure GBuilder where
  settings : Settings
  midi : Option (Tracks MSeq)
  state : Builder

/-- The checks of the `midi_data` argument (midi_graph_builder.py 100-107). -/
def midiOf (srt : List Note → List Note) : MidiArg → Py (Option (Tracks MSeq))
  | .none => .ok Option.none
  | .seq s => (Tracks.ofSeqs srt [s]).map some
  | .seqs t => .ok (some t)
  | .other => .error .type

/-- `MidiGraphBuilder(midi_data, …)` (midi_graph_builder.py 74-143). -/
def GBuilder.new (srt : List Note → List Note) (m : MidiArg) (s : Settings) : Py GBuilder := do
  let midi ← midiOf srt m
  if s.tol < 0 then .error .value
  else match s.size with
    | Option.none => .ok ⟨s, midi, ⟨Tables.empty, [], []⟩⟩
    | some k => if 0 < k ∧ k ≤ 127 then .ok ⟨s, midi, ⟨Tables.empty, [], []⟩⟩ else .error .value

/-- `from_midi_sequence(seq, feature_size, is_include_velocity)` (midi_graph_builder.py 171-192): the last argument becomes `is_instrument_graph`. -/
def GBuilder.fromSequence (srt : List Note → List Note) (s : MSeq) (size : Option Int) (vel : Bool) : Py GBuilder :=
  if s.notes = [] then .error .value
  else do
    let t ← Tracks.ofSeqs srt [s]
    GBuilder.new srt (.seqs t) { size := size, perInstr := vel }

/-- `from_midi_sequences(seqs)` (midi_graph_builder.py 211-219). -/
def GBuilder.fromSequences (srt : List Note → List Note) (m : MidiArg) : Py GBuilder :=
  match m with
  | .seqs t => GBuilder.new srt (.seqs t) {}
  | _ => .error .type

/-- `build(midi_seqs, …)` (midi_graph_builder.py 501-513): the song is the argument or, without one, that of the constructor. Everything else comes from the arguments of the
call, whose defaults are those of `BuildOpts` and `perInstr := true` (471-480). -/
def GBuilder.build (env : PyEnv) (gb : GBuilder) (arg : Option (Tracks MSeq)) (o : BuildOpts := {}) (perInstr : Bool := true) : Py GBuilder :=
  match arg.or gb.midi with
  | none => .error .value
  | some t => do
    let tracks ← t.allSeqs
    let b ← NGC.build env gb.state tracks o perInstr
    .ok { gb with state := b }

/-! ### The self-check -/

/-- The first graph of `graphs(is_sanity_check=True)` (midi_graph_builder.py 1125-1145): after the labels are set, `label.item()` is called on the elements of a list of
integers. Returns the first graph yielded; a graph without nodes passes. -/
def graphsChecked (b : Builder) : Py (Option PygData) :=
  if b.tables.hashToNotes = [] then .error .value
  else if ¬ ∀ p ∈ b.tables.hashToNotes, dhas b.tables.hashToIndex p.1 = true then .error .assertion
  else match b.pyg with
    | [] => .ok none
    | g :: _ => do
      let g' ← labelGraph b.tables false g
      if g'.label = some [] then .ok (some g') else .error .attribute

end NGC
