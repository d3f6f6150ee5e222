import Verif.Sequences
import Verif.PrettyMidi

/-!
Model of `midi_reader.py` (`MidiReader`): building a `MidiNoteSequences` from a loaded
`CustomPrettyMIDI` object, and the way back.

Left out: logging and printing, `filename`, the choice of path / bytes / mido argument in `read`
(230-250; all three end in a `CustomPrettyMIDI` object, see `PM.fromFile`), the final
`pretty_midi.PrettyMIDI.write` of the library. `MidiReaderError` is shown as `Err.runtime`.
-/

namespace NGC

/-- A `MidiNoteSequences` object (midi_sequences.py 105-173): tracks, total time and the three
signature lists. -/
structure Song where
  tracks : Tracks MSeq
  total : ℚ
  keys : List KeySig
  tempos : List TempoSig
  times : List TimeSig
  resolution : Int

/-- `MidiNoteSequences(resolution=r)` (midi_sequences.py 118-166): no track, one default signature
of each kind at time 0. -/
def Song.new (resolution : Int) : Song :=
  { tracks := Tracks.empty
    total := 0
    keys := [{ time := 0, key := 0, mode := .major }]
    tempos := [{ time := 0, qpm := 120, resolution := 480 }]
    times := [{ time := 0, numer := 4, denom := 4 }]
    resolution := resolution }

/-! ### Reading -/

/-- One round of `read_key_signature` (midi_reader.py 80-85). -/
def readKey (l : List KeySig) (p : Nat × ℚ) : Py (List KeySig) := do
  let s ← KeySig.mk? p.2 ((p.1 % 12 : Nat) : Int) ((p.1 / 12 : Nat) : Int)
  addSig l s

/-- One round of `read_tempo_changes` (midi_reader.py 65-70). -/
def readTempo (res : Nat) (l : List TempoSig) (p : ℚ × ℚ) : Py (List TempoSig) := do
  let s ← TempoSig.mk? (some p.1) (some p.2) (some (res : Int))
  addSig l s

/-- One round of `read_time_signature` (midi_reader.py 97-113): a ValueError becomes a
MidiReaderError. -/
def readTime (l : List TimeSig) (p : Int × Int × ℚ) : Py (List TimeSig) :=
  match (do let s ← TimeSig.mk? p.2.2 p.1 p.2.1; addSig l s) with
  | .error .value => .error .runtime
  | r => r

/-- The sequence `create_track` makes for an instrument (midi_sequences.py 729-739). The family
table is only used for an empty name. -/
def newTrack (resolution : Int) (i : PInst) : Py MSeq := do
  let info ← InstrumentInfo.mk? gmTable (i.program : Int) i.name i.isDrum
  .ok (MSeq.mk' [] info resolution)

/-- `midi_seq.create_track(i, ...)` as called by the reader (midi_reader.py 150, 191, 212). The new
sequence is built even when it is not needed; its constructor accepts every program that
`create_track` accepts. -/
def Song.createTrack (s : Song) (k : Nat) (i : PInst) : Py (Int × Song) :=
  if ¬ ((i.program : Int) < 128) then .error .value
  else do
    let fresh ← newTrack s.resolution i
    let r ← s.tracks.createTrack fresh (k : Int) (i.program : Int)
    .ok (r.1, { s with tracks := r.2 })

/-- The track `midi_seq[id]` makes for an unknown index (midi_sequences.py 212-222). -/
def Song.defaultTrack (s : Song) (id : Int) : MSeq :=
  MSeq.mk' [] { num := id, name := "Instrument 0", isDrum := false } s.resolution

/-- `f` applied in place to the track object `midi_seq[seq_id]` (midi_sequences.py 190-228). -/
def Song.modifyItem (s : Song) (id : Int) (f : MSeq → Py MSeq) : Py Song := do
  let r ← s.tracks.getItem (s.defaultTrack id) id
  let j ← r.2.toIdx.getItem id
  let v ← f r.1
  .ok { s with tracks := { r.2 with seqs := r.2.seqs.replace j v } }

/-- `f` applied in place to the object handed out by `get_track` (midi_reader.py 275-276). -/
def Song.modifyTrack (s : Song) (id : Int) (i : PInst) (f : MSeq → Py MSeq) : Py Song := do
  let fresh ← newTrack s.resolution i
  let r ← s.tracks.getTrack fresh id (i.program : Int)
  let v ← f r.1
  .ok { s with tracks := { r.2 with seqs := r.2.seqs.replace id v } }

/-- The `MidiNote` made for a note of the file (midi_reader.py 278-292). -/
def readNote (times : List TimeSig) (i : PInst) (n : PNote) : Py Note :=
  Note.mk?
    { pitch := n.pitch, start := n.start, stop := n.stop, program := i.program
      instrument := i.program, velocity := n.velocity, isDrum := i.isDrum
      numer := (timeSignature times n.start).1, denom := (timeSignature times n.start).2 }

/-- Whether the generator yields this note (midi_reader.py 157); `midi_seq[seq_id]` is only
evaluated when the total time is not zero. -/
def Song.wants (s : Song) (id : Int) (n : PNote) : Py Bool :=
  if s.total = 0 then .ok true
  else do
    let r ← s.tracks.getItem (s.defaultTrack id) id
    .ok (decide (n.stop ≥ r.1.total))

/-- What happens for one note: one round of `read_instrument` and, when it yields, the body of the
loop of `read` (midi_reader.py 151-164, 274-293). `math.isclose` has its default tolerances. -/
def Song.readNote (s : Song) (id : Int) (i : PInst) (n : PNote) : Py Song :=
  if isclose n.start n.stop (1/1000000000) 0 then .ok s
  else do
    let yes ← s.wants id n
    if yes then do
      let s := if n.stop ≥ s.total then { s with total := n.stop } else s
      let s ← s.modifyItem id (fun t => .ok (t.setTotal n.stop))
      s.modifyTrack id i (fun t => do
        let note ← NGC.readNote s.times i n
        t.addNote note)
    else .ok s

/-- One instrument of the note pass (midi_reader.py 148-164). -/
def Song.readInst (s : Song) (p : PInst × Nat) : Py Song := do
  let r ← s.createTrack p.2 p.1
  p.1.notes.foldlM (fun s n => s.readNote r.1 p.1 n) r.2

/-- One pitch bend (midi_reader.py 192-195, 295-306). `add_pitch_bends` appends
(midi_sequence.py 402-408). -/
def Song.readBend (s : Song) (id : Int) (k : Nat) (i : PInst) (b : Int × ℚ) : Py Song :=
  if s.total = 0 ∨ b.2 ≥ s.total then
    s.modifyTrack id i (fun t => do
      let pb ← PitchBend.mk? b.1 (some b.2) (i.program : Int) (k : Int) i.isDrum
      .ok { t with bends := t.bends ++ [pb] })
  else .ok s

/-- One instrument of the pitch bend pass (midi_reader.py 189-195). -/
def Song.readBends (s : Song) (p : PInst × Nat) : Py Song := do
  let r ← s.createTrack p.2 p.1
  p.1.bends.foldlM (fun s b => s.readBend r.1 p.2 p.1 b) r.2

/-- One control change (midi_reader.py 213-215, 308-320). `add_control_changes` appends
(midi_sequence.py 396-400). -/
def Song.readControl (s : Song) (id : Int) (k : Nat) (i : PInst) (c : Nat × Nat × ℚ) : Py Song :=
  if s.total = 0 ∨ c.2.2 ≥ s.total then
    s.modifyTrack id i (fun t =>
      .ok { t with ccs := t.ccs ++
              [CC.mk' (c.1 : Int) (c.2.1 : Int) c.2.2 (i.program : Int) (k : Int) i.isDrum] })
  else .ok s

/-- One instrument of the control change pass (midi_reader.py 210-215). -/
def Song.readControls (s : Song) (p : PInst × Nat) : Py Song := do
  let r ← s.createTrack p.2 p.1
  p.1.controls.foldlM (fun s c => s.readControl r.1 p.2 p.1 c) r.2

/-- `MidiReader.read` on a loaded object (midi_reader.py 252-317). -/
def readSong (pm : PM) : Py Song := do
  let s := Song.new (pm.clock.res : Int)
  let keys ← pm.keySigs.foldlM readKey s.keys
  let tc ← pm.clock.tempoChanges
  let tempos ← tc.1.foldlM (readTempo pm.clock.res) s.tempos
  let times ← pm.timeSigs.foldlM readTime s.times
  let s : Song := { s with keys := keys, tempos := tempos, times := times }
  let s ← pm.insts.zipIdx.foldlM Song.readInst s
  let s ← pm.insts.zipIdx.foldlM Song.readBends s
  pm.insts.zipIdx.foldlM Song.readControls s

/-- `MidiReader.read` of a file (midi_reader.py 230-317) and `from_file` (448-457), which turns every
exception into a ValueError. -/
def readFile (res : Nat) (tracks : List (List Msg)) : Py Song := do
  let pm ← PM.fromFile res tracks
  readSong pm

/-- `MidiReader.from_file` (midi_reader.py 448-457). -/
def fromFile (res : Nat) (tracks : List (List Msg)) : Py Song :=
  match readFile res tracks with
  | .ok s => .ok s
  | .error _ => .error .value

/-! ### Key numbers on the way back -/

/-- The key number written for a key signature (midi_reader.py 352-355). -/
def keyNumber (s : KeySig) : Int := s.key + (if s.mode = .minor then 12 else 0)

end NGC
