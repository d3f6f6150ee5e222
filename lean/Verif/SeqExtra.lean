import Verif.Sequences

/-!
Model of the parts of `midi_sequence.py` and `midi_sequences.py` left out of `Seq` and `Sequences`:
answers remembered by `functools.cache`, the resolution, the order of sequences, `set_sequence`,
`instruments`, `instrument_midi_seq_len`, `is_sorted`, `MidiNoteSequences.from_file`.
-/

namespace NGC

/-! ### One sequence with its remembered answers -/

/-- A `MidiNoteSequence` object with its public list `tempo_signature` and the entries for this object in the
tables of the two methods decorated with `functools.cache` (midi_sequence.py 641, 653). The class has no
`__eq__`, so the tables are by object. -/
structure CachedSeq where
  seq : MSeq
  tempos : List TempoSig
  tempoMemo : Option (Option ℚ)
  endMemo : List (Option ℚ × Option ℚ)

/-- A new object (midi_sequence.py 64-140). -/
def CachedSeq.new (s : MSeq) : CachedSeq := ⟨s, [], none, []⟩

/-- `initial_tempo` without its table (midi_sequence.py 642-651): 480.0 without signatures, else the TIME of the
first signature at time 0, else `None`. -/
def seqInitialTempo (l : List TempoSig) : Option ℚ :=
  if l.length = 0 then some 480
  else (l.find? (fun s => decide (s.time = 0))).map (fun s => s.time)

/-- `initial_tempo()` (midi_sequence.py 641-651). -/
def CachedSeq.initialTempo (c : CachedSeq) : Option ℚ × CachedSeq :=
  match c.tempoMemo with
  | some r => (r, c)
  | none => (seqInitialTempo c.tempos, { c with tempoMemo := some (seqInitialTempo c.tempos) })

/-- `truncate_to_last_event(offset)` (midi_sequence.py 653-664). -/
def CachedSeq.lastEvent (c : CachedSeq) (offset : Option ℚ) : Option ℚ × CachedSeq :=
  match c.endMemo.find? (fun p => decide (p.1 = offset)) with
  | some p => (p.2, c)
  | none => (c.seq.truncateToLastEvent offset, { c with endMemo := (offset, c.seq.truncateToLastEvent offset) :: c.endMemo })

/-- What can happen to the object: any change of the sequence by its methods or attributes, any change of the
list of tempo signatures, a call of one of the two methods. -/
inductive CachedOp where
  | change (f : MSeq → MSeq)
  | tempos (l : List TempoSig)
  | initialTempo
  | lastEvent (offset : Option ℚ)

/-- One step: the new object and the answer, if it is a call. -/
def CachedSeq.step (c : CachedSeq) : CachedOp → CachedSeq × Option (Option ℚ)
  | .change f => ({ c with seq := f c.seq }, none)
  | .tempos l => ({ c with tempos := l }, none)
  | .initialTempo => (c.initialTempo.2, some c.initialTempo.1)
  | .lastEvent o => ((c.lastEvent o).2, some (c.lastEvent o).1)

/-- A history. -/
def CachedSeq.run (c : CachedSeq) (ops : List CachedOp) : CachedSeq := ops.foldl (fun c op => (c.step op).1) c

/-- The argument of the resolution setter: an `int` (a `bool` is one) or something else. -/
inductive ResArg where
  | int (v : Int)
  | other

/-- The `resolution` setter (midi_sequence.py 154-171). The old resolution is read after the new one is
stored, so the loop never runs. -/
def MSeq.setResolution (s : MSeq) : ResArg → Py MSeq
  | .other => .error .type
  | .int v =>
    let s := { s with resolution := v }
    let old := s.resolution
    if old ≠ v then
      if old = 0 then .error .zeroDiv
      else .ok (s.setVisible (s.notes.map (fun n => { n with start := n.start * (v / old) / old, stop := n.stop * (v / old) / old })))
    else .ok s

/-- A sequence object as far as `__lt__` sees it: its instrument number and its `id`. -/
structure SeqObj where
  num : Int
  id : Nat
  deriving DecidableEq

/-- `MidiNoteSequence.__lt__` (midi_sequence.py 189-204). -/
def SeqObj.lt (a b : SeqObj) : Bool :=
  if a.num = b.num then decide (a.id < b.id) else decide (a.num < b.num)

/-! ### Sets of sequences -/

/-- The second argument of `set_sequence`. -/
inductive SeqArg (V : Type) where
  | seq (v : V)
  | notes

/-- `set_sequence` (midi_sequences.py 773-779): a list of notes leads to the attribute `midi_notes`, which
sequences do not have; the index is not checked and the index map not changed. -/
def Tracks.setSequence {V : Type} (t : Tracks V) (i : Int) : SeqArg V → Py (Tracks V)
  | .notes => .error .attribute
  | .seq v => do
    let seqs ← t.seqs.setItem intLt i v
    .ok { t with seqs := seqs }

/-- An access of `TrackOp`, or `set_sequence` with a sequence. -/
inductive SeqSetOp (V : Type) where
  | op (o : TrackOp V)
  | setSequence (i : Int) (v : V)

/-- The table after one access; an exception leaves it as it was (midi_sequences.py 190-252, 698-779). -/
def Tracks.setStep {V : Type} (t : Tracks V) : SeqSetOp V → Tracks V
  | .op o => (t.step o).1
  | .setSequence i v => match t.setSequence i (.seq v) with
    | .ok r => r
    | .error _ => t

/-- `instruments` (midi_sequences.py 550-555). -/
def Tracks.instruments (t : Tracks MSeq) : Py (List InstrumentInfo) := do
  let vs ← t.seqs.values
  .ok (vs.map (fun s => s.instr))

/-- `instrument_midi_seq_len` (midi_sequences.py 326-337); the track table is never `None` (615-622). -/
def Tracks.seqLen (t : Tracks MSeq) (i : Int) : Py Nat :=
  if t.seqs.has i then do
    let s ← t.seqs.getItem i
    .ok s.notes.length
  else .ok 0

/-- The loop of `is_sorted` (midi_sequences.py 557-567) from index `i`, `k` rounds. -/
def isSortedGo {α : Type} (key : α → ℚ) (l : List α) (i : Nat) : Nat → Bool
  | 0 => true
  | k + 1 =>
    match l[i]?, l[i + 1]? with
    | some a, some b => if key a > key b then false else isSortedGo key l (i + 1) k
    | _, _ => true

/-- `is_sorted` (midi_sequences.py 557-567). -/
def isSorted {α : Type} (l : List α) (key : α → ℚ) : Bool := isSortedGo key l 0 (l.length - 1)

/-- What `reader.read` can give. -/
inductive ReadResult where
  | raises (e : Err)
  | nothing
  | one (s : MSeq)
  | many (l : List MSeq)
  | songs

/-- The tracks of `MidiNoteSequences.from_file` (midi_sequences.py 175-188, 130-145). -/
def seqsFromFile (srt : List Note → List Note) : ReadResult → Py (Tracks MSeq)
  | .raises _ => .error .value
  | .nothing => .ok Tracks.empty
  | .one s => Tracks.ofSeqs srt [s]
  | .many l => Tracks.ofSeqs srt l
  | .songs => .error .type

end NGC
