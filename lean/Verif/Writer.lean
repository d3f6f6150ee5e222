import Verif.Reader
import Verif.Adjust

/-!
Model of `MidiReader.to_pretty_midi` and `MidiReader.write` (midi_reader.py 319-450) and of the generators
`slice_time_signatures`, `slice_key_signatures`, `slice_tempo_signature` (midi_sequences.py 417-483) that they use.

The last step of `write`, `pretty_midi.PrettyMIDI.write`, belongs to the library and is not modelled. `initial_tempo()` is
memoised, so its value is an argument here. Notes have non-negative pitch and velocity; programs of
sequences are 0, as the constructor sets them (midi_sequence.py 126) and nothing in the package changes them.
-/

namespace NGC

/-! ### Signatures within a bound -/

/-- `slice_time_signatures(upper_bound)` (midi_sequences.py 417-440); `srt` is `sorted` with the order `Sig.lt`. -/
def sliceTimeSigs (srt : List TimeSig → List TimeSig) (bound : ℚ) (l : List TimeSig) : List TimeSig :=
  (srt l).filter (fun s => !decide (s.time > bound))

/-- `slice_key_signatures(upper_bound)` (midi_sequences.py 442-462). -/
def sliceKeySigs (bound : ℚ) (l : List KeySig) : List KeySig :=
  (sortByKey KeySig.time l).filter (fun s => !decide (s.time > bound))

/-- `slice_tempo_signature(upper_bound)` (midi_sequences.py 464-483): the sorted list is not used, the comparison with the
bound method `initial_tempo` is never true, and the bound 0 means no bound. -/
def sliceTempos (bound : ℚ) (l : List TempoSig) : List TempoSig :=
  l.filter (fun s => !decide (bound ≠ 0 ∧ s.time > bound))

/-- `pretty_midi.TimeSignature(num, den, time)` (midi_reader.py 342-348), with the checks of the library. -/
def writeTimeSig (s : TimeSig) : Py (Int × Int × ℚ) :=
  if 0 < s.numer ∧ 0 < s.denom ∧ 0 ≤ s.time then .ok (s.numer, s.denom, s.time) else .error .value

/-- `pretty_midi.KeySignature(number, time)` (midi_reader.py 351-357), with the checks of the library. -/
def writeKeySig (s : KeySig) : Py (Nat × ℚ) :=
  if 0 ≤ keyNumber s ∧ keyNumber s < 24 ∧ 0 ≤ s.time then .ok ((keyNumber s).toNat, s.time) else .error .value

/-- The tempo loop (midi_reader.py 360-366). -/
def writeTempos (c : Clock) (l : List TempoSig) : Py Clock := l.foldlM (fun c s => c.pushTempo s.time s.qpm) c

/-! ### Instruments -/

/-- `pretty_midi.Note(velocity, pitch, start, end)` (midi_reader.py 374-376). -/
def writeNote (n : Note) : PNote := ⟨n.velocity.toNat, n.pitch.toNat, n.start, n.stop⟩

/-- The instrument made from a track (midi_reader.py 374-396); `mx` is `max_event_time`. -/
def writeInst (mx : ℚ) (s : MSeq) : PInst :=
  { program := 0
    isDrum := s.instr.isDrum
    name := ""
    notes := s.notes.map writeNote
    bends := (s.bends.filter (fun b => decide (mx ≠ 0 ∧ b.time < mx))).map (fun b => (b.amount, b.time))
    controls := (s.ccs.filter (fun c => decide (mx ≠ 0 ∧ c.time < mx))).map (fun c => (c.number.toNat, c.value.toNat, c.time)) }

/-- The loop `for k in sequence: ... sequence[k]` (midi_reader.py 372-396) from position `i` of the live key list on: the
tracks handed out. `sequence[k]` makes a track for a key without an index and so lengthens the list. At most
`fuel` rounds (`visit_ends`: the list never gets longer than 128 more). -/
def Song.visit (s : Song) : Nat → Nat → Tracks MSeq → Py (List MSeq × Tracks MSeq)
  | 0, _, _ => .error .runtime
  | fuel + 1, i, t =>
    match t.seqs.keys[i]? with
    | none => .ok ([], t)
    | some k => do
      let r ← t.getItem (s.defaultTrack k) k
      let r' ← Song.visit s fuel (i + 1) r.2
      .ok (r.1 :: r'.1, r'.2)

/-- All tracks as the writer sees them. -/
def Song.visitAll (s : Song) : Py (List MSeq × Tracks MSeq) := s.visit (s.tracks.seqs.keys.length + 129) 0 s.tracks

/-! ### The object -/

/-- `sequence.truncate(to_end)` (midi_reader.py 331; midi_sequences.py 507-548). Without `to_end` the slices are computed with
the end `None`: TypeError as soon as there is a note. -/
def Song.maxEventTime (s : Song) (toEnd : Option ℚ) : Py ℚ :=
  match toEnd with
  | some b => do
    let r ← s.tracks.truncate b none
    .ok (r.1.getD 0)
  | none => do
    let evs ← s.tracks.allEvents
    if evs = [] then .error .value else .error .type

/-- The object before the times are adjusted (midi_reader.py 330-396). `t0` is the result of `initial_tempo()`. -/
def Song.build (srt : List TimeSig → List TimeSig) (s : Song) (t0 : ℚ) (toEnd : Option ℚ) : Py PM := do
  let mx ← s.maxEventTime toEnd
  let c ← Clock.fresh (if s.resolution = 0 then 480 else s.resolution.toNat) t0
  let ts ← (sliceTimeSigs srt mx s.times).mapM writeTimeSig
  let ks ← (sliceKeySigs mx s.keys).mapM writeKeySig
  let c ← writeTempos c (sliceTempos mx s.tempos)
  let r ← s.visitAll
  .ok { clock := c, drum := 9, timeSigs := ts, keySigs := ks, lyrics := []
        insts := { program := 0, isDrum := false, name := "", notes := [], bends := [], controls := [] } :: r.1.map (writeInst mx) }

/-- `x.clip(0, e)` of numpy: the upper bound wins. -/
def clipTo (e x : ℚ) : ℚ := min (max x 0) e

/-- The two time points handed to `adjust_times` (midi_reader.py 398-402). -/
def writePoints (e : ℚ) (fromStart toEnd : Option ℚ) : List (ℚ × ℚ) :=
  [(0, clipTo e (fromStart.getD 0)), (e, clipTo e (toEnd.getD e))]

/-- `to_pretty_midi` (midi_reader.py 319-407). `fuel` bounds the loop of `get_beats`; `none` means that it was not
enough. The debug message at the end computes `estimate_tempo()`, which can raise; `srt'` is the order of its
clusters. -/
def Song.toPrettyMidi (srt : List TimeSig → List TimeSig) (srt' : List (ℚ × ℚ) → List (ℚ × ℚ)) (fuel : Nat) (s : Song)
    (t0 : ℚ) (fromStart toEnd : Option ℚ) : Py (Option PM) := do
  let pm ← s.build srt t0 toEnd
  let r ← if fromStart.isSome ∨ toEnd.isSome then do
      let e ← pm.endTime
      pm.adjustTimes fuel (writePoints e fromStart toEnd)
    else .ok (some pm)
  match r with
  | none => .ok none
  | some pm => do
    let _ ← pm.endTime
    let _ ← estimateTempo srt' pm.insts
    .ok (some pm)

/-- The `do_overwrite` argument of `write`: only the object `False` forbids overwriting (midi_reader.py 434). -/
inductive Overwrite where
  | no
  | other
  deriving DecidableEq

/-- `from_start > to_end`, when both are given (midi_reader.py 442-443). -/
def badRange : Option ℚ → Option ℚ → Bool
  | some a, some b => decide (a > b)
  | _, _ => false

/-- The checks of `write` (midi_reader.py 427-443) and its call of `to_pretty_midi`: the object handed to the library. -/
def Song.write (srt : List TimeSig → List TimeSig) (srt' : List (ℚ × ℚ) → List (ℚ × ℚ)) (fuel : Nat) (s : Song)
    (t0 : ℚ) (filename : String) (fileExists : Bool) (fromStart toEnd : Option ℚ) (overwrite : Overwrite := .no) : Py (Option PM) :=
  if s.tracks.len = 0 then .error .value
  else if filename = "" then .error .value
  else if overwrite = .no ∧ fileExists = true then .error .fileExists
  else if fromStart.any (fun x => decide (x < 0)) = true then .error .value
  else if toEnd.any (fun x => decide (x < 0)) = true then .error .value
  else if badRange fromStart toEnd = true then .error .value
  else s.toPrettyMidi srt srt' fuel t0 fromStart toEnd

end NGC
