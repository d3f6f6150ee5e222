import Verif.Py

/-!
Model of `neural_graph_composer/midi/midi_note.py` (class `MidiNote`).

Simplifications: times are exact rationals; `pitch_name` (librosa), `_is_quantized`
(private, never read by any method) and the ad-hoc attribute `quantized_step` set at the
end of `quantize_in_place` (line 536) are left out; warnings are not modelled.
-/

namespace NGC

/-- The state of a `MidiNote` (midi_note.py 131-173). Steps are rational because
`quantize_in_place` may store a fractional end step (line 475). -/
structure Note where
  pitch : Int
  start : ℚ
  stop : ℚ
  program : Int
  instrument : Int
  velocity : Int
  qs : ℚ
  qe : ℚ
  voice : Int
  numer : Int
  denom : Int
  isDrum : Bool
  deriving DecidableEq, Repr

/-- Constructor arguments (midi_note.py lines 76-89). -/
structure NoteArgs where
  pitch : Int
  start : ℚ
  stop : ℚ
  program : Int := 0
  instrument : Int := 0
  velocity : Int := 127
  qs : ℚ := -1
  qe : ℚ := -1
  voice : Int := 0
  numer : Int := 4
  denom : Int := 4
  isDrum : Bool := false
  deriving DecidableEq, Repr

/-- `denominator > 0 and (denominator & (denominator - 1)) == 0` (midi_note.py 126-127). -/
def denomOk (d : Int) : Bool := decide (0 < d) && (d.toNat &&& (d.toNat - 1)) == 0

/-- `MidiNote.__init__` (midi_note.py 76-173). -/
def Note.mk? (a : NoteArgs) : Py Note :=
  -- lines 106-110: clamp pitch only when out of range
  let pitch := if 0 ≤ a.pitch ∧ a.pitch ≤ 127 then a.pitch else max 0 (min 127 a.pitch)
  -- lines 113-117
  let velocity := if 0 ≤ a.velocity ∧ a.velocity ≤ 127 then a.velocity else max 0 (min 127 a.velocity)
  -- line 119: assert end_time > start_time
  if ¬ (a.stop > a.start) then .error .assertion
  -- line 122
  else if ¬ (a.numer > 0) then .error .assertion
  -- lines 126-128
  else if ¬ denomOk a.denom then .error .assertion
  else .ok
    { pitch := pitch
      velocity := velocity
      program := min (max 0 a.program) 255        -- line 141
      instrument := min (max a.instrument 0) 127  -- line 147
      start := a.start
      stop := a.stop
      voice := a.voice
      numer := max (min a.numer 255) 1            -- line 158
      denom := max (min a.denom 255) 1            -- line 165
      isDrum := a.isDrum
      qs := a.qs
      qe := a.qe }

/-- `MidiNote.__eq__` between two notes (midi_note.py 190-204). -/
def Note.eq (a b : Note) : Bool :=
  a.pitch == b.pitch && a.velocity == b.velocity && a.program == b.program &&
  a.instrument == b.instrument &&
  isclose a.start b.start (1/1000000000) (1/1000000000) &&
  isclose a.stop b.stop (1/1000000000) (1/1000000000) &&
  a.qs == b.qs && a.qe == b.qe && a.voice == b.voice && a.numer == b.numer &&
  a.denom == b.denom && a.isDrum == b.isDrum

/-- `MidiNote.__lt__` (midi_note.py 206-216). -/
def Note.lt (a b : Note) : Bool :=
  if |a.start - b.start| > 1/1000000 then decide (a.start < b.start)
  else if |a.stop - b.stop| > 1/1000000 then decide (a.stop < b.stop)
  else decide (a.pitch < b.pitch)

/-- `MidiNote.__le__` (midi_note.py 218-234). -/
def Note.le (a b : Note) : Bool :=
  if a.start < b.start then true
  else if |a.start - b.start| ≤ 1/1000000 then decide (a.stop ≤ b.stop + 1/1000000)
  else false

/-- `start_time` setter (midi_note.py 251-261). -/
def Note.setStart (n : Note) (v : ℚ) : Py Note :=
  if v < 0 then .error .value
  else if v ≥ n.stop then .error .value
  else .ok { n with start := v }

/-- `end_time` setter (midi_note.py 271-281). -/
def Note.setStop (n : Note) (v : ℚ) : Py Note :=
  if v < 0 then .error .value
  else if v ≤ n.start then .error .value
  else .ok { n with stop := v }

/-- `quantized_start_step` setter: the later definition (midi_note.py 603-612) replaces the
one at 291-306. -/
def Note.setQs (n : Note) (v : ℚ) : Py Note :=
  if v < 0 then .error .value else .ok { n with qs := v }

/-- `quantized_end_step` setter: the later definition (midi_note.py 614-623) replaces the
one at 316-330. -/
def Note.setQe (n : Note) (v : ℚ) : Py Note :=
  if v < 0 then .error .value else .ok { n with qe := v }

/-- `pitch` setter (midi_note.py 585-588). -/
def Note.setPitch (n : Note) (v : Int) : Py Note :=
  if 0 ≤ v ∧ v ≤ 127 then .ok { n with pitch := v } else .error .assertion

/-- `program` setter (midi_note.py 594-601). -/
def Note.setProgram (n : Note) (v : Int) : Py Note :=
  if 0 ≤ v ∧ v ≤ 255 then .ok { n with program := v } else .error .assertion

/-- `is_quantized` (midi_note.py 332-336). -/
def Note.isQuantized (n : Note) : Bool := decide (n.qs ≥ 0) && decide (n.qe ≥ 0)

/-- `quantize_to_nearest_step` (midi_note.py 338-368). The result `max(0.0, k)` is an
integer-valued number, modelled as an `Int`. -/
def quantizeStep (t : ℚ) (sps : Int) (amount : ℚ) (isFloor : Bool) : Py Int :=
  if sps ≤ 0 then .error .value
  else if amount ≤ 0 then .error .value
  else
    let k := if isFloor then ⌊t * sps + (1 - amount)⌋ else ⌈t * sps + (1 - amount)⌉
    .ok (max 0 k)

/-- `duration` (midi_note.py 388-392). -/
def Note.duration (n : Note) : ℚ := n.stop - n.start

/-- `overlaps` (midi_note.py 394-401). -/
def Note.overlaps (a b : Note) : Bool :=
  (decide (a.start ≤ b.start) && decide (b.start < a.stop)) ||
  (decide (a.start < b.stop) && decide (b.stop ≤ a.stop)) ||
  (decide (a.start ≥ b.start) && decide (a.stop ≤ b.stop))

/-- `step_duration_in_samples` (midi_note.py 403-411). -/
def Note.stepDuration (n : Note) : Py ℚ :=
  if ¬ n.isQuantized then .error .value else .ok (n.qe - n.qs + 1)

/-- `compute_step_duration_in_seconds` (midi_note.py 413-426). -/
def Note.stepSeconds (n : Note) (sps : Int) : Py ℚ :=
  if ¬ n.isQuantized then .error .value
  else if sps ≤ 0 then .error .value
  else .ok ((n.qe - n.qs) / sps)

/-- Lines 455-466 of `quantize_in_place`: the two target steps before they are stored. -/
def Note.targetSteps (n : Note) (sps : Int) (amount : ℚ) (minStep : Option Int) : Py (ℚ × ℚ) := do
  let q0 ← quantizeStep n.start sps amount true
  let q1 ← quantizeStep n.stop sps amount false
  -- lines 458-462 (`round` of an integer-valued step is the identity)
  let q1 := if sps = 1 ∧ q0 = q1 then q1 + 1 else q1
  -- lines 464-466
  match minStep with
  | none => .ok (q0, q1)
  | some m => .ok (max n.qs (q0 - m), max n.qe (q1 - m))

/-- Lines 469-482 of `quantize_in_place`: storing the steps. -/
def Note.storeSteps (n : Note) (sps : Int) (q0 q1 : ℚ) : Py Note :=
  if n.isQuantized then do
    let n1 ← n.setQs (max 0 q0)
    n1.setQe (n1.qs + (q1 - q0) / sps)
  else do
    let n1 ← n.setQs (q0 + pyInt (max 0 (-n.start) * sps))
    n1.setQe (q1 + pyInt (max 0 (-n.stop) * sps))

/-- Lines 509-529 of `quantize_in_place`: moving the times. `q0 q1` are the local target
steps (not the stored ones). -/
def Note.moveTimes (n : Note) (sps : Int) (q0 q1 : ℚ) : Py Note :=
  let newEnd := around2 (q1 / sps)
  let newStart := around2 (q0 / sps)
  let newStart := max 0 (min newStart (n.stop - 1/1000))
  let newEnd := max 0 (min newEnd (999999 - 1/1000))
  let duration := n.stop - n.start
  if newEnd < n.stop then do
    let n1 ← n.setStart newStart
    n1.setStop (n1.start + duration)
  else do
    let n1 ← n.setStop newEnd
    n1.setStart newStart

/-- `quantize_in_place` (midi_note.py 428-536). Lines 499-505 clamp the stored steps at 0 and
treat equal steps; both are dead after the checks at 491-496. An exception may leave the
Python object partially updated; the model only reports the exception. -/
def Note.quantizeInPlace (n : Note) (sps : Int) (amount : ℚ) (minStep : Option Int := none) :
    Py Note := do
  let (q0, q1) ← n.targetSteps sps amount minStep
  let n1 ← n.storeSteps sps q0 q1
  -- lines 491-496
  if n1.qs < 0 then .error .value
  else if n1.qe < 0 then .error .value
  else if n1.qs ≥ n1.qe then .error .value
  else do
    let n2 ← n1.moveTimes sps q0 q1
    n2.setQs (max 0 n2.qs)

/-- `make_copy` (midi_note.py 555-579): goes through the constructor. -/
def Note.makeCopy (n : Note) (qs : Option ℚ := none) (qe : Option ℚ := none) : Py Note :=
  Note.mk?
    { pitch := n.pitch, start := n.start, stop := n.stop, program := n.program
      instrument := n.instrument, velocity := n.velocity
      qs := qs.getD n.qs, qe := qe.getD n.qe
      voice := n.voice, numer := n.numer, denom := n.denom, isDrum := n.isDrum }

/-- `quantize` (midi_note.py 538-553). -/
def Note.quantize (n : Note) (sps : Int) (amount : ℚ) (minStep : Option Int := none) : Py Note := do
  let c ← n.makeCopy
  c.quantizeInPlace sps amount minStep

/-- `shift_time` (midi_note.py 820-826): unchecked. -/
def Note.shift (n : Note) (d : ℚ) : Note := { n with start := n.start + d, stop := n.stop + d }

/-- `stretch` (midi_note.py 828-834): unchecked. -/
def Note.stretch (n : Note) (k : ℚ) : Note := { n with start := n.start * k, stop := n.stop * k }

/-- `is_four_quarter_note` (midi_note.py 625-650); `math.isclose` default `abs_tol = 0`. -/
def Note.isFourQuarter (n : Note) : Bool :=
  if n.denom ≠ 4 ∨ n.numer ≠ 4 then false
  else isclose n.duration (n.numer * (60 / n.denom)) (1/1000000000) 0

/-- `duration_in_seconds` (midi_note.py 652-658); a zero tempo is a ZeroDivisionError. -/
def Note.durationInSeconds (n : Note) (tempo : ℚ) : Py ℚ :=
  if tempo = 0 then .error .zeroDiv else .ok (60 * n.duration / tempo)

/-- `beat_duration` (midi_note.py 660-667). -/
def Note.beatDuration (n : Note) (tempo : ℚ := 120) : Py ℚ :=
  if tempo = 0 ∨ n.denom = 0 then .error .zeroDiv
  else .ok (60 / tempo * (n.numer / n.denom))

/-- A JSON dictionary for a note: `none` is an absent key (midi_note.py 786-804). -/
structure NoteJson where
  pitch : Option Int := none
  start : Option ℚ := none
  stop : Option ℚ := none
  program : Option Int := none
  instrument : Option Int := none
  velocity : Option Int := none
  qs : Option ℚ := none
  qe : Option ℚ := none
  voice : Option Int := none
  numer : Option Int := none
  denom : Option Int := none
  isDrum : Option Bool := none

/-- The result of loading: a note whose `voice` and `quantized_end_step` may be `None`
(`None` is stored as is by the constructor). When these are `some`, they are the fields of
`note`; otherwise the corresponding fields of `note` are meaningless placeholders. -/
structure LoadedNote where
  note : Note
  voice : Option Int
  qe : Option ℚ
  deriving DecidableEq

/-- `MidiNote.from_json` (midi_note.py 786-804): the six required keys are read with `[]`
(KeyError when absent), the others with `.get`, so an absent key is passed as `None` to the
constructor: `isinstance(None, int)` fails the numerator/denominator assertions (lines 122-128)
and `None >= 0` is a TypeError at line 173, evaluated for the start step first and for the end
step only if the start step is non-negative. -/
def Note.fromJson (j : NoteJson) : Py LoadedNote :=
  match j.pitch, j.start, j.stop, j.program, j.instrument, j.velocity with
  | some p, some s, some e, some pr, some ins, some v =>
    if ¬ (e > s) then .error .assertion
    else match j.numer with
    | none => .error .assertion
    | some nu => if ¬ (nu > 0) then .error .assertion
      else match j.denom with
      | none => .error .assertion
      | some de =>
        match Note.mk? { pitch := p, start := s, stop := e, program := pr, instrument := ins
                         velocity := v, qs := j.qs.getD (-1), qe := j.qe.getD (-1)
                         voice := j.voice.getD 0, numer := nu, denom := de
                         isDrum := j.isDrum.getD false } with
        | .error er => .error er
        | .ok n =>
          match j.qs with
          | none => .error .type
          | some q => if q ≥ 0 ∧ j.qe = none then .error .type
            else .ok { note := n, voice := j.voice, qe := j.qe }
  | _, _, _, _, _, _ => .error .key

/-- The dictionary holding all fields of a note, as read by `from_json`. -/
def Note.toFields (n : Note) : NoteJson :=
  { pitch := n.pitch, start := n.start, stop := n.stop, program := n.program
    instrument := n.instrument, velocity := n.velocity, qs := n.qs, qe := n.qe
    voice := n.voice, numer := n.numer, denom := n.denom, isDrum := n.isDrum }

/-- Well-formed note: what the constructor guarantees. -/
structure Note.Valid (n : Note) : Prop where
  times : n.start < n.stop
  pitch_lo : 0 ≤ n.pitch
  pitch_hi : n.pitch ≤ 127
  vel_lo : 0 ≤ n.velocity
  vel_hi : n.velocity ≤ 127
  prog_lo : 0 ≤ n.program
  prog_hi : n.program ≤ 255
  inst_lo : 0 ≤ n.instrument
  inst_hi : n.instrument ≤ 127
  num_lo : 1 ≤ n.numer
  num_hi : n.numer ≤ 255
  den_lo : 1 ≤ n.denom
  den_hi : n.denom ≤ 255

end NGC
