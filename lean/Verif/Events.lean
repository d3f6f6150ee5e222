import Verif.Note

/-!
Models of `midi_pitch_bend.py` (`MidiPitchBend`) and `midi_control_change.py`
(`MidiControlChange`). Array-valued times (numpy) are not modelled; of the CC name table only
the set of named controllers (its texts are in `EventOrder`).
-/

namespace NGC

/-- `MidiPitchBend` state (midi_pitch_bend.py 32-65). -/
structure PitchBend where
  amount : Int
  time : ℚ
  program : Int
  instrument : Int
  isDrum : Bool
  deriving DecidableEq, Repr

/-- `MidiPitchBend.__init__` (midi_pitch_bend.py 14-65); `none` is a `None` time. -/
def PitchBend.mk? (amount : Int) (time : Option ℚ) (program instrument : Int) (isDrum : Bool) :
    Py PitchBend :=
  if ¬ (-8191 ≤ amount ∧ amount ≤ 8191) then .error .value
  else if ¬ (0 ≤ program ∧ program ≤ 127) then .error .value
  else if ¬ (0 ≤ instrument ∧ instrument ≤ 127) then .error .value
  else match time with
  | some t =>
    if t < 0 then .error .value
    else .ok { amount := amount, program := min (max 0 program) 255
               instrument := min (max 0 instrument) 255, time := max t 0, isDrum := isDrum }
  | none => .ok { amount := amount, program := min (max 0 program) 255
                  instrument := min (max 0 instrument) 255, time := 0, isDrum := isDrum }

/-- `midi_time` setter with a number (the later definition, midi_pitch_bend.py 124-128). -/
def PitchBend.setTime (p : PitchBend) (v : ℚ) : Py PitchBend :=
  if v < 0 then .error .value else .ok { p with time := v }

/-- `program` setter (midi_pitch_bend.py 134-138). -/
def PitchBend.setProgram (p : PitchBend) (v : Int) : Py PitchBend :=
  if ¬ (0 ≤ v ∧ v ≤ 127) then .error .value else .ok { p with program := v }

/-- `instrument` setter (midi_pitch_bend.py 144-148). -/
def PitchBend.setInstrument (p : PitchBend) (v : Int) : Py PitchBend :=
  if ¬ (0 ≤ v ∧ v ≤ 127) then .error .value else .ok { p with instrument := v }

/-- `__lt__` (midi_pitch_bend.py 75-82): compares amounts only. -/
def PitchBend.lt (a b : PitchBend) : Bool := decide (a.amount < b.amount)

/-- `MidiControlChange` state (midi_control_change.py 202-215). -/
structure CC where
  number : Int
  value : Int
  time : ℚ
  program : Int
  instrument : Int
  isDrum : Bool
  qstep : Int
  qs : Int
  qe : Int
  flag : Bool
  seq : Int
  deriving DecidableEq, Repr

/-- `MidiControlChange.__init__` (midi_control_change.py 182-215). -/
def CC.mk' (number value : Int) (time : ℚ := 0) (program instrument : Int := 0)
    (isDrum : Bool := false) (qstep : Int := 4) (qs qe : Int := -1) : CC :=
  { number := min (max 0 number) 255
    value := min (max 0 value) 255
    program := min (max 0 program) 255
    instrument := min (max 0 instrument) 255
    isDrum := isDrum
    time := max 0 time
    qstep := min (max 1 qstep) 32
    qs := qs
    qe := qe
    flag := decide (qs ≥ 0) && decide (qe ≥ 0)
    seq := 0 }

/-- `__eq__` (midi_control_change.py 227-243). -/
def CC.eq (a b : CC) : Bool :=
  a.number == b.number && a.value == b.value && a.time == b.time && a.program == b.program &&
  a.instrument == b.instrument && a.isDrum == b.isDrum && a.qstep == b.qstep && a.qs == b.qs &&
  a.qe == b.qe

/-- `quantized_start_step` setter (midi_control_change.py 282-297). -/
def CC.setQs (c : CC) (v : Int) : Py CC :=
  if v < 0 then .error .value else if v ≥ c.qe then .error .value
  else .ok { c with qs := v, flag := true }

/-- `quantized_end_step` setter (midi_control_change.py 307-321). -/
def CC.setQe (c : CC) (v : Int) : Py CC :=
  if v < 0 then .error .value else if v ≤ c.qs then .error .value
  else .ok { c with qe := v, flag := true }

/-- `quantized_step` setter (midi_control_change.py 262-272). -/
def CC.setQstep (c : CC) (v : Int) : Py CC :=
  if v < 1 ∨ v > 32 then .error .value else .ok { c with qstep := v }

/-- `quantize_to_nearest_step` (midi_control_change.py 329-333). -/
def ccStep (t : ℚ) (sps : Int) (amount : ℚ) : Int := pyInt (t * sps + (1 - amount))

/-- `quantize_in_place` (midi_control_change.py 335-353). -/
def CC.quantizeInPlace (c : CC) (sps : Int) (amount : ℚ) : Py CC := do
  let c ← c.setQs (ccStep c.time sps amount)
  let c ← c.setQe (ccStep c.time sps amount)
  let c ← c.setQs (max c.qs 0)
  if ¬ c.qs ≥ 0 then .error .assertion
  else if ¬ c.qe ≥ 0 then .error .assertion
  else do
    let c ← if c.qe = c.qs then c.setQe (c.qe + 1) else .ok c
    c.setQstep sps

/-- `make_copy` (midi_control_change.py 373-398): goes through the constructor without the drum
flag and the quantization step. -/
def CC.makeCopy (c : CC) (time : Option ℚ := none) (qs qe : Option Int := none) : CC :=
  CC.mk' c.number c.value (time.getD c.time) c.program c.instrument
    (qs := qs.getD c.qs) (qe := qe.getD c.qe)

/-- `quantize` (midi_control_change.py 355-371). -/
def CC.quantize (c : CC) (sps : Int) (amount : ℚ) : Py CC := c.makeCopy.quantizeInPlace sps amount

/-- `shift_time` (midi_control_change.py 400-405): unchecked. -/
def CC.shift (c : CC) (d : ℚ) : CC := { c with time := c.time + d }

/-- The controllers that have an entry in `MIDI_CC_NAME_TO_CC`
(midi_control_change.py 71-162 and the three updates at 165-178). -/
def ccNamed (n : Int) : Bool :=
  decide (0 ≤ n ∧ n ≤ 18) || decide (64 ≤ n ∧ n ≤ 87) || decide (91 ≤ n ∧ n ≤ 101) ||
  decide (120 ≤ n ∧ n ≤ 127) || decide (31 ≤ n ∧ n < 64) || decide (102 ≤ n ∧ n < 120) ||
  decide (120 ≤ n ∧ n < 128)

end NGC
