import Verif.NoteLemmas

/-!
Model of `midi_time_signature.py` (tempo and time signatures) and `midi_key_signature.py`.
Times and tempos are exact rationals. `math.log2(d).is_integer()` is read as "d is a power of
two" (exact logarithm; in doubles it also accepts some very large non-powers).
Type checks are not modelled: arguments have the annotated types.
-/

namespace NGC

/-- `MidiTempoSignature` state (midi_time_signature.py 42-60, `seq` from midi_seq.py 12-14). -/
structure TempoSig where
  time : ℚ
  qpm : ℚ
  resolution : Int
  seq : Int := 0
  deriving DecidableEq, Repr

/-- `MidiTempoSignature.__init__` (midi_time_signature.py 23-60); `none` is Python `None`.
The defaults are `DEFAULT_QPM = 120` and `DEFAULT_PPQ = 480` (midi_spec.py 56, 60). -/
def TempoSig.mk? (time qpm : Option ℚ) (resolution : Option Int) : Py TempoSig :=
  match qpm, resolution with
  | some q, some r => if ¬ q > 0 then .error .assertion else if ¬ r > 0 then .error .assertion
      else .ok { time := time.getD 0, qpm := q, resolution := r }
  | some q, none => if ¬ q > 0 then .error .assertion
      else .ok { time := time.getD 0, qpm := q, resolution := 480 }
  | none, some r => if ¬ r > 0 then .error .assertion
      else .ok { time := time.getD 0, qpm := 120, resolution := r }
  | none, none => .ok { time := time.getD 0, qpm := 120, resolution := 480 }

/-- `qpm` setter (midi_time_signature.py 78-82): unchecked. -/
def TempoSig.setQpm (t : TempoSig) (v : ℚ) : TempoSig := { t with qpm := v }

/-- `tempo_to_qpm` (midi_time_signature.py 62-70). -/
def tempoToQpm (tempo : ℚ) : Py ℚ :=
  if tempo = 0 then .error .zeroDiv else .ok (60 / (tempo / 1000000))

/-- `ppq_to_qpm` (midi_time_signature.py 100-112). -/
def ppqToQpm (ppq tempo : ℚ) (ticksPerBeat : ℚ := 4) : Py ℚ :=
  let d := ticksPerBeat * tempo * (1 / 1000000)
  if d = 0 then .error .zeroDiv
  else
    let tick := 1 / d
    let quarter := tick * ppq
    if quarter = 0 then .error .zeroDiv
    else .ok (60 / quarter / d)

/-- `seconds_per_tick` (midi_time_signature.py 114-121). The divisor is zero only if the
resolution is, which the constructor excludes. -/
def TempoSig.secondsPerTick (t : TempoSig) : ℚ :=
  if t.qpm = 0 then 0 else 1 / (t.qpm * t.resolution / 60)

/-- `seconds_per_quarter` (midi_time_signature.py 123-126). -/
def TempoSig.secondsPerQuarter (t : TempoSig) : ℚ := t.secondsPerTick * t.resolution

/-- `bpm` getter and setter (midi_time_signature.py 128-136). -/
def TempoSig.bpm (t : TempoSig) : ℚ := t.qpm / 4
def TempoSig.setBpm (t : TempoSig) (v : ℚ) : TempoSig := t.setQpm (v * 4)

/-- `__lt__` of tempo, time and key signatures (midi_time_signature.py 152-156, 273-281,
midi_key_signature.py 73-81): `math.isclose` with its defaults, then `seq`. -/
def sigLt (ta : ℚ) (sa : Int) (tb : ℚ) (sb : Int) : Bool :=
  if isclose ta tb (1/1000000000) 0 then decide (sa < sb) else decide (ta < tb)

/-- `MidiTimeSignature` state (midi_time_signature.py 208-211). -/
structure TimeSig where
  time : ℚ
  numer : Int
  denom : Int
  seq : Int := 0
  deriving DecidableEq, Repr

/-- `MidiTimeSignature.__init__` (midi_time_signature.py 180-211). -/
def TimeSig.mk? (time : ℚ) (numer denom : Int) : Py TimeSig :=
  if denom ≤ 0 ∨ numer ≤ 0 then .error .value
  else if ¬ denomOk denom then .error .value
  else .ok { time := time, numer := numer, denom := denom }

/-- `measure_length` (midi_time_signature.py 213-218). -/
def TimeSig.measureLength (t : TimeSig) : ℚ := t.time * t.numer / t.denom

/-- `int(math.log2(d))` for `d ≥ 1`. -/
def ilog2 (d : Int) : Nat := Nat.log2 d.toNat

/-- `beats_per_measure` (midi_time_signature.py 220-257). -/
def TimeSig.beatsPerMeasure (t : TimeSig) : Py ℚ :=
  if t.denom = 1 then .ok t.numer
  else if (2 : Int) ^ ilog2 t.denom ≠ t.denom then .error .value
  else .ok (t.numer * (2 : ℚ) ^ ((ilog2 t.denom : Int) - 2))

/-- `KeySignatureType` (midi_key_signature.py 11-15). -/
inductive KeyMode where
  | major | minor
  deriving DecidableEq, Repr

/-- `MidiKeySignature` state (midi_key_signature.py 53-57). -/
structure KeySig where
  time : ℚ
  key : Int
  mode : KeyMode
  seq : Int := 0
  deriving DecidableEq, Repr

/-- `MidiKeySignature.__init__` with `major_or_minor` (midi_key_signature.py 22-71). -/
def KeySig.mk? (time : ℚ) (key mode : Int) : Py KeySig :=
  if mode = 0 then .ok { time := time, key := key, mode := .major }
  else if mode = 1 then .ok { time := time, key := key, mode := .minor }
  else .error .value

end NGC
