import Verif.Graph
import Verif.Freq

/-!
The remaining computations of `MidiNote` and its neighbours: `bpm`, `steps_to_seconds`, `is_four_eighth_note` (midi_note.py 378-386, 669-682, 759-776),
`quantize_to_nearest_step` (midi_sequence.py 588-593) and the JSON decoder `MidiNoteJSONDecoder` (midi_note.py 25-61).

Simplifications: times are exact rationals, frequencies exact reals; `Decimal` arithmetic is exact (Python keeps 28 digits); the text of a JSON document is taken as already parsed.
-/

namespace NGC

/-! ### Beats per minute -/

/-- `np.arange(a, b, s)` (numpy): `ceil((b-a)/s)` values. -/
def npArange (a b s : ℚ) : Py (List ℚ) :=
  if s = 0 then .error .zeroDiv else .ok ((List.range ⌈(b - a) / s⌉.toNat).map (fun k : Nat => a + k * s))

/-- `np.mean(l)`; `none` is NaN, the mean of nothing. -/
def npMeanNan (l : List ℚ) : Option ℚ := if l = [] then none else some (l.sum / l.length)

/-- `bpm` (midi_note.py 669-682); `none` is NaN. -/
def Note.bpm (n : Note) : Py (Option ℚ) := do
  let d ← n.beatDuration
  let times ← npArange n.start n.stop d
  .ok ((npMeanNan (diffs times)).map (fun m => 60 / m))

/-! ### Steps and seconds -/

/-- `Decimal.quantize(Decimal('.00001'), rounding='ROUND_HALF_UP')`: to five places, ties away from zero. -/
def quantize5 (q : ℚ) : ℚ :=
  if 0 ≤ q then (⌊q * 100000 + 1/2⌋ : ℚ) / 100000 else -((⌊-q * 100000 + 1/2⌋ : ℚ) / 100000)

/-- `steps_to_seconds` (midi_note.py 378-386). -/
def stepsToSeconds (steps sps : Int) : Py ℚ :=
  if sps = 0 then .error .zeroDiv else .ok (quantize5 ((steps : ℚ) / sps))

/-- `quantize_to_nearest_step` (midi_sequence.py 588-593). -/
def nearestStep (time sps : ℚ) (cutoff : ℚ := 1/2) : Int := pyInt (time * sps + (1 - cutoff))

/-! ### Four eighth notes -/

open Classical in
/-- `is_four_eighth_note(note, tempo, time_signature)` (midi_note.py 759-776). -/
noncomputable def isFourEighth (note tempo : Int) (sig : Int × Int) : Py Bool :=
  if tempo = 0 then .error .zeroDiv
  else if sig.2 = 0 then .error .zeroDiv
  else
    let beat : ℝ := 60 / tempo
    let quarter : ℝ := beat * 4 / sig.2
    let expected : ℝ := 1 / noteToFreq note
    .ok (decide (|expected - quarter| < 0.1 * quarter))

/-! ### Decoding JSON -/

/-- A parsed JSON document; the keys of an object in the order of the text. -/
inductive JDoc where
  | null
  | bool (b : Bool)
  | int (n : Int)
  | num (q : ℚ)
  | str (s : String)
  | arr (l : List JDoc)
  | obj (l : List (String × JDoc))

/-- A decoded value: JSON values with notes. -/
inductive PDoc where
  | null
  | bool (b : Bool)
  | int (n : Int)
  | num (q : ℚ)
  | str (s : String)
  | arr (l : List PDoc)
  | dict (l : List (String × PDoc))
  | note (n : Note)

/-- `d[k]` of the dictionary built from pairs: the last pair with the key wins. -/
def pairGet (l : List (String × PDoc)) (k : String) : Option PDoc := (l.reverse.find? (fun p => p.1 == k)).map (·.2)

/-- An integer keyword argument with its default; a value of another type is given TypeError (Python accepts some of them: not modelled). -/
def argInt (l : List (String × PDoc)) (k : String) (d : Int) : Py Int :=
  match pairGet l k with
  | none => .ok d
  | some (.int n) => .ok n
  | some _ => .error .type

/-- A number as keyword argument, with its default. -/
def argNum (l : List (String × PDoc)) (k : String) (d : Option ℚ) : Py ℚ :=
  match pairGet l k with
  | none => match d with
    | some q => .ok q
    | none => .error .type
  | some (.int n) => .ok n
  | some (.num q) => .ok q
  | some _ => .error .type

/-- The parameters of the constructor (midi_note.py 76-89). -/
def noteParams : List String :=
  ["pitch", "start_time", "end_time", "program", "instrument", "velocity", "quantized_start_step", "quantized_end_step", "voice", "numerator", "denominator", "is_drum"]

/-- `MidiNote(**d)` (midi_note.py 76-89): an unknown keyword or a missing required one raises TypeError. -/
def noteOfKeywords (l : List (String × PDoc)) : Py Note :=
  if l.any (fun p => !noteParams.contains p.1) then .error .type
  else if (pairGet l "pitch").isNone then .error .type
  else do
    let pitch ← argInt l "pitch" 0
    let start ← argNum l "start_time" none
    let stop ← argNum l "end_time" none
    let program ← argInt l "program" 0
    let instrument ← argInt l "instrument" 0
    let velocity ← argInt l "velocity" 127
    let qs ← argNum l "quantized_start_step" (some (-1))
    let qe ← argNum l "quantized_end_step" (some (-1))
    let voice ← argInt l "voice" 0
    let numer ← argInt l "numerator" 4
    let denom ← argInt l "denominator" 4
    let drum ← match pairGet l "is_drum" with
      | none => .ok false
      | some (.bool b) => .ok b
      | some _ => .error .type
    Note.mk? ⟨pitch, start, stop, program, instrument, velocity, qs, qe, voice, numer, denom, drum⟩

/-- `object_hook` (midi_note.py 40-50): called with every object after its parts have been decoded. -/
def objectHook (l : List (String × PDoc)) : Py PDoc :=
  if (pairGet l "__MidiNote__").isSome then
    match pairGet l "data" with
    | none => .error .key
    | some (.dict d) => (noteOfKeywords d).map .note
    | some _ => .error .type
  else .ok (.dict l)

mutual
/-- `decode` (midi_note.py 52-61) of a parsed document: the hook is applied to the objects from the inside out, in the order of the text. -/
def decodeDoc : JDoc → Py PDoc
  | .null => .ok .null
  | .bool b => .ok (.bool b)
  | .int n => .ok (.int n)
  | .num q => .ok (.num q)
  | .str s => .ok (.str s)
  | .arr l => (decodeList l).map .arr
  | .obj l => (decodePairs l).bind objectHook
/-- The parts of an array. -/
def decodeList : List JDoc → Py (List PDoc)
  | [] => .ok []
  | d :: rest => (decodeDoc d).bind (fun v => (decodeList rest).map (v :: ·))
/-- The members of an object. -/
def decodePairs : List (String × JDoc) → Py (List (String × PDoc))
  | [] => .ok []
  | (k, d) :: rest => (decodeDoc d).bind (fun v => (decodePairs rest).map ((k, v) :: ·))
end

end NGC
