import Verif.Float64
import Verif.Note
import Verif.Events
import Verif.Dataset
import Verif.PrettyMidi

/-!
The same functions as in `Note`, `Events`, `Dataset` and `PrettyMidi`, computed with floats: every `+ - * /` is followed by rounding
to binary64 (`b64`). Arguments that are floats in Python stand for their exact values.
-/

namespace NGC

/-! ### Quantizing (midi_note.py, midi_control_change.py) -/

/-- `midi_time * sps + (1 - amount)` in floats (midi_note.py 365, midi_control_change.py 333). -/
def stepPosF (t : ℚ) (sps : Int) (amount : ℚ) : ℚ := b64 (b64 (t * b64 sps) + b64 (1 - amount))

/-- `MidiNote.quantize_to_nearest_step` in floats (midi_note.py 338-368). -/
def quantizeStepF (t : ℚ) (sps : Int) (amount : ℚ) (isFloor : Bool) : Py Int :=
  if sps ≤ 0 then .error .value
  else if amount ≤ 0 then .error .value
  else .ok (max 0 (if isFloor then ⌊stepPosF t sps amount⌋ else ⌈stepPosF t sps amount⌉))

/-- `MidiControlChange.quantize_to_nearest_step` in floats (midi_control_change.py 329-333). -/
def ccStepF (t : ℚ) (sps : Int) (amount : ℚ) : Int := pyInt (stepPosF t sps amount)

/-- `np.around(x, 2)` on a float: `rint(x * 100) / 100`, both operations rounded. -/
def around2F (x : ℚ) : ℚ := b64 ((roundHE (b64 (x * 100)) : ℚ) / 100)

/-- The two target steps of a first quantization (midi_note.py 455-462); steps are integers far below 2^53, so the additions on them
are exact. -/
def Note.targetStepsF (n : Note) (sps : Int) (amount : ℚ) : Py (ℚ × ℚ) := do
  let q0 ← quantizeStepF n.start sps amount true
  let q1 ← quantizeStepF n.stop sps amount false
  let q1 := if sps = 1 ∧ q0 = q1 then q1 + 1 else q1
  .ok (q0, q1)

/-- Storing the steps of a first quantization (midi_note.py 475-482). -/
def Note.storeStepsF (n : Note) (sps : Int) (q0 q1 : ℚ) : Py Note := do
  let n1 ← n.setQs (q0 + pyInt (b64 (max 0 (-n.start) * sps)))
  n1.setQe (q1 + pyInt (b64 (max 0 (-n.stop) * sps)))

/-- Moving the times (midi_note.py 509-529), in floats. -/
def Note.moveTimesF (n : Note) (sps : Int) (q0 q1 : ℚ) : Py Note :=
  let newEnd := around2F (b64 (q1 / sps))
  let newStart := around2F (b64 (q0 / sps))
  let newStart := max 0 (min newStart (b64 (n.stop - b64 (1/1000))))
  let newEnd := max 0 (min newEnd (b64 (999999 - b64 (1/1000))))
  let duration := b64 (n.stop - n.start)
  if newEnd < n.stop then do
    let n1 ← n.setStart newStart
    n1.setStop (b64 (n1.start + duration))
  else do
    let n1 ← n.setStop newEnd
    n1.setStart newStart

/-- `quantize_in_place` of a note that has not been quantized yet, without `min_step` (midi_note.py 428-536), in floats. -/
def Note.quantizeInPlaceF (n : Note) (sps : Int) (amount : ℚ) : Py Note := do
  let (q0, q1) ← n.targetStepsF sps amount
  let n1 ← n.storeStepsF sps q0 q1
  if n1.qs < 0 then .error .value
  else if n1.qe < 0 then .error .value
  else if n1.qs ≥ n1.qe then .error .value
  else do
    let n2 ← n1.moveTimesF sps q0 q1
    n2.setQs (max 0 n2.qs)

/-! ### Split masks (midi_dataset.py) -/

/-- The checks of the two ratios (midi_dataset.py 170-178), in floats: the sum is rounded before it is compared. -/
def ratioCheckF (train val : ℚ) : Py Unit :=
  if ¬ (0 ≤ train ∧ train ≤ 1) then .error .value
  else if ¬ (0 ≤ val ∧ val ≤ 1) then .error .value
  else if b64 (train + val) > 1 then .error .value
  else .ok ()

/-- Train, validation and test mask (midi_dataset.py 491-505 and 644-660), in floats. -/
def splitMasksF (train val : ℚ) (n : Nat) (perm : List Nat) : List Bool × List Bool × List Bool :=
  let a := (pyInt (b64 (train * n))).toNat
  let b := (pyInt (b64 (val * n))).toNat
  (maskOf n (perm.take a), maskOf n ((perm.drop a).take b), maskOf n (perm.drop (a + b)))

/-! ### Ticks and seconds (custom_pretty_midi.py) -/

/-- `60.0 / ((6e7 / tempo) * resolution)` in floats (custom_pretty_midi.py 162-163, 168). -/
def tickScaleF (res tempo : Nat) : Py ℚ :=
  if tempo = 0 ∨ res = 0 then .error .zeroDiv
  else .ok (b64 (60 / b64 (b64 (60000000 / (tempo : ℚ)) * res)))

/-- One event of the loop of `_load_tempo_changes` (custom_pretty_midi.py 158-171). -/
def tempoStepF (res : Nat) (scales : List (Nat × ℚ)) (e : Msg) : Py (List (Nat × ℚ)) :=
  match e.body with
  | .setTempo tempo => do
    let s ← tickScaleF res tempo
    if e.time = 0 then .ok [(0, s)]
    else match scales.getLast? with
      | none => .error .index
      | some (_, last) =>
        if s ≠ last then .ok (scales ++ [(e.time.toNat, s)]) else .ok scales
  | _ => .ok scales

/-- `_load_tempo_changes` (custom_pretty_midi.py 142-171), in floats. -/
def loadTempoF (res : Nat) (track0 : List Msg) : Py (List (Nat × ℚ)) :=
  if res = 0 then .error .zeroDiv
  else track0.foldlM (tempoStepF res) [(0, b64 (60 / b64 (120 * (res : ℚ))))]

/-- The loop over the tempo entries (custom_pretty_midi.py 250-265), in floats. -/
def fillTableF (maxTick : Nat) : List (Nat × ℚ) → ℚ → List ℚ → List ℚ
  | [], _, arr => arr
  | [(s, c)], last, arr => sliceSet arr s (maxTick + 1 - s) (fun i => b64 (last + b64 (c * i)))
  | (s, c) :: (e, c') :: rest, last, arr =>
    let arr := sliceSet arr s (e + 1 - s) (fun i => b64 (last + b64 (c * i)))
    fillTableF maxTick ((e, c') :: rest) (arr.getD e 0) arr

/-- `_update_tick_to_time` (custom_pretty_midi.py 236-265), in floats. -/
def tickTableF (scales : List (Nat × ℚ)) (maxTick : Nat) : List ℚ :=
  let m := (scales.map (fun p => p.1)).foldl max maxTick
  fillTableF m scales 0 (List.replicate (m + 1) 0)

/-- `tick_to_time` (custom_pretty_midi.py 999-1021), in floats. -/
def Clock.tickToTimeF (c : Clock) (tick : Nat) : Py (ℚ × Clock) :=
  if 1000000000 ≤ tick then .error .index
  else
    let c := if c.times.length ≤ tick then { c with times := tickTableF c.scales tick } else c
    match c.times[tick]? with
    | some t => .ok (t, c)
    | none => .error .index

/-- `time_to_tick` (custom_pretty_midi.py 1023-1052), in floats. -/
def Clock.timeToTickF (c : Clock) (time : ℚ) : Py Int :=
  let tick := searchsortedLeft c.times time
  if tick = c.times.length then
    match c.scales.getLast?, c.times.getLast? with
    | some (_, s), some l =>
      if s = 0 then .error .zeroDiv
      else .ok (roundHE (b64 (((c.times.length : Nat) : ℚ) - 1 + b64 (b64 (time - l) / s))))
    | _, _ => .error .index
  else if tick ≠ 0 ∧ |b64 (time - c.times.getD (tick - 1) 0)| < |b64 (time - c.times.getD tick 0)| then
    .ok ((tick : Int) - 1)
  else .ok (tick : Int)

end NGC
