import Verif.Py

/-!
Model of `midi/midi_utils.py` (conversions and quantizers). Floats are exact rationals; the checks
`isinstance(x, (int, float))` are left out. Functions decorated with `np.vectorize` act elementwise on
arrays; the scalar is modelled.
-/

namespace NGC

/-! ### Conversions -/

/-- `steps_per_second_from_bpm` (midi_utils.py 18-41). -/
def stepsPerSecondFromBpm (bpm resolution : ℚ) : ℚ := bpm * resolution / 60

/-- `from_bpm_spq_to_sps` (midi_utils.py 44-66). -/
def fromBpmSpqToSps (spq bpm fourQuarter : ℚ) : Py ℚ :=
  if fourQuarter = 0 then .error .zeroDiv else .ok (spq * (bpm / fourQuarter) / 60)

/-- `from_spq_to_sps` (midi_utils.py 69-83). -/
def fromSpqToSps (spq qpm : ℚ) : ℚ := spq * qpm / 60

/-- `bpm_to_qpm_np` (midi_utils.py 86-95): rounded to ten decimals. -/
def bpmToQpmNp (bpm beats : ℚ) : ℚ := (roundHE (bpm * beats / 60 * 10 ^ 10) : ℚ) / 10 ^ 10

/-- `bpm_to_qpm` (midi_utils.py 98-107). -/
def bpmToQpm (bpm beats : ℚ) : ℚ := bpm / 60 * beats

/-- `qpm_to_bpm` (midi_utils.py 110-123). -/
def qpmToBpm (qpm quarter : ℚ) : ℚ := qpm * quarter

/-! ### Frames -/

/-- `frames_from_times` (midi_utils.py 126-160). With a zero rate and a positive occupancy the
division would be by zero, but then the check in 149 has failed. -/
def framesFromTimes (start stop fps occ : ℚ) : Py (Int × Int) :=
  if start < 0 ∨ stop < 0 then .error .value
  else
    let s := ⌊start * fps⌋
    let e := ⌈stop * fps⌉
    if e ≤ s then .error .value
    else if 0 < occ then
      let s' := s + ⌈occ - ((s : ℚ) + 1 - start * fps) / fps⌉
      let e' := e - ⌈occ - (stop * fps - e) / fps⌉
      .ok (s', max s' e')
    else .ok (s, e)

/-! ### Quantizers -/

/-- `ft_quantize_to_nearest_step` (midi_utils.py 163-204). -/
def ftQuantize (time sps thr : ℚ) : Py Int :=
  if sps ≤ 0 then .error .value
  else if thr < 0 ∨ 1 ≤ thr then .error .value
  else
    let x := time * sps
    let threshold := sps * thr
    if x < 0 then
      if threshold ≤ Int.fract |x| then .ok (pyInt x - 1) else .ok (pyInt x)
    else
      if threshold ≤ Int.fract x then .ok (pyInt x + 1) else .ok (pyInt x)

/-- Ticks per step of `quantize_to_nearest_step` (midi_utils.py 211-215). -/
def ticksPerStep (step num : ℚ) : Int :=
  if step = 1 then ⌊480 * num / step⌋ else ⌈480 * num / step⌉

/-- `quantize_to_nearest_step` (midi_utils.py 207-223). -/
def quantizeToNearestStep (time step tempo num : ℚ) : Py ℚ :=
  if step = 0 then .error .zeroDiv
  else
    let tps := ticksPerStep step num
    let ticksPerSecond := 480 * tempo / 60
    if tps = 0 then .error .zeroDiv
    else
      let ticks := roundHE (time * ticksPerSecond / tps) * tps
      if ticksPerSecond = 0 then .error .zeroDiv
      else
        if step = 1 ∧ (roundHE ((ticks : ℚ) / 480) * 480) % 480 ≠ 0 then .error .assertion
        else .ok (ticks / ticksPerSecond)

/-- `Decimal.to_integral_value(ROUND_HALF_UP)`: nearest integer, ties away from zero. -/
def roundHalfAway (q : ℚ) : Int := if 0 ≤ q then ⌊q + 1/2⌋ else -⌊-q + 1/2⌋

/-- `quantize_to_nearest_step_alt` (midi_utils.py 225-238). The 28 digits of the decimal context are
not modelled. -/
def quantizeAlt (time sps thr : ℚ) : Int := roundHalfAway (time * sps - thr)

/-- `np.argmin`: position of the first minimum. -/
def argminFrom (f : ℚ → ℚ) : List ℚ → ℚ → ℚ
  | [], best => best
  | x :: xs, best => if f x < f best then argminFrom f xs x else argminFrom f xs best

/-- The grid point one note goes to (midi_utils.py 256-258). `argmin` of nothing is a ValueError. -/
def nearestPoint (metric : ℚ → ℚ → ℚ) (grid : List ℚ) (note : ℚ) : Py ℚ :=
  match grid with
  | [] => .error .value
  | g :: gs => .ok (argminFrom (metric note) gs g)

/-- `vector_quantize` (midi_utils.py 241-260), one-dimensional points. -/
def vectorQuantize (metric : ℚ → ℚ → ℚ) (grid : List ℚ) : List ℚ → Py (List ℚ)
  | [] => .ok []
  | n :: ns => do
    let q ← nearestPoint metric grid n
    let more ← vectorQuantize metric grid ns
    .ok (q :: more)

/-- `quantize_and_snap_to_grid` (midi_utils.py 263-296): the key function of `min` uses the variable of
a loop that has not started. -/
def quantizeAndSnap {α : Type} (notes : List α) (_grid : ℚ) : Py (List (List α)) :=
  match notes with
  | [] => .error .value
  | _ :: _ => .error .name

/-- `quantize_note_to_step_grid` (midi_utils.py 299-327). `//` and `%` are Python's, which for a
negative divisor differ from Lean's: `Int.fdiv`, `Int.fmod`. -/
def quantizeNoteToGrid (start stop step grid : ℚ) : Py (ℚ × ℚ) :=
  if start < 0 ∨ stop < 0 then .error .value
  else if step = 0 then .error .zeroDiv
  else
    let spg := pyInt (grid / step)
    let s := roundHE (start / step)
    let e := roundHE (stop / step)
    if spg = 0 then .error .zeroDiv
    else .ok ((Int.fdiv s spg : ℚ) * grid + (Int.fmod s spg : ℚ) * step,
              (Int.fdiv e spg : ℚ) * grid + (Int.fmod e spg : ℚ) * step)

/-- `interpolates_quantize` (midi_utils.py 330-367). The interpolated times are computed and not used. -/
def interpolatesQuantize (start stop step grid tempo : ℚ) : Py (ℚ × ℚ) :=
  if step = 0 then .error .zeroDiv
  else
    let tps := 480 * tempo / 60
    let spg := pyInt (grid / step * tps)
    let s := roundHE (start * tps / step)
    let e := roundHE (stop * tps / step)
    if tps = 0 then .error .zeroDiv
    else if spg = 0 then .error .zeroDiv
    else .ok ((Int.fdiv s spg : ℚ) * grid + (Int.fmod s spg : ℚ) * step,
              (Int.fdiv e spg : ℚ) * grid + (Int.fmod e spg : ℚ) * step)

end NGC
