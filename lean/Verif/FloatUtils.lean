import Verif.Utils
import Verif.Float64Lemmas

/-!
The quantizers of `midi/midi_utils.py` computed with Python's floats: every `*`, `/` and `+` is rounded (`b64`). The arguments are floats. `x % 1`, `abs`, `int` and `round` of a
float are exact. Left out: the whole numbers numpy cannot hold (from 2^63).
-/

namespace NGC

/-- `ft_quantize_to_nearest_step` (midi_utils.py 163-204) in floats. -/
def ftQuantizeF (time sps thr : ℚ) : Py Int :=
  if sps ≤ 0 then .error .value
  else if thr < 0 ∨ 1 ≤ thr then .error .value
  else
    let x := b64 (time * sps)
    let threshold := b64 (sps * thr)
    if x < 0 then
      if threshold ≤ Int.fract |x| then .ok (pyInt x - 1) else .ok (pyInt x)
    else
      if threshold ≤ Int.fract x then .ok (pyInt x + 1) else .ok (pyInt x)

/-- One time of `quantize_note_to_step_grid` (midi_utils.py 315-325): step `s`, `spg` steps per grid. The quotient becomes a float before it is multiplied. -/
def gridTimeOf (s spg : Int) (step grid : ℚ) : ℚ :=
  b64 (b64 (b64 (Int.fdiv s spg : ℚ) * grid) + b64 (b64 (Int.fmod s spg : ℚ) * step))

/-- `quantize_note_to_step_grid` (midi_utils.py 299-327) in floats. -/
def quantizeNoteToGridF (start stop step grid : ℚ) : Py (ℚ × ℚ) :=
  if start < 0 ∨ stop < 0 then .error .value
  else if step = 0 then .error .zeroDiv
  else
    let spg := pyInt (b64 (grid / step))
    let s := roundHE (b64 (start / step))
    let e := roundHE (b64 (stop / step))
    if spg = 0 then .error .zeroDiv
    else .ok (gridTimeOf s spg step grid, gridTimeOf e spg step grid)

/-- `frames_from_times` (midi_utils.py 126-160) in floats, with the default occupancy 0. -/
def framesFromTimesF (start stop fps : ℚ) : Py (Int × Int) :=
  if start < 0 ∨ stop < 0 then .error .value
  else
    let s := ⌊b64 (start * fps)⌋
    let e := ⌈b64 (stop * fps)⌉
    if e ≤ s then .error .value else .ok (s, e)

/-- `check_quantization` (midi_utils.py 400-403): both assertions hold. -/
def checkQuantization (start stop step grid e1 e2 : ℚ) : Py Unit := do
  let q ← quantizeNoteToGridF start stop step grid
  if q.1 ≠ e1 then .error .assertion
  else if q.2 ≠ e2 then .error .assertion
  else .ok ()

/-- `check_grid_quantization` (midi_utils.py 406-423). -/
def checkGridQuantization : Py Unit := do
  checkQuantization (b64 1.2) (b64 2.8) 1 4 1 3
  checkQuantization (b64 1.6) (b64 3.7) 0.5 2 1.5 3.5
  checkQuantization 2 6 1 4 2 6
  checkQuantization 1.25 2.75 0.5 2 1 3
  checkQuantization (b64 1.8) (b64 7.2) 2 8 2 8

/-- The lines `check_for_nearest` prints (midi_utils.py 426-483): the result it announces and the result it gets. -/
def nearestLines : List (Int × Py Int) :=
  [(3, ftQuantizeF 1.5 2 0.5), (3, ftQuantizeF (b64 1.4) 2 0.5), (3, ftQuantizeF (b64 1.6) 2 0.5), (-3, ftQuantizeF (-1.5) 2 0.5), (3, ftQuantizeF 1.5 2 (b64 0.6)),
   (6, ftQuantizeF 1.5 4 0.5), (12, ftQuantizeF 1.5 8 0.5), (24, ftQuantizeF 1.5 16 0.5), (48, ftQuantizeF 1.5 32 0.5), (3, ftQuantizeF 0.75 4 0.5),
   (18, ftQuantizeF 2.25 8 0.5), (4, ftQuantizeF (b64 0.3) 16 0.5), (54, ftQuantizeF (b64 1.7) 32 0.5), (6, ftQuantizeF 1.5 4 (b64 0.4)),
   (2, ftQuantizeF (b64 0.35) 4 (b64 0.4)), (1, ftQuantizeF (b64 0.35) 4 0.5), (2, ftQuantizeF (b64 0.65) 4 (b64 0.6))]

end NGC
