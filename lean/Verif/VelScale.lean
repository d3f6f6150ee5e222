import Verif.Float64

/-!
Model of `rescale_velocities` and `scale_relative_velocities` of ngc_small_graph.py (376-390, 399-421). `rnd` is the
rounding of float operations: `b64` in the program, `id` for exact arithmetic. Sums of integers are taken to be exact, as they are
in numpy below 2^53. An entry `none` stands for `nan`, whose conversion to an integer numpy leaves open (with a warning).
-/

namespace NGC

/-- `np.clip(x, 0, 127).astype(int)` of a number (ngc_small_graph.py 388, 419). -/
def clipVel (x : ℚ) : Int := ⌊min (max x 0) 127⌋

/-- `np.min` / `np.max` (ngc_small_graph.py 380-381) of a list with first entry `v`. -/
def lowest (v : Int) (vs : List Int) : Int := vs.foldl min v
def highest (v : Int) (vs : List Int) : Int := vs.foldl max v

/-- `rescale_velocities(velocities, target_min, target_max)` (ngc_small_graph.py 376-390); `np.min` of nothing is a
ValueError, and `0 / 0` is `nan`. The defaults are 64 and 127. -/
def rescaleVel (rnd : ℚ → ℚ) (vs : List Int) (tmin : Int := 64) (tmax : Int := 127) : Py (List (Option Int)) :=
  match vs with
  | [] => .error .value
  | v :: rest =>
    let mn := lowest v rest
    let mx := highest v rest
    .ok (vs.map (fun w =>
      if mx = mn then none
      else some (clipVel (rnd (rnd ((((w - mn) * (tmax - tmin) : Int) : ℚ) / ((mx - mn : Int) : ℚ)) + tmin)))))

/-- `scale_relative_velocities(velocities, scaling_factor)` (ngc_small_graph.py 399-421): with an average of 0 every entry
is `0 / 0` or infinity times 0, so `nan`. -/
def scaleVel (rnd : ℚ → ℚ) (vs : List Int) (factor : ℚ := 1) : List (Option Int) :=
  let avg := rnd ((vs.sum : ℚ) / vs.length)
  vs.map (fun (v : Int) => if avg = 0 then none else some (clipVel (rnd (rnd (rnd ((v : ℚ) / avg) * factor) * avg))))

end NGC
