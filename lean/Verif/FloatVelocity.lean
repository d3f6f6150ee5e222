import Verif.Float64
import Verif.Graph

/-!
The scaling of velocities (midi_graph_builder.py) computed with floats. Velocities are whole numbers (numpy: int64, no overflow), as `MidiNote` requires.
-/

namespace NGC

/-- One entry of the array `(velocities - min) * (tmax - tmin) / denominator + tmin` in floats (midi_graph_builder.py 634-635): the product is one
of whole numbers, both operands of the division are converted to floats. -/
def rescaleAtF (lo den tmin tmax x : Int) : ℚ :=
  b64 (b64 (b64 (((x - lo) * (tmax - tmin) : Int) : ℚ) / b64 (den : ℚ)) + tmin)

/-- `rescale_velocities` in floats (midi_graph_builder.py 601-639). -/
def rescaleVelocitiesF (vs : List Int) (tmin : Int := 32) (tmax : Int := 127) : Py (List ℚ) :=
  match vs with
  | [] => .error .value
  | [v] => .ok [clipQ tmin tmax
      ((roundHE (b64 (b64 (b64 ((v * (tmax - tmin) : Int) : ℚ) / 127) + tmin)) : Int) : ℚ)]
  | v :: rest =>
    let lo := rest.foldl min v
    let hi := rest.foldl max v
    let den := hi - lo
    let scaled := if den ≤ 0 then vs.map (fun _ => (tmin : ℚ))
      else vs.map (rescaleAtF lo den tmin tmax)
    .ok (scaled.map (fun x => ((pyInt (clipQ 0 127 x) : Int) : ℚ)))

/-- `np.mean` of whole numbers whose partial sums are exact in floats (below 2^53 in absolute value), so that the order of summation does not
matter. -/
def meanF (vs : List Int) : ℚ := b64 ((vs.sum : ℚ) / vs.length)

/-- One entry of `velocities / avg * factor * avg` in floats (midi_graph_builder.py 660-662). -/
def relativeAtF (avg factor : ℚ) (v : Int) : ℚ := b64 (b64 (b64 (v / avg) * factor) * avg)

/-- `scale_relative_velocities` in floats (midi_graph_builder.py 642-666). With a zero mean numpy yields nan or inf and the cast to int is
platform dependent: not modelled, `none`. -/
def scaleRelativeF (vs : List Int) (factor : ℚ) : Option (List ℚ) :=
  if meanF vs = 0 then none
  else some (vs.map (fun v => ((pyInt (clipQ 0 127 (relativeAtF (meanF vs) factor v)) : Int) : ℚ)))

end NGC
