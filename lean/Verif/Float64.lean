import Verif.Py
import Mathlib.Data.Int.Log
import Mathlib.Tactic.Linarith
import Mathlib.Tactic.Positivity
import Mathlib.Tactic.FieldSimp
import Mathlib.Tactic.Ring

/-!
Python's floats: rounding of an exact result to the nearest binary64 number, ties to even (IEEE 754), as CPython and numpy do for
`+ - * /`. The other modules compute with exact rationals; the modules that import this one say what rounding changes.

Left out: overflow (above 1.8e308), numbers below 2^-1022, infinities and NaN.
-/

namespace NGC

/-- The distance of neighbouring floats around `q`: 53 bits. -/
def ulp64 (q : ℚ) : ℚ := (2 : ℚ) ^ (Int.log 2 |q| - 52)

/-- The float nearest to `q`, ties to even: what an arithmetic operation with exact result `q` returns. -/
def b64 (q : ℚ) : ℚ := if q = 0 then 0 else (roundHE (q / ulp64 q) : ℚ) * ulp64 q

end NGC
