import Verif.FloatTree
import Mathlib.Data.Nat.Log

/-! Model of `score` (intervaltree.py 1005-1037) and `depth_score` (node.py 564-594). -/

namespace NGC
variable {D : Type} [DecidableEq D]

/-- `depth_score_helper(d, dopt)` (node.py 578-594). -/
def ITree.depthScoreHelper : ITree D → Int → Int → Int
  | .nil, _, _ => 0
  | .node _ s l r _ _, d, dopt =>
    (if d - dopt > 0 then (d - dopt) * s.length else 0) + r.depthScoreHelper (d + 1) dopt + l.depthScoreHelper (d + 1) dopt

/-- `depth_score(n, m)` (node.py 564-576). `floor(log(m, 2))` is taken without rounding errors. -/
def ITree.depthScore (t : ITree D) (n m : Nat) : Py ℚ :=
  if n = 0 then .ok 0
  else
    let dopt : Int := 1 + Nat.log 2 m
    if (1 + n - dopt : Int) = 0 then .error .zeroDiv
    else .ok (1 / ((1 + n - dopt : Int) : ℚ) * (t.depthScoreHelper 1 dopt : ℚ))

/-- `score()` (intervaltree.py 1005-1037); the report is the pair of the two scores. With more than two intervals there is a top node. -/
def FTree.scoreReport (t : FTree D) : Py (ℚ × ℚ) := do
  let n := t.len
  let m := t.top.count
  let d ← t.top.depthScore n m
  .ok (d, ((n : ℚ) - m) / ((n : ℚ) - 1))

/-- `score()` without the report. -/
def FTree.score (t : FTree D) : Py ℚ :=
  if t.len ≤ 2 then .ok 0
  else do
    let r ← t.scoreReport
    .ok (max r.1 r.2)

end NGC
