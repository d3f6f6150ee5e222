import Verif.HashOrder

/-!
The automatic tolerance of the graph builder with floats: `np.diff` of the sorted start times and `np.percentile` (numpy 1.22 or later,
method "linear"), every operation rounded to binary64. Start times are floats.
-/

namespace NGC

/-- `np.diff` on floats. -/
def diffsF : List ℚ → List ℚ
  | a :: b :: rest => b64 (b - a) :: diffsF (b :: rest)
  | _ => []

/-- `instrument_time_differences` (midi_graph_builder.py 590-598) with floats. -/
def timeDifferencesF (s : MSeq) : List ℚ :=
  diffsF (sortByKey id ((s.notes.filter (fun _ => !s.instr.isDrum && decide (0 < s.notes.length))).map Note.start))

/-- numpy's `_lerp`: from the left end below one half, from the right end otherwise. -/
def lerpF (a b t : ℚ) : ℚ :=
  if t < 1/2 then b64 (a + b64 (b64 (b - a) * t))
  else b64 (b - b64 (b64 (b - a) * b64 (1 - t)))

/-- `np.percentile(l, q)`: the virtual index `(n - 1) * (q / 100)`; from the last index on, the last entry twice; otherwise the two entries
around it and the fraction after the lower index. -/
def percentileF (l : List ℚ) (q : ℚ) : ℚ :=
  let s := sortByKey id l
  let n1 := l.length - 1
  let pos := b64 ((n1 : ℚ) * b64 (q / 100))
  if (n1 : ℚ) ≤ pos then lerpF (s.getD n1 0) (s.getD n1 0) 0
  else lerpF (s.getD ⌊pos⌋.toNat 0) (s.getD (⌊pos⌋.toNat + 1) 0) (b64 (pos - ⌊pos⌋.toNat))

/-- `compute_tolerance` (midi_graph_builder.py 669-693) with floats. -/
def computeToleranceF (s : MSeq) (q : ℚ := 95) : ℚ :=
  let d := timeDifferencesF s
  if d.length < 2 then 0 else percentileF d q

/-- `compute_data` (midi_graph_builder.py 696-749) with the automatic tolerance, all in floats, without the single note filter. -/
def computeDataAutoF (s : MSeq) : Py (List (Int × List Note) × Nat) := computeDataF (computeToleranceF s) s

end NGC
