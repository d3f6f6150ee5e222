import Verif.Shared

/-!
The plot of the metrics (ngc_shared.py 108-182).

Simplified: the metrics are lists (the check of their types, 116-122, passes, as everything in the repository that assigns them assigns lists); a line is its label with the points it is
drawn through; sizes, colours and the window are left out. From the library it is taken that `plt.plot` raises ValueError for lists of different lengths and `range` for a step of 0.
-/

namespace NGC

/-- A line of the plot: label, places, values. -/
structure PlotLine where
  label : String
  xs : List Nat
  ys : List ℚ
  deriving DecidableEq

/-- What `plot_metrics` leaves: the lines, the title, and the file if one is written. -/
structure MetricPlot where
  lines : List PlotLine
  title : List Char
  file : Option (List Char)
  deriving DecidableEq

/-- `if ys: plt.plot(xs, ys, label=label)` (ngc_shared.py 126-135, 141-152, 158-169). -/
def plotIf (label : String) (xs : List Nat) (ys : List ℚ) : Py (List PlotLine) :=
  if ys = [] then .ok [] else if xs.length = ys.length then .ok [⟨label, xs, ys⟩] else .error .value

/-- `plt.plot` for several lists over the same places, one after the other. -/
def plotAll (xs : List Nat) (l : List (String × List ℚ)) : Py (List PlotLine) :=
  l.foldlM (fun acc p => (plotIf p.1 xs p.2).map (fun q => acc ++ q)) []

/-- `range(freq, count * freq + 1, freq)` (ngc_shared.py 137-139, 154-156). -/
def epochTicks (freq count : Nat) : Py (List Nat) :=
  if freq = 0 then .error .value else .ok ((List.range count).map (fun k => freq + k * freq))

/-- One of the two blocks (ngc_shared.py 136-152, 153-169): drawn if none of the first four lists is empty. -/
def plotBlock (freq : Nat) (accs f1s precisions recalls : List ℚ) (names : List String) (aucs aps : List ℚ) : Py (List PlotLine) :=
  if accs ≠ [] ∧ f1s ≠ [] ∧ precisions ≠ [] ∧ recalls ≠ [] then do
    let xs ← epochTicks freq accs.length
    plotAll xs ((names.zip [accs, f1s, precisions, recalls]) ++ [("test_auc", aucs), ("test_ap", aps)])
  else .ok []

/-- `plot_metrics` (ngc_shared.py 108-182). -/
def plotMetrics (m : Metrics) (evalFreq testFreq : Nat) (selfType outputDir modelType : List Char) : Py MetricPlot := do
  let name := if selfType = [] then modelType else selfType
  let train ← plotAll (List.range' 1 m.trainLosses.length)
    [("train_loss", m.trainLosses), ("train_f1", m.trainF1s), ("train_acc", m.trainAccs), ("train_precision", m.trainPrecisions), ("train_recall", m.trainRecalls)]
  let val ← plotBlock evalFreq m.valAccs m.valF1s m.valPrecisions m.valRecalls ["val_acc", "val_f1", "val_precision", "val_recall"] m.testAucs m.testAps
  let test ← plotBlock testFreq m.testAccs m.testF1s m.testPrecisions m.testRecalls ["test_acc", "test_f1", "test_precision", "test_recall"] m.testAucs m.testAps
  .ok ⟨train ++ val ++ test, name ++ " Training Metrics".toList,
    if outputDir = [] then none else some (joinPath outputDir (name ++ "_metrics.png".toList))⟩

end NGC
