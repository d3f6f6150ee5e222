import Verif.Transforms
import Mathlib.Data.List.Dedup

/-!
Model of the construction of trainers (`Experiments`, ngc_shared.py, and the examples that derive from it) and of the evaluation and the bookkeeping of
minimum_example_node_classification.py. What the network predicts is arbitrary; the scores of scikit-learn are modelled by their definition (`average='micro'`). Loss, optimiser
and logging are left out.
-/

namespace NGC

/-! ### Constructors -/

/-- A Python value as the constructor of `Experiments` sees it: `sized` is anything else with `__getitem__` and `__len__` (a list, say), `plain` anything else without. -/
inductive TArg where
  | none
  | bool (b : Bool)
  | int (n : Int)
  | dataset (numClasses : Nat)
  | sized
  | plain
  deriving DecidableEq

/-- `hasattr(v, '__getitem__') and hasattr(v, '__len__')` (ngc_shared.py 51). -/
def TArg.hasItems : TArg → Bool
  | .dataset _ => true
  | .sized => true
  | _ => false

/-- `isinstance(v, int) and v > 0` (ngc_shared.py 54-55); `True` is an integer. -/
def TArg.positive : TArg → Bool
  | .bool b => b
  | .int n => decide (0 < n)
  | _ => false

/-- What the constructor keeps of its arguments (ngc_shared.py 57-69). -/
structure Experiment where
  dataset : TArg
  epochs : TArg
  batch : TArg
  numClasses : Nat
  deriving DecidableEq

/-- `Experiments(midi_dataset, epochs, batch_size)` (ngc_shared.py 33-105). -/
def Experiment.new (midi : TArg) (epochs batch : TArg) : Py Experiment :=
  if epochs = .none then .error .value
  else if batch = .none then .error .value
  else if midi = .none then .error .value
  else if midi.hasItems = false then .error .value
  else if batch.positive = false then .error .assertion
  else if epochs.positive = false then .error .assertion
  else match midi with
    | .dataset k => .ok ⟨midi, epochs, batch, k⟩
    | _ => .error .attribute

/-- The call `super().__init__(epochs, batch_size, midi_dataset)` with which the constructors of the examples begin (example01_node_classification.py 343-345, example02.py 71,
example03_lstm.py 242, example03a_lstm.py 250, example04_gae.py 246-247, ngc_example05_gin.py 59): positional, in another order than the parameters. -/
def exampleSuper (epochs batch midi : TArg) : Py Experiment := Experiment.new epochs batch midi

/-- The call with which `NgcTrainer.__init__` begins (minimum_example_node_classification.py 285-292): by name. -/
def ngcSuper (epochs batch midi : TArg) : Py Experiment := Experiment.new midi epochs batch

/-! ### Scores -/

/-- The scores of one mask. -/
structure Scores where
  acc : ℚ
  f1 : ℚ
  prec : ℚ
  recl : ℚ
  deriving DecidableEq

/-- `precision_score`, `recall_score` and `f1_score` with `average='micro'` of scikit-learn, on lists that are not empty. -/
def microScores (y p : List Int) : ℚ × ℚ × ℚ :=
  let labels := (y ++ p).dedup
  let tp := (labels.map (fun c => (y.zip p).countP (fun q => decide (q.1 = c ∧ q.2 = c)))).sum
  let predSum := (labels.map (fun c => p.count c)).sum
  let trueSum := (labels.map (fun c => y.count c)).sum
  ((tp : ℚ) / predSum, (tp : ℚ) / trueSum, 2 * (tp : ℚ) / ((predSum : ℚ) + trueSum))

/-- A batch with the predictions of the network: labels, predictions and, for every split, the masks of training, validation and test nodes. -/
structure EvalBatch where
  y : List Int
  pred : List Int
  splits : List (List Bool × List Bool × List Bool)

/-- The body of the inner loop of `test` (minimum_example_node_classification.py 340-352): division by the size of the mask. -/
def maskScores (y pred : List Int) (mask : List Bool) : Py Scores := do
  let p ← selMask mask pred
  let t ← selMask mask y
  if mask.count true = 0 then .error .zeroDiv
  else
    let s := microScores t p
    .ok ⟨((p.zip t).countP (fun q => decide (q.1 = q.2)) : ℚ) / mask.count true, s.2.2, s.1, s.2.1⟩

/-- One round of the outer loop of `test` (minimum_example_node_classification.py 339-352). -/
def splitScores (b : EvalBatch) (s : List Bool × List Bool × List Bool) : Py (Scores × Scores × Scores) := do
  let tr ← maskScores b.y b.pred s.1
  let va ← maskScores b.y b.pred s.2.1
  let te ← maskScores b.y b.pred s.2.2
  .ok (tr, va, te)

/-- The mean of `f` over a list. -/
def meanOf {α : Type} (f : α → ℚ) (l : List α) : ℚ := (l.map f).sum / l.length

/-- The means of the four scores. -/
def Scores.mean (l : List Scores) : Scores := ⟨meanOf (·.acc) l, meanOf (·.f1) l, meanOf (·.prec) l, meanOf (·.recl) l⟩

/-- The columnwise means of rows of three. -/
def meanRows (l : List (Scores × Scores × Scores)) : Scores × Scores × Scores :=
  (Scores.mean (l.map (·.1)), Scores.mean (l.map (·.2.1)), Scores.mean (l.map (·.2.2)))

/-- `test(data)` (minimum_example_node_classification.py 329-361), followed by the assignment of its results to rows of three (388-391): without splits the lists are empty and
the assignment raises ValueError. -/
def testBatch (b : EvalBatch) : Py (Scores × Scores × Scores) := do
  let rows ← b.splits.mapM (splitScores b)
  if rows = [] then .error .value else .ok (meanRows rows)

/-! ### The training loop -/

/-- The four best values (minimum_example_node_classification.py 370), as the variables are named there. -/
structure Best where
  finalTestAcc : ℚ := 0
  bestValAcc : ℚ := 0
  bestTestF1 : ℚ := 0
  bestValF1 : ℚ := 0
  deriving DecidableEq

/-- `if x > best: best = x`. -/
def keepMax (x best : ℚ) : ℚ := if x > best then x else best

/-- One epoch of `trainer` (minimum_example_node_classification.py 371-408): the batches of the test loader with their predictions. -/
def epochStep (best : Best) (batches : List EvalBatch) : Py Best := do
  let rows ← batches.mapM testBatch
  let m := meanRows rows
  .ok ⟨keepMax m.2.1.acc best.finalTestAcc, keepMax m.2.2.acc best.bestValAcc, keepMax m.2.1.f1 best.bestTestF1, keepMax m.2.2.f1 best.bestValF1⟩

/-- `trainer()` (minimum_example_node_classification.py 363-438). -/
def runTrainer (epochs : List (List EvalBatch)) : Py Best := epochs.foldlM epochStep {}

/-- What `main` prints at the end (minimum_example_node_classification.py 502-509), by the labels of the printed text. -/
structure Report where
  valAccuracy : ℚ
  testAccuracy : ℚ
  valF1 : ℚ
  testF1 : ℚ
  deriving DecidableEq

/-- `best_val_acc, final_test_acc, best_f1_test, best_f1_val = trainer()`, where `trainer` returns `final_test_acc, best_val_acc, best_test_f1, best_val_f1`
(minimum_example_node_classification.py 438, 502-509). -/
def report (epochs : List (List EvalBatch)) : Py Report := do
  let b ← runTrainer epochs
  .ok { valAccuracy := b.finalTestAcc, testAccuracy := b.bestValAcc, valF1 := b.bestValF1, testF1 := b.bestTestF1 }

end NGC
