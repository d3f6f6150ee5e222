import Verif.PyDict
import Verif.PyStr

/-!
Model of `ngc_shared.py` (`Experiments`): checkpoints, metrics files, and of the graph surgery in
`ngc_shared.py` and `transforms.py`.

Left out: plotting, data loaders, devices, printing. The contents of model and optimizer are opaque
values. `glob` returns the matching paths in an unspecified order.
-/

namespace NGC

/-! ### Checkpoint files -/

/-- The dictionary written by `save_checkpoint` (ngc_shared.py 208-212), or the beginning of it when
the process died inside `torch.save`. -/
inductive CkFile (S : Type) where
  | torn
  | full (epoch : Nat) (state : S)

/-- `f"checkpoint_{epoch}.pt"` (ngc_shared.py 206). -/
def ckName (epoch : Nat) : List Char := "checkpoint_".toList ++ decStr epoch ++ ".pt".toList

/-- The directory of one model, file name to content. -/
abbrev CkDir (S : Type) := List (List Char × CkFile S)

/-- `save_checkpoint` (ngc_shared.py 195-212). `state` stands for model and optimizer state. -/
def saveCheckpoint {S : Type} (d : CkDir S) (epoch : Nat) (state : S) : CkDir S :=
  dset d (ckName epoch) (.full epoch state)

/-- `save_checkpoint` interrupted inside `torch.save`. -/
def saveTorn {S : Type} (d : CkDir S) (epoch : Nat) : CkDir S := dset d (ckName epoch) .torn

/-- `os.path.splitext(name)[0]` for a name that does not begin with a dot. -/
def stem (name : List Char) : List Char :=
  if '.' ∈ name then ((name.reverse.dropWhile (· ≠ '.')).drop 1).reverse else name

/-- `s.split('_')[-1]`. -/
def lastSeg (s : List Char) : List Char := (s.reverse.takeWhile (· ≠ '_')).reverse

/-- The sort key (ngc_shared.py 233). `int` of anything but decimal digits raises ValueError here;
signs and blanks, which Python accepts, are left out. -/
def ckKey (name : List Char) : Py Nat :=
  match decVal (lastSeg (stem name)) with
  | some n => .ok n
  | none => .error .value

/-- Does `glob(".../*.pt")` list the name? -/
def globPt (name : List Char) : Bool :=
  decide (name.take 1 ≠ ['.']) && ".pt".toList.isSuffixOf name

/-- What `load_checkpoint` changes in the trainer, apart from the metrics. -/
structure Trainer (S : Type) where
  state : S
  startEpoch : Nat
  currentEpoch : Nat

/-- All keys are computed before sorting starts. -/
def ckKeys : List (List Char) → Py (List (List Char × Nat))
  | [] => .ok []
  | n :: ns => do
    let k ← ckKey n
    let ks ← ckKeys ns
    .ok ((n, k) :: ks)

/-- `torch.load` of a checkpoint and what is taken from it (ngc_shared.py 234-240); an incomplete file
makes `torch.load` raise. -/
def readCk {S : Type} (d : CkDir S) (name : List Char) : Py (Trainer S) :=
  match dget d name with
  | none => .error .fileNotFound
  | some .torn => .error .runtime
  | some (.full e s) => .ok ⟨s, e + 1, e + 1⟩

/-- The checkpoint part of `load_checkpoint` (ngc_shared.py 214-240). `listing` is what `glob`
returned. -/
def loadCheckpoint {S : Type} (t : Trainer S) (d : CkDir S) (listing : List (List Char)) :
    Py (Trainer S) :=
  if listing = [] then .ok t
  else do
    let keyed ← ckKeys listing
    match (sortByKey (fun p : List Char × Nat => (p.2 : ℚ)) keyed).getLast? with
    | none => .ok t
    | some p => readCk d p.1

/-! ### Metrics -/

/-- The metric lists of a trainer (ngc_shared.py 88-102) that some file may hold. -/
structure Metrics where
  valAccs : List ℚ := []
  valF1s : List ℚ := []
  valPrecisions : List ℚ := []
  valRecalls : List ℚ := []
  testAccs : List ℚ := []
  testF1s : List ℚ := []
  testPrecisions : List ℚ := []
  testRecalls : List ℚ := []
  testAucs : List ℚ := []
  testAps : List ℚ := []
  trainLosses : List ℚ := []
  trainF1s : List ℚ := []
  trainAccs : List ℚ := []
  trainRecalls : List ℚ := []
  trainPrecisions : List ℚ := []
  deriving DecidableEq

/-- A saved dictionary of lists. -/
abbrev MetricsDict := List (String × List ℚ)

/-- Which of the three files of a model. -/
inductive MetricsKind where
  | train | validation | test
  deriving DecidableEq

/-- `f"{model_type}_train_metrics.pt"` and its two siblings. -/
def MetricsKind.suffix : MetricsKind → List Char
  | .train => "_train_metrics.pt".toList
  | .validation => "_validation_metrics.pt".toList
  | .test => "_test_metrics.pt".toList

/-- `if v is not None: xs.append(v)`. -/
def appendSome (xs : List ℚ) (v : Option ℚ) : List ℚ :=
  match v with
  | some x => xs ++ [x]
  | none => xs

/-- Trainer metrics together with the metrics files of its model. -/
structure MetricsState where
  m : Metrics
  files : List (MetricsKind × MetricsDict)
  epoch : Nat
  rate : Nat

/-- `self.save_metrics and self.metrics_rate and self.current_epoch % self.metrics_rate == 0` with
`save_metrics` left at True. -/
def MetricsState.due (s : MetricsState) : Bool := decide (s.rate ≠ 0) && decide (s.epoch % s.rate = 0)

/-- `update_metrics` (ngc_shared.py 313-353). The dictionary saved under the training name is the one
in the code: validation lists under test names. -/
def MetricsState.updateTrain (s : MetricsState) (loss f1 acc recall precision : Option ℚ) :
    MetricsState :=
  let m := { s.m with
    trainLosses := appendSome s.m.trainLosses loss
    trainF1s := appendSome s.m.trainF1s f1
    trainAccs := appendSome s.m.trainAccs acc
    trainRecalls := appendSome s.m.trainRecalls recall
    trainPrecisions := appendSome s.m.trainPrecisions precision }
  { s with
    m := m
    files := if s.due then
        dset s.files .train [("test_accs", m.valAccs), ("tet_f1s", m.valF1s),
          ("test_precisions", m.valPrecisions), ("test_recalls", m.valRecalls)]
      else s.files }

/-- `update_val_metric` (ngc_shared.py 355-376). -/
def MetricsState.updateVal (s : MetricsState) (acc f1 precision recall : ℚ) : MetricsState :=
  let m := { s.m with
    valAccs := s.m.valAccs ++ [acc]
    valF1s := s.m.valF1s ++ [f1]
    valPrecisions := s.m.valPrecisions ++ [precision]
    valRecalls := s.m.valRecalls ++ [recall] }
  { s with
    m := m
    files := if s.due then
        dset s.files .validation [("val_accs", m.valAccs), ("val_f1s", m.valF1s),
          ("val_precisions", m.valPrecisions), ("val_recalls", m.valRecalls)]
      else s.files }

/-- `update_test_metric` (ngc_shared.py 267-311). -/
def MetricsState.updateTest (s : MetricsState) (acc f1 precision recall auc ap : Option ℚ) :
    MetricsState :=
  let m := { s.m with
    testAccs := appendSome s.m.testAccs acc
    testF1s := appendSome s.m.testF1s f1
    testPrecisions := appendSome s.m.testPrecisions precision
    testRecalls := appendSome s.m.testRecalls recall
    testAucs := appendSome s.m.testAucs auc
    testAps := appendSome s.m.testAps ap }
  { s with
    m := m
    files := if s.due then
        dset s.files .test [("test_accs", m.valAccs), ("tet_f1s", m.valF1s),
          ("test_precisions", m.valPrecisions), ("test_recalls", m.valRecalls),
          ("test_aucs", m.testAucs), ("test_aps", m.testAps)]
      else s.files }

/-- `os.path.join(dir, name)` for a relative name. -/
def joinPath (dir name : List Char) : List Char :=
  if dir = [] then name else if dir.getLast? = some '/' then dir ++ name else dir ++ '/' :: name

/-- `d[key]` of a saved dictionary. -/
def MetricsDict.get (d : MetricsDict) (key : String) : Py (List ℚ) :=
  match dget d key with
  | some v => .ok v
  | none => .error .key

/-- The training part of the metrics section of `load_checkpoint` (ngc_shared.py 242-249). -/
def Metrics.restoreTrain (m : Metrics) (d : MetricsDict) : Py Metrics := do
  let a ← d.get "train_losses"
  let b ← d.get "train_accs"
  let c ← d.get "train_f1s"
  let e ← d.get "train_precisions"
  let f ← d.get "train_recalls"
  .ok { m with trainLosses := a, trainAccs := b, trainF1s := c, trainPrecisions := e,
               trainRecalls := f }

/-- The validation part (ngc_shared.py 250-256). -/
def Metrics.restoreVal (m : Metrics) (d : MetricsDict) : Py Metrics := do
  let a ← d.get "val_accs"
  let b ← d.get "val_f1s"
  let c ← d.get "val_precisions"
  let e ← d.get "val_recalls"
  .ok { m with valAccs := a, valF1s := b, valPrecisions := c, valRecalls := e }

/-- The test part (ngc_shared.py 257-263). -/
def Metrics.restoreTest (m : Metrics) (d : MetricsDict) : Py Metrics := do
  let a ← d.get "test_accs"
  let b ← d.get "test_f1s"
  let c ← d.get "test_precisions"
  let e ← d.get "test_recalls"
  .ok { m with testAccs := a, testF1s := b, testPrecisions := c, testRecalls := e }

/-- One of the three `if self.save_metrics and f"..." in metrics_files` (ngc_shared.py 242, 250, 257):
the bare name is looked up among the paths `glob` returned. -/
def restoreIf (m : Metrics) (paths : List (List Char)) (modelType : List Char)
    (files : List (MetricsKind × MetricsDict)) (k : MetricsKind)
    (restore : Metrics → MetricsDict → Py Metrics) : Py Metrics :=
  if modelType ++ k.suffix ∈ paths then
    match dget files k with
    | some d => restore m d
    | none => .error .fileNotFound
  else .ok m

/-- The metrics section of `load_checkpoint` (ngc_shared.py 228, 242-263). `paths` is what
`glob(join(metrics_dir, f"{model_type}*.pt"))` returned. -/
def loadMetrics (m : Metrics) (paths : List (List Char)) (modelType : List Char)
    (files : List (MetricsKind × MetricsDict)) : Py Metrics := do
  let m1 ← restoreIf m paths modelType files .train Metrics.restoreTrain
  let m2 ← restoreIf m1 paths modelType files .validation Metrics.restoreVal
  restoreIf m2 paths modelType files .test Metrics.restoreTest

/-- A path `glob(join(dir, f"{model_type}*.pt"))` can return. -/
def GlobPath (dir modelType p : List Char) : Prop :=
  ∃ w, p = joinPath dir (modelType ++ w ++ ".pt".toList)

/-! ### Splitting -/

/-- Sizes used by `split` and `dataset_split_mask` (ngc_shared.py 387-388, 417-418). -/
def splitSizes (n : Nat) (ratio : ℚ) : Int × Int := (pyInt (n * ratio), n - pyInt (n * ratio))

end NGC
