import Verif.Trainers

/-!
Training and evaluation of the first example (`ExampleNodeClassification`, example01_node_classification.py 449-672). What the network predicts and its losses are arbitrary.
Printing, plotting, the optimiser and `load_checkpoint` (C108) are left out. The constructor of the class can not be called (C139) and the module it imports
`Experiments` from does not exist; what follows is about the methods.
-/

namespace NGC

/-! ### `train_epoch` -/

/-- A batch with what the network makes of it: labels, predicted classes (`argmax`), and for every split the mask and the loss (example01_node_classification.py 465-505). -/
structure TrBatch where
  y : List Int
  pred : List Int
  splits : List (List Bool × ℚ)
  graphs : Nat

/-- The variables of `train_epoch` (example01_node_classification.py 454-462): labels and predictions of the masked nodes so far. -/
structure TrAcc where
  lossAll : ℚ := 0
  totalGraph : Nat := 0
  tp : Nat := 0
  fp : Nat := 0
  fn : Nat := 0
  ys : List Int := []
  ps : List Int := []
  seen : Nat := 0

/-- The nodes of class `t` that were predicted as `p`. -/
def pairCount (p t : Int) (ps ts : List Int) : Nat := (ps.zip ts).countP (fun q => decide (q.1 = p ∧ q.2 = t))

/-- One split of one batch (example01_node_classification.py 473-520). -/
def TrAcc.split (b : TrBatch) (a : TrAcc) (s : List Bool × ℚ) : Py TrAcc := do
  let t ← selMask s.1 b.y
  let p ← selMask s.1 b.pred
  .ok { lossAll := a.lossAll + b.graphs * s.2, totalGraph := a.totalGraph + b.graphs,
        tp := a.tp + pairCount 1 1 p t, fp := a.fp + pairCount 1 0 p t, fn := a.fn + pairCount 0 1 p t,
        ys := a.ys ++ t, ps := a.ps ++ p, seen := a.seen + 1 }

/-- What `train_epoch` returns (example01_node_classification.py 532). -/
structure EpochScores where
  loss : ℚ
  f1 : ℚ
  acc : ℚ
  recl : ℚ
  prec : ℚ
  deriving DecidableEq

/-- `f1_score(y, p, average='macro')` of scikit-learn: the mean over the labels that occur. -/
def macroF1 (y p : List Int) : ℚ := meanOf (fun c => 2 * (pairCount c c p y : ℚ) / ((p.count c : ℚ) + y.count c)) ((y ++ p).dedup)

/-- The end of `train_epoch` (example01_node_classification.py 523-532). `torch.cat` of nothing is a RuntimeError. -/
def TrAcc.scores (a : TrAcc) : Py EpochScores :=
  if a.seen = 0 then .error .runtime
  else if a.totalGraph = 0 then .error .zeroDiv
  else .ok ⟨a.lossAll / a.totalGraph, macroF1 a.ys a.ps, ((a.ps.zip a.ys).countP (fun q => decide (q.1 = q.2)) : ℚ) / a.ys.length,
            a.tp / (a.tp + a.fn + 1 / 10 ^ 9), a.tp / (a.tp + a.fp + 1 / 10 ^ 9)⟩

/-- `train_epoch()` (example01_node_classification.py 449-532). Left out: an epoch without any masked node, for which numpy gives NaN. -/
def trainEpoch01 (batches : List TrBatch) : Py EpochScores := do
  let a ← batches.foldlM (fun a b => b.splits.foldlM (TrAcc.split b) a) {}
  a.scores

/-! ### `evaluate` -/

/-- The three kinds of networks (example01_node_classification.py 416-442). -/
inductive NetKind where
  | gcn
  | gin
  | gat
  deriving DecidableEq

/-- A batch of the test loader: a list of three, or one batch with the number of splits of its training mask, its masks (test or validation), labels and predictions. -/
structure TeBatch where
  isList : Bool
  trainSplits : Nat
  masks : List (List Bool)
  y : List Int
  pred : List Int

/-- One round of the inner loop of `evaluate` (example01_node_classification.py 630-665): `out` is already the list of classes, so `out.shape[1]` is an IndexError; after the division
by the size of the mask the name `out_train` is looked up, which does not exist. -/
def evalSplit01 (kind : NetKind) (b : TeBatch) (i : Nat) : Py Unit :=
  match b.masks[i]? with
  | none => .error .index
  | some mask =>
    match kind with
    | .gin => .error .index
    | .gat => .error .index
    | .gcn => do
      let _ ← selMask mask b.pred
      let _ ← selMask mask b.y
      if mask.count true = 0 then .error .zeroDiv else .error .name

/-- One batch of `evaluate` (example01_node_classification.py 613-665): a list has no `train_mask`. -/
def evalBatch01 (kind : NetKind) (b : TeBatch) : Py Unit :=
  if b.isList then .error .attribute
  else (List.range b.trainSplits).forM (evalSplit01 kind b)

/-- `evaluate` (example01_node_classification.py 602-672): accuracy, F1, precision, recall. It goes through the test loader, whatever loader it is given. -/
def evaluate01 (kind : NetKind) (batches : List TeBatch) : Py (ℚ × ℚ × ℚ × ℚ) := do
  batches.forM (evalBatch01 kind)
  if batches.length = 0 then .error .zeroDiv else .ok (0, 0, 0, 0)

/-! ### `train` -/

/-- The intervals of `train` (example01_node_classification.py 334-337); the defaults are 10, 20 and 100. -/
structure Freqs where
  epochs : Nat
  test : Nat := 10
  eval : Nat := 20
  save : Nat := 100

/-- The object: how many losses it has recorded, and the epochs for which there is a checkpoint, the last first. -/
structure Ex01 where
  losses : Nat := 0
  saved : List Nat := []
  deriving DecidableEq

/-- `if e % f == 0: …`. -/
def whenEvery (f e : Nat) (act : Py Unit) : Py Unit :=
  if f = 0 then .error .zeroDiv else if e % f = 0 then act else .ok ()

/-- One epoch (example01_node_classification.py 546-597), after which the object is as given: the loss is recorded before the evaluations, the checkpoint written after them. -/
def Ex01.epoch (q : Freqs) (tr : Nat → Py EpochScores) (ev : Nat → Py (ℚ × ℚ × ℚ × ℚ)) (st : Ex01) (e : Nat) : Ex01 × Option Err :=
  match tr e with
  | .error x => (st, some x)
  | .ok _ =>
    let st1 := { st with losses := st.losses + 1 }
    match whenEvery q.test e ((ev e).map (fun _ => ())) with
    | .error x => (st1, some x)
    | .ok _ =>
      match whenEvery q.eval e ((ev e).map (fun _ => ())) with
      | .error x => (st1, some x)
      | .ok _ =>
        if q.save = 0 then (st1, some .zeroDiv)
        else if e % q.save = 0 then ({ st1 with saved := e :: st1.saved }, none)
        else (st1, none)

/-- The loop of `train` over the given epochs (example01_node_classification.py 546-597). -/
def Ex01.loop (q : Freqs) (tr : Nat → Py EpochScores) (ev : Nat → Py (ℚ × ℚ × ℚ × ℚ)) (st : Ex01) : List Nat → Ex01 × Option Err
  | [] => (st, none)
  | e :: es =>
    match st.epoch q tr ev e with
    | (st', some x) => (st', some x)
    | (st', none) => Ex01.loop q tr ev st' es

/-- `train()` (example01_node_classification.py 534-600): `range(len(self.train_losses), self._epochs + 1)`. -/
def Ex01.train (q : Freqs) (tr : Nat → Py EpochScores) (ev : Nat → Py (ℚ × ℚ × ℚ × ℚ)) (st : Ex01) : Ex01 × Option Err :=
  st.loop q tr ev (List.range' st.losses (q.epochs + 1 - st.losses))

end NGC
