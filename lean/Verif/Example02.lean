import Verif.Transforms

/-!
What two examples report: `Example02` (example02.py 87-147) and the script gat_test.py. What the networks predict and lose is arbitrary; the optimiser is left out.
-/

namespace NGC

/-- `pred[mask] == y[mask]`, one truth value for every node of the mask. -/
def rightOf (y pred : List Int) (mask : List Bool) : Py (List Bool) := do
  let p ← selMask mask pred
  let t ← selMask mask y
  .ok ((p.zip t).map (fun q => decide (q.1 = q.2)))

/-! ### `Example02` -/

/-- A batch of the loader with what the network makes of it. -/
structure Batch02 where
  y : List Int
  pred : List Int
  testMask : List Bool
  graphs : Nat
  loss : ℚ

/-- The loop of `test` (example02.py 133-146): the sum of the shares and the number of nodes. Left out: a batch without test nodes, for which `torch.mean` is NaN (here it adds 0). -/
def testLoop02 : List Batch02 → ℚ × Nat → Py (ℚ × Nat)
  | [], acc => .ok acc
  | b :: bs, acc => do
    let r ← rightOf b.y b.pred b.testMask
    testLoop02 bs (acc.1 + (r.count true : ℚ) / r.length, acc.2 + r.length)

/-- `test()` (example02.py 126-147). -/
def test02 (batches : List Batch02) : Py ℚ := do
  let r ← testLoop02 batches (0, 0)
  if r.2 = 0 then .error .zeroDiv else .ok (r.1 / r.2)

/-- `train_epoch()` (example02.py 87-114): the losses weighted with the graphs of the batches, over the size of the dataset. -/
def trainEpoch02 (batches : List Batch02) (size : Nat) : Py ℚ :=
  if size = 0 then .error .zeroDiv else .ok ((batches.map (fun b => (b.graphs : ℚ) * b.loss)).sum / size)

/-- `train()` (example02.py 116-124): the lines that are printed: epoch, loss, accuracy. -/
def train02 (epochs : Nat) (tr te : Nat → Py ℚ) : Py (List (Nat × ℚ × ℚ)) :=
  (List.range' 1 (epochs - 1)).mapM (fun e => do
    let l ← tr e
    let a ← te e
    .ok (e, l, a))

/-! ### gat_test.py -/

/-- The accuracy for one mask (gat_test.py 58-60). -/
def maskAcc (y pred : List Int) (mask : List Bool) : Py ℚ := do
  let r ← rightOf y pred mask
  if r.length = 0 then .error .zeroDiv else .ok ((r.count true : ℚ) / r.length)

/-- `test()` (gat_test.py 53-61): training, validation and test nodes. -/
def gatTest (y : List Int) (train val test : List Bool) (pred : List Int) : Py (ℚ × ℚ × ℚ) := do
  let a ← maskAcc y pred train
  let b ← maskAcc y pred val
  let c ← maskAcc y pred test
  .ok (a, b, c)

/-- The loop of the script (gat_test.py 64-71) on the predictions of its epochs: `best_val_acc` so far, and `test_acc` if it has been assigned; the numbers that are logged. -/
def gatLoop (test : List Int → Py (ℚ × ℚ × ℚ)) : ℚ → Option ℚ → List (List Int) → Py (List (ℚ × ℚ × ℚ))
  | _, _, [] => .ok []
  | best, t, p :: ps => do
    let r ← test p
    let st := if r.2.1 > best then (r.2.1, some r.2.2) else (best, t)
    match st.2 with
    | none => .error .name
    | some x => do
      let rest ← gatLoop test st.1 (some x) ps
      .ok ((r.1, r.2.1, x) :: rest)

/-- The script (gat_test.py 63-71). -/
def gatScript (y : List Int) (train val test : List Bool) (preds : List (List Int)) : Py (List (ℚ × ℚ × ℚ)) :=
  gatLoop (gatTest y train val test) 0 none preds

end NGC
