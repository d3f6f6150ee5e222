import Verif.Shared

/-!
Training with checkpoints: the loop of `trainer` for one model (example04_gae.py 418-484; the same shape as example01_node_classification.py 533-600), started again and again
in new processes that may be killed at any point.

Simplified: weights and optimizer are one value; what an epoch does to it, and the loss and scores of its batches, are arbitrary and may differ from process to process (random
numbers). Printing, plotting, the lists for `inference` and the metrics files (never read back: C108) are left out. The constructor of the example raises (C139); the loop is modelled
for a trainer that has been constructed.
-/

namespace NGC

/-- What one batch gives (example04_gae.py 447-453). -/
structure GaeRow where
  loss : ℚ
  acc : ℚ
  auc : ℚ
  ap : ℚ
  deriving DecidableEq

/-- The variables of the loop and the checkpoint directory of the model (example04_gae.py 426-436; `clear_metric`, ngc_shared.py 428-462, empties the lists between two models). -/
structure GaeState (S : Type) where
  state : S
  dir : CkDir S
  losses : List ℚ := []
  accs : List ℚ := []
  aucs : List ℚ := []
  aps : List ℚ := []
  bestAcc : ℚ := 0
  bestEpoch : Nat := 0

/-- `np.mean` of a list that is not empty. -/
def npMean (l : List ℚ) : ℚ := l.sum / l.length

/-- The end of an epoch (example04_gae.py 462-474). `num_batches` has been counted up once for every batch, starting at their number. -/
def GaeState.book {S : Type} (st : GaeState S) (e : Nat) (rows : List GaeRow) : GaeState S :=
  let acc := npMean (rows.map GaeRow.acc)
  let better := decide (acc > st.bestAcc)
  { st with
    losses := st.losses ++ [(rows.map GaeRow.loss).sum / ((rows.length + rows.length : Nat) : ℚ)]
    bestAcc := if better then acc else st.bestAcc
    bestEpoch := if better then e else st.bestEpoch
    accs := st.accs ++ [acc]
    aucs := st.aucs ++ [npMean (rows.map GaeRow.auc)]
    aps := st.aps ++ [npMean (rows.map GaeRow.ap)] }

/-- The loop over epochs (example04_gae.py 438-478): the state in which it ends, and the exception that ended it. Without batches the mean loss divides by zero; so does
`e % save_freq` with `save_freq = 0`. -/
def gaeLoop {S : Type} (freq : Nat) (step : Nat → S → S × List GaeRow) : Nat → Nat → GaeState S → GaeState S × Option Err
  | 0, _, st => (st, none)
  | n + 1, e, st =>
    let r := step e st.state
    let st1 := { st with state := r.1 }
    if r.2 = [] then (st1, some .zeroDiv)
    else
      let st2 := st1.book e r.2
      if freq = 0 then (st2, some .zeroDiv)
      else gaeLoop freq step n (e + 1) (if e % freq = 0 then { st2 with dir := saveCheckpoint st2.dir e st2.state } else st2)

/-- A process that trains the model: freshly initialised weights, its epochs and save interval, what its epochs do, and whether it is killed: after so many epochs, and
(`true`) inside the `torch.save` of the next epoch if that epoch is saved. -/
structure GaeRun (S : Type) where
  init : S
  epochs : Nat
  freq : Nat
  step : Nat → S → S × List GaeRow
  killed : Option (Nat × Bool)

/-- How many epochs the process begins: `range(0, epochs + 1)`, as the list of losses is empty at the start (example04_gae.py 436-438, C108), or fewer if it is killed. -/
def GaeRun.rounds {S : Type} (r : GaeRun S) : Nat :=
  match r.killed with
  | none => r.epochs + 1
  | some (k, _) => min k (r.epochs + 1)

/-- A process on a directory: load the checkpoint, train (example04_gae.py 426-478). `glob` lists the files. -/
def GaeRun.exec {S : Type} (glob : CkDir S → List (List Char)) (r : GaeRun S) (d : CkDir S) : Py (GaeState S × Option Err) := do
  let t ← loadCheckpoint ⟨r.init, 0, 0⟩ d (glob d)
  let o := gaeLoop r.freq r.step r.rounds 0 { state := t.state, dir := d }
  match r.killed with
  | some (k, true) =>
    if o.2 = none ∧ k ≤ r.epochs ∧ r.freq ≠ 0 ∧ k % r.freq = 0 then .ok ({ o.1 with dir := saveTorn o.1.dir k }, o.2) else .ok o
  | _ => .ok o

/-- What the process leaves in the directory. -/
def GaeRun.after {S : Type} (glob : CkDir S → List (List Char)) (d : CkDir S) (r : GaeRun S) : CkDir S :=
  match r.exec glob d with
  | .error _ => d
  | .ok o => o.1.dir

end NGC
