import Verif.GcnNets
import Mathlib.Analysis.SpecialFunctions.Trigonometric.DerivHyp

/-!
The attention networks and the sequence model of the examples: `GAT` (gat_test.py 22-35; example01_node_classification.py 280-312;
example03_lstm.py 190-222), `GraphLSTM`, `Decoder`, `generate_new_nodes_edges`, `get_graph_edge_embeddings` and the counts of `train_gcn`
and `train_lstm` (example03_lstm.py 108-187, 304-491).

Simplified as in `GcnNets`. From the libraries it is taken that `GATConv` replaces the self loops by one at every node, gives the edge from
`u` to `v` for every head the score `leaky_relu(a·Wx(u) + a'·Wx(v))` with slope 0.2, turns the scores of the edges into a node into weights
by the softmax (the library adds 1e-16 to a denominator that is at least 1, which is left out), adds up the weighted rows and adds a bias, and
that without `edge_dim` it ignores edge attributes; and that `nn.LSTM` is the stack of the usual cells, starts from zeros without a state,
and refuses an empty sequence with RuntimeError.
-/

namespace NGC

noncomputable section

section
variable {V G A B C P : Type} [DecidableEq V] [Fintype V] [DecidableEq G] [Fintype A] [Fintype B] [Fintype C] [Fintype P]

/-- `leaky_relu` with slope 0.2. -/
def leaky (t : ℝ) : ℝ := if 0 ≤ t then t else t / 5

/-- Parameters of `GATConv` with heads `P` (example03_lstm.py 202-208). -/
structure Gat (A P B : Type) where
  w : A → P × B → ℝ
  attSrc : P → B → ℝ
  attDst : P → B → ℝ
  bias : P × B → ℝ

/-- The rows times the matrix. -/
def Gat.lin (c : Gat A P B) (x : Rows V A ℝ) : Rows V (P × B) ℝ := fun u f => ∑ a, x u a * c.w a f

/-- The score of an edge for a head. -/
def Gat.score (c : Gat A P B) (x : Rows V A ℝ) (p : P) (e : V × V) : ℝ :=
  leaky ((∑ b, c.lin x e.1 (p, b) * c.attSrc p b) + ∑ b, c.lin x e.2 (p, b) * c.attDst p b)

/-- The weight of an edge: the softmax of the scores of the edges with the same target. -/
def Gat.weight (c : Gat A P B) (x : Rows V A ℝ) (edges : List (V × V)) (p : P) (e : V × V) : ℝ :=
  Real.exp (c.score x p e) / ((edges.filter (fun e' => decide (e'.2 = e.2))).map (fun e' => Real.exp (c.score x p e'))).sum

/-- `GATConv` applied, the heads one after the other (example03_lstm.py 218, 221); the edge attributes are ignored (example01_node_classification.py
302, 308). -/
def Gat.apply {E : Type} (c : Gat A P B) (x : Rows V A ℝ) (edges : List (V × V)) (_attr : Option (List E)) : Rows V (P × B) ℝ := fun i f =>
  propagate (selfLooped edges) (some ((selfLooped edges).map (c.weight x (selfLooped edges) f.1))) (c.lin x) i f + c.bias f

/-- `F.elu`. -/
def elu (t : ℝ) : ℝ := if 0 < t then t else Real.exp t - 1

/-- `GAT.forward` (example03_lstm.py 211-222; gat_test.py 30-35), evaluation mode. -/
def gatForward (c1 : Gat A P B) (c2 : Gat (P × B) Unit C) (x : Rows V A ℝ) (edges : List (V × V)) : Rows V (Unit × C) ℝ :=
  c2.apply (E := Unit) (actRows elu (c1.apply (E := Unit) x edges none)) edges none

/-- `global_mean_pool`: the mean over the nodes of a graph of the batch. -/
def meanPool (batch : V → G) (x : Rows V C ℝ) : Rows G C ℝ := fun g f =>
  (∑ v, if batch v = g then x v f else 0) / max 1 (∑ v, if batch v = g then (1 : ℝ) else 0)

/-- `GAT.forward` of the first example (example01_node_classification.py 295-312), evaluation mode. -/
def gatPooled {E : Type} (useWeights : Bool) (c1 : Gat A Unit B) (c2 : Gat (Unit × B) Unit C) (x : Rows V A ℝ) (edges : List (V × V))
    (attr : List E) (batch : V → G) : Rows G (Unit × C) ℝ :=
  let y := if useWeights then c1.apply x edges (some attr) else c1.apply (E := E) x edges none
  let z := if useWeights then c2.apply (relu y) edges (some attr) else c2.apply (E := E) (relu y) edges none
  fun g => logSoftmax (meanPool batch z g)

end

section
variable {X H : Type} [Fintype X] [Fintype H]

/-- One layer of `nn.LSTM` (example03_lstm.py 183): for each of the four gates the weights of the input, of the last output, and the bias. -/
structure LstmCell (X H : Type) where
  wi : Fin 4 → X → H → ℝ
  wh : Fin 4 → H → H → ℝ
  b : Fin 4 → H → ℝ

/-- What a gate gets. -/
def LstmCell.gate (m : LstmCell X H) (k : Fin 4) (x : X → ℝ) (h : H → ℝ) (j : H) : ℝ :=
  (∑ a, x a * m.wi k a j) + (∑ a, h a * m.wh k a j) + m.b k j

/-- One step: last output and memory to new output and memory. -/
def LstmCell.step (m : LstmCell X H) (s : (H → ℝ) × (H → ℝ)) (x : X → ℝ) : (H → ℝ) × (H → ℝ) :=
  let c : H → ℝ := fun j => Real.sigmoid (m.gate 1 x s.1 j) * s.2 j + Real.sigmoid (m.gate 0 x s.1 j) * Real.tanh (m.gate 2 x s.1 j)
  (fun j => Real.sigmoid (m.gate 3 x s.1 j) * Real.tanh (c j), c)

/-- A layer on a sequence: the outputs and the last state. -/
def LstmCell.run (m : LstmCell X H) : (H → ℝ) × (H → ℝ) → List (X → ℝ) → List (H → ℝ) × ((H → ℝ) × (H → ℝ))
  | s, [] => ([], s)
  | s, x :: xs =>
    let s' := m.step s x
    let r := LstmCell.run m s' xs
    (s'.1 :: r.1, r.2)

/-- `GraphLSTM` (example03_lstm.py 170-183): the layers. -/
structure Lstm (X H : Type) where
  first : LstmCell X H
  rest : List (LstmCell H H)

/-- The state of a stack: one per layer. -/
abbrev LstmState (H : Type) := List ((H → ℝ) × (H → ℝ))

/-- The upper layers: each reads the outputs of the one below. -/
def upperRun : List (LstmCell H H) → LstmState H → List (H → ℝ) → List (H → ℝ) × LstmState H
  | [], _, xs => (xs, [])
  | m :: ms, ss, xs =>
    let r := m.run (ss.headD (fun _ => 0, fun _ => 0)) xs
    let q := upperRun ms ss.tail r.1
    (q.1, r.2 :: q.2)

/-- `GraphLSTM.forward` (example03_lstm.py 185-187). -/
def Lstm.forward (m : Lstm X H) (xs : List (X → ℝ)) (hidden : Option (LstmState H)) : Py (List (H → ℝ) × LstmState H) :=
  if xs = [] then .error .runtime
  else
    let ss := hidden.getD (List.replicate (m.rest.length + 1) (fun _ => 0, fun _ => 0))
    let r := m.first.run (ss.headD (fun _ => 0, fun _ => 0)) xs
    let q := upperRun m.rest ss.tail r.1
    .ok (q.1, r.2 :: q.2)

/-- The loop of `generate_new_nodes_edges` (example03_lstm.py 471-475). -/
def generateLoop {D : Type} (m : Lstm X H) (decode : (H → ℝ) → Py D) (input : List (X → ℝ)) : Nat → Option (LstmState H) → List D → Py (List D)
  | 0, _, acc => .ok acc
  | n + 1, hidden, acc => do
    let (out, hidden') ← m.forward input hidden
    match out.getLast? with
    | none => .error .index
    | some o => do
      let d ← decode o
      generateLoop m decode input n (some hidden') (acc ++ [d])

/-- `generate_new_nodes_edges` (example03_lstm.py 461-479): `stack` refuses an empty list. -/
def generateNew {D : Type} (m : Lstm X H) (decode : (H → ℝ) → Py D) (edgeRows : List (X → ℝ)) (n : Nat) : Py (List D) := do
  let r ← generateLoop m decode edgeRows n none []
  if r = [] then .error .runtime else .ok r

end

end

/-- `torch.nn.Linear` on a row given as a list: RuntimeError if the width is not the one expected. -/
def linearRow {K : Type} [Field K] (w : List (List K)) (b : List K) (inputs : Nat) (x : List K) : Py (List K) :=
  if x.length ≠ inputs then .error .runtime
  else .ok ((w.zip b).map (fun r => ((x.zip r.1).map (fun p => p.1 * p.2)).sum + r.2))

/-- Parameters of `Decoder` (example03_lstm.py 112-124): weights and biases of its three linear maps. -/
structure LatentDecoder (K : Type) where
  hidden : Nat
  lstmOut : Nat
  w1 : List (List K)
  b1 : List K
  w2 : List (List K)
  b2 : List K
  w3 : List (List K)
  b3 : List K

/-- `F.relu` on a list. -/
def reluRow {K : Type} [Field K] [LinearOrder K] (x : List K) : List K := x.map (fun t => max 0 t)

/-- `Decoder.forward` (example03_lstm.py 126-167). -/
def LatentDecoder.forward {K : Type} [Field K] [LinearOrder K] (d : LatentDecoder K) (x : List K) : Py (List K) :=
  if x.length = d.lstmOut then do
    let y ← linearRow d.w2 d.b2 d.lstmOut x
    linearRow d.w1 d.b1 d.hidden (reluRow y)
  else if x.length = 2 then do
    let y ← linearRow d.w3 d.b3 2 x
    linearRow d.w1 d.b1 d.hidden (reluRow y)
  else linearRow d.w1 d.b1 d.hidden x

/-- The counts of `train_gcn` (example03_lstm.py 316-346): right predictions, predictions, and for each class true positives, false
positives and false negatives. -/
structure GcnTally where
  correct : Nat
  total : Nat
  tp : List Nat
  fp : List Nat
  fn : List Nat
  deriving DecidableEq

/-- One epoch of `train_gcn` (example03_lstm.py 333-346), `pred` being the classes predicted. -/
def GcnTally.epoch (classes : Nat) (y : List Nat) (t : GcnTally) (pred : List Nat) : GcnTally :=
  let ps := pred.zip y
  { correct := t.correct + (ps.filter (fun p => p.1 == p.2)).length
    total := t.total + y.length
    tp := (List.range classes).map (fun i => t.tp.getD i 0 + (ps.filter (fun p => p.1 == i && p.2 == i)).length)
    fp := (List.range classes).map (fun i => t.fp.getD i 0 + (ps.filter (fun p => p.1 == i && p.2 != i)).length)
    fn := (List.range classes).map (fun i => t.fn.getD i 0 + (ps.filter (fun p => p.1 != i && p.2 == i)).length) }

/-- What `train_gcn` prints at the end (example03_lstm.py 353-366): accuracy and the means of precision, recall and F1. -/
structure GcnReport where
  accuracy : ℚ
  precision : List ℚ
  recall : List ℚ
  f1 : List ℚ
  deriving DecidableEq

/-- `train_gcn` (example03_lstm.py 304-366) for the classes predicted in its epochs. The scores are given per class, before `np.mean`. -/
def trainGcn (classes : Nat) (y : List Nat) (preds : List (List Nat)) : Py (GcnTally × GcnReport) :=
  let t := preds.foldl (GcnTally.epoch classes y) ⟨0, 0, List.replicate classes 0, List.replicate classes 0, List.replicate classes 0⟩
  if preds.length = 0 then .error .zeroDiv
  else if t.total = 0 then .error .zeroDiv
  else
    let eps : ℚ := 1 / 10 ^ 8
    let prec := (t.tp.zip t.fp).map (fun p => (p.1 : ℚ) / (p.1 + p.2 + eps))
    let rec' := (t.tp.zip t.fn).map (fun p => (p.1 : ℚ) / (p.1 + p.2 + eps))
    .ok (t, ⟨(t.correct : ℚ) / t.total, prec, rec', (prec.zip rec').map (fun p => 2 * p.1 * p.2 / (p.1 + p.2 + eps))⟩)

/-- The counts of one sequence in `train_lstm` (example03_lstm.py 404-421): `argmax(dim=1)` is for each feature the first step with the
greatest output, and is compared with every entry of the sequence; the total grows by one. -/
def lstmCorrect (seq out : List (List ℚ)) (width : Nat) : Nat × Nat :=
  let pred : List Nat := (List.range width).map (fun f =>
    let col := out.map (fun r => r.getD f 0)
    col.idxOf (col.foldl max (col.headD 0)))
  ((seq.map (fun r => ((r.zip pred).filter (fun p => decide (p.1 = (p.2 : ℚ)))).length)).sum, 1)

/-- The accuracy printed by `train_lstm` (example03_lstm.py 450). -/
def lstmAccuracy (runs : List (List (List ℚ) × List (List ℚ))) (width : Nat) : Py ℚ :=
  let c := (runs.map (fun r => (lstmCorrect r.1 r.2 width).1)).sum
  let t := (runs.map (fun r => (lstmCorrect r.1 r.2 width).2)).sum
  if t = 0 then .error .zeroDiv else .ok ((c : ℚ) / t)

end NGC
