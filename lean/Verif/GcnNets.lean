import Verif.Gcn
import Verif.PyDict
import Mathlib.Analysis.SpecialFunctions.Log.Basic
import Mathlib.Analysis.SpecialFunctions.Sigmoid
import Mathlib.Analysis.Real.Sqrt
import Mathlib.Data.Fintype.Sum

/-!
The graph convolution networks of the examples and the link predictor of the autoencoder: `GCN2`, `GCN3` (example01_node_classification.py
59-94, 178-247), `GCN`, `GCN3`, `GCNEncoder` (example03_lstm.py 23-105), `GCNEncoder`, `VariationalGCNEncoder`, `LinearEncoder`,
`VariationalLinearEncoder`, `predict_link`, `train` and `test` (example04_gae.py 172-344).

Simplified: real numbers instead of float32; the nodes are a finite type; a tensor of rows is a function of row and column; shapes always
match; evaluation mode (no dropout) for the classifiers. From the library it is taken that `GCNConv` adds the missing self loops (each
existing self loop being replaced by one of weight 1), gives an edge from `u` to `v` the weight `1/√(d u d v)` where `d` counts the edges
into a node, multiplies the rows by its matrix, adds up what arrives and adds its bias; that the decoder of the autoencoder is the sigmoid of
the scalar product; and that `VGAE.encode` bounds the second output of its encoder by 10 and in evaluation mode returns the first.
-/

namespace NGC

noncomputable section

section
variable {V A B C : Type} [DecidableEq V] [Fintype V] [Fintype A] [Fintype B] [Fintype C]

/-- Parameters of `GCNConv` (example04_gae.py 178-179). -/
structure GConv (A B : Type) where
  w : A → B → ℝ
  b : B → ℝ

/-- The edges with a self loop at every node (called by `GCNConv`, example04_gae.py 182-183). -/
def selfLooped (edges : List (V × V)) : List (V × V) :=
  edges.filter (fun e => decide (e.1 ≠ e.2)) ++ (Finset.univ : Finset V).toList.map (fun v => (v, v))

/-- How many edges end in a node. -/
def inDeg (edges : List (V × V)) (i : V) : ℝ := ((edges.filter (fun e => decide (e.2 = i))).length : ℝ)

/-- The weights of the edges. -/
def normWeights (edges : List (V × V)) : List ℝ := edges.map (fun e => (Real.sqrt (inDeg edges e.1))⁻¹ * (Real.sqrt (inDeg edges e.2))⁻¹)

/-- `GCNConv` applied (example04_gae.py 182-183). -/
def GConv.apply (c : GConv A B) (x : Rows V A ℝ) (edges : List (V × V)) : Rows V B ℝ := fun i f =>
  propagate (selfLooped edges) (some (normWeights (selfLooped edges))) (fun u g => ∑ a, x u a * c.w a g) i f + c.b f

/-- An activation, entry by entry (example01_node_classification.py 70-79). -/
def actRows (act : ℝ → ℝ) (x : Rows V A ℝ) : Rows V A ℝ := fun i f => act (x i f)

/-- `F.log_softmax(x, dim=1)` on one row. -/
def logSoftmax (r : C → ℝ) : C → ℝ := fun c => r c - Real.log (∑ d, Real.exp (r d))

/-- `GCNEncoder` (example04_gae.py 172-183; example03_lstm.py 83-105), also `GCN` (example03_lstm.py 23-42). -/
structure GEncoder (A H B : Type) where
  conv1 : GConv A H
  conv2 : GConv H B

/-- `GCNEncoder.forward` (example04_gae.py 181-183). -/
def GEncoder.forward (n : GEncoder A B C) (x : Rows V A ℝ) (edges : List (V × V)) : Rows V C ℝ :=
  n.conv2.apply (relu (n.conv1.apply x edges)) edges

/-- `VariationalGCNEncoder` (example04_gae.py 186-198). -/
structure GVarEncoder (A H B : Type) where
  conv1 : GConv A H
  convMu : GConv H B
  convLogstd : GConv H B

/-- `VariationalGCNEncoder.forward` (example04_gae.py 196-198): mean and logarithm of the deviation. -/
def GVarEncoder.forward (n : GVarEncoder A B C) (x : Rows V A ℝ) (edges : List (V × V)) : Rows V C ℝ × Rows V C ℝ :=
  let h := relu (n.conv1.apply x edges)
  (n.convMu.apply h edges, n.convLogstd.apply h edges)

/-- The four encoders of the example (example04_gae.py 172-210): two layers or one, plain or variational. -/
inductive GCoder (A H B : Type) where
  | gcn (n : GEncoder A H B)
  | varGcn (n : GVarEncoder A H B)
  | lin (c : GConv A B)
  | varLin (mu logstd : GConv A B)

/-- `model.encode` in evaluation mode (example04_gae.py 314, 342): the rows, or their means. -/
def GCoder.encode (m : GCoder A B C) (x : Rows V A ℝ) (edges : List (V × V)) : Rows V C ℝ :=
  match m with
  | .gcn n => n.forward x edges
  | .varGcn n => (n.forward x edges).1
  | .lin c => c.apply x edges
  | .varLin mu _ => mu.apply x edges

/-- What the variational encoders return in training mode: mean and bounded logarithm of the deviation (example04_gae.py 196-198, 209-210). -/
def GCoder.moments (m : GCoder A B C) (x : Rows V A ℝ) (edges : List (V × V)) : Option (Rows V C ℝ × Rows V C ℝ) :=
  match m with
  | .varGcn n => some ((n.forward x edges).1, fun i f => min ((n.forward x edges).2 i f) 10)
  | .varLin mu ls => some (mu.apply x edges, fun i f => min (ls.apply x edges i f) 10)
  | _ => none

/-- `model.encode` in training mode with the noise drawn (example04_gae.py 297). -/
def GCoder.encodeTrain (m : GCoder A B C) (x : Rows V A ℝ) (edges : List (V × V)) (noise : Rows V C ℝ) : Rows V C ℝ :=
  match m.moments x edges with
  | some (mu, ls) => fun i f => mu i f + noise i f * Real.exp (ls i f)
  | none => m.encode x edges

/-- `GCN2` (example01_node_classification.py 59-94) with its activation, evaluation mode. -/
def gcn2Forward (act : ℝ → ℝ) (c1 : GConv A B) (c2 : GConv B C) (x : Rows V A ℝ) (edges : List (V × V)) : Rows V C ℝ := fun i =>
  logSoftmax (c2.apply (actRows act (c1.apply x edges)) edges i)

/-- `GCN3` (example01_node_classification.py 178-247; example03_lstm.py 45-80) with its activation, evaluation mode. -/
def gcn3Forward (act : ℝ → ℝ) (c1 : GConv A B) (c2 : GConv B B) (c3 : GConv B C) (x : Rows V A ℝ) (edges : List (V × V)) : Rows V C ℝ :=
  fun i => logSoftmax (c3.apply (actRows act (c2.apply (actRows act (c1.apply x edges)) edges)) edges i)

/-- Scalar product of two rows. -/
def rowDot (z : Rows V C ℝ) (a b : V) : ℝ := ∑ c, z a c * z b c

/-- `predict_link` (example04_gae.py 330-344). -/
def predictLink (m : GCoder A B C) (x : Rows V A ℝ) (edges : List (V × V)) (a b : V) : ℝ := Real.sigmoid (rowDot (m.encode x edges) a b)

/-- The accuracy of `test` (example04_gae.py 305-328) for rows `z`: the positive pairs are labelled 1, the negative pairs 0, a pair is
predicted 1 if the decoder exceeds one half. -/
def linkAccuracy (z : Rows V C ℝ) (pos neg : List (V × V)) : Py ℝ :=
  let all := pos ++ neg
  let yTrue := (List.replicate all.length (0 : Nat)).mapIdx (fun i y => if i < pos.length then 1 else y)
  let yPred := all.map (fun e => if Real.sigmoid (rowDot z e.1 e.2) > 1 / 2 then (1 : Nat) else 0)
  if yTrue.length = 0 then .error .zeroDiv
  else .ok ((((yPred.zip yTrue).filter (fun p => p.1 == p.2)).length : ℝ) / yTrue.length)

/-- `recon_loss` (called in example04_gae.py 299): `EPS = 1e-15`; the negative pairs are drawn by the library. -/
def reconLoss (z : Rows V C ℝ) (pos neg : List (V × V)) : ℝ :=
  (pos.map (fun e => - Real.log (Real.sigmoid (rowDot z e.1 e.2) + 1 / 10 ^ 15))).sum / pos.length +
  (neg.map (fun e => - Real.log (1 - Real.sigmoid (rowDot z e.1 e.2) + 1 / 10 ^ 15))).sum / neg.length

/-- `kl_loss` (called in example04_gae.py 301). -/
def klLoss (mu ls : Rows V C ℝ) : ℝ :=
  -(1 / 2) * ((∑ v : V, ∑ c, (1 + 2 * ls v c - mu v c ^ 2 - Real.exp (ls v c) ^ 2)) / Fintype.card V)

/-- The loss of `train` (example04_gae.py 288-303). With the variational flag a plain model has no `kl_loss`: AttributeError. -/
def trainLoss (m : GCoder A B C) (variational : Bool) (x : Rows V A ℝ) (edges : List (V × V)) (noise : Rows V C ℝ) (pos neg : List (V × V)) :
    Py ℝ :=
  let loss := reconLoss (m.encodeTrain x edges noise) pos neg
  if variational then
    match m.moments x edges with
    | some (mu, ls) => .ok (loss + 1 / Fintype.card V * klLoss mu ls)
    | none => .error .attribute
  else .ok loss

end

end

end NGC
