import Verif.Py
import Mathlib.Algebra.BigOperators.Group.Finset.Basic
import Mathlib.Algebra.Order.Field.Basic
import Mathlib.Data.Fintype.Basic

/-!
The network of the node classification example (minimum_example_node_classification.py 43-249): the layer `NgcGCN2Conv` and the module
`NeuralGraphComposer`. The module uses the layer `GCN2Conv` of the library, of which `NgcGCN2Conv` is a copy; both are modelled by the
text of the copy.

Simplified: exact arithmetic in an ordered field instead of float32 (the theorems hold in every ordered field); a tensor of rows is a
function of row and column; shapes always match. From the libraries it is taken that `propagate` adds up the messages of the edges at
their target, that `Linear` is `x W + b`, `addmm(a, x, w, beta, alpha) = beta * a + alpha * x w`, and that dropout multiplies every entry
by a factor (all 1 in evaluation mode or with probability 0).
-/

namespace NGC

/-- A tensor with a row for each node and a column for each feature. -/
abbrev Rows (V H K : Type) := V → H → K

section
variable {V W H F C K : Type} [DecidableEq V] [DecidableEq W] [Fintype H] [Fintype F] [Field K] [LinearOrder K] [IsStrictOrderedRing K]

/-- Parameters of a layer `NgcGCN2Conv` (minimum_example_node_classification.py 103-131). -/
structure Gcn2 (H K : Type) where
  alpha : K
  beta : K
  weight1 : H → H → K
  weight2 : Option (H → H → K)

/-- `message` (minimum_example_node_classification.py 184-185): the row of the source, times the weight of the edge if there are
weights. -/
def message (x : K) : Option K → K
  | none => x
  | some w => w * x

/-- The edges with their weights: column `e` of `edge_index` and entry `e` of `edge_weight`. -/
def weighted (edges : List (V × V)) : Option (List K) → List ((V × V) × Option K)
  | none => edges.map (fun e => (e, none))
  | some ws => (edges.zip ws).map (fun p => (p.1, some p.2))

/-- `propagate` with `aggr='add'` (minimum_example_node_classification.py 163; 108): the sum of the messages at the target. -/
def propagate (edges : List (V × V)) (w : Option (List K)) (x : Rows V H K) : Rows V H K := fun i f =>
  (((weighted edges w).filter (fun p => decide (p.1.2 = i))).map (fun p => message (x p.1.1 f) p.2)).sum

/-- `torch.addmm(a, x, w, beta=b, alpha=a')`. -/
def addmm (a x : Rows V H K) (w : H → H → K) (b a' : K) : Rows V H K := fun i f => b * a i f + a' * ∑ g, x i g * w g f

/-- `forward` of the layer without normalization (minimum_example_node_classification.py 162-182). -/
def Gcn2.apply (c : Gcn2 H K) (x x0 : Rows V H K) (edges : List (V × V)) (w : Option (List K)) : Rows V H K :=
  let p : Rows V H K := fun i f => (1 - c.alpha) * propagate edges w x i f
  let r : Rows V H K := fun i f => c.alpha * x0 i f
  match c.weight2 with
  | none =>
    let out : Rows V H K := fun i f => p i f + r i f
    addmm out out c.weight1 (1 - c.beta) c.beta
  | some w2 =>
    let a := addmm p p c.weight1 (1 - c.beta) c.beta
    let b := addmm r r w2 (1 - c.beta) c.beta
    fun i f => a i f + b i f

/-- What a layer keeps between calls (minimum_example_node_classification.py 101-102, 122-123). -/
structure GcnObj (V H K : Type) where
  par : Gcn2 H K
  cached : Bool
  cache : Option (List (V × V) × Option (List K))

/-- `forward` of a layer with normalization, for a tensor of edges (minimum_example_node_classification.py 139-182). The normalization of
the library is the argument `norm`, any function of the edges and weights. -/
def GcnObj.forward (norm : List (V × V) → Option (List K) → List (V × V) × Option (List K)) (o : GcnObj V H K) (x x0 : Rows V H K)
    (edges : List (V × V)) (w : Option (List K)) : Rows V H K × GcnObj V H K :=
  match o.cache with
  | none =>
    let e := norm edges w
    (o.par.apply x x0 e.1 e.2, if o.cached then { o with cache := some e } else o)
  | some e => (o.par.apply x x0 e.1 e.2, o)

/-- `reset_parameters` (minimum_example_node_classification.py 133-137): new weights and no cache. -/
def GcnObj.reset (o : GcnObj V H K) (w1 : H → H → K) (w2 : Option (H → H → K)) : GcnObj V H K :=
  { o with par := { o.par with weight1 := w1, weight2 := w2 }, cache := none }

/-- `torch.nn.Linear`. -/
def linear {A B : Type} [Fintype A] (w : A → B → K) (b : B → K) (x : Rows V A K) : Rows V B K := fun i f => (∑ g, x i g * w g f) + b f

/-- `relu`. -/
def relu {A : Type} (x : Rows V A K) : Rows V A K := fun i f => max 0 (x i f)

/-- Dropout: an entry times its factor. -/
def dropout {A : Type} (d x : Rows V A K) : Rows V A K := fun i f => d i f * x i f

/-- `NeuralGraphComposer` (minimum_example_node_classification.py 198-229): a linear layer, the convolutions, a linear layer. -/
structure Net (F H C K : Type) where
  w0 : F → H → K
  b0 : H → K
  convs : List (Gcn2 H K)
  w1 : H → C → K
  b1 : C → K

/-- The loop over the layers (minimum_example_node_classification.py 240-244). `drop k` are the dropout factors of round `k`. -/
def convLoop (drop : ℕ → Rows V H K) (x0 : Rows V H K) (edges : List (V × V)) : ℕ → List (Gcn2 H K) → Rows V H K → Rows V H K
  | _, [], x => x
  | k, c :: rest, x =>
    let h := c.apply (dropout (drop k) x) x0 edges none
    convLoop drop x0 edges (k + 1) rest (relu (fun i f => h i f + x i f))

/-- `forward` of the network (minimum_example_node_classification.py 231-249). The edges are passed on without weights. -/
def Net.forward (n : Net F H C K) (dropIn : Rows V F K) (drop : ℕ → Rows V H K) (x : Rows V F K) (edges : List (V × V)) : Rows V C K :=
  let x0 := relu (linear n.w0 n.b0 (dropout dropIn x))
  let y := convLoop drop x0 edges 0 n.convs x0
  linear n.w1 n.b1 (dropout (drop n.convs.length) y)

/-- `forward` in evaluation mode: no dropout. -/
def Net.eval (n : Net F H C K) (x : Rows V F K) (edges : List (V × V)) : Rows V C K :=
  n.forward (fun _ _ => 1) (fun _ _ _ => 1) x edges

end

end NGC
