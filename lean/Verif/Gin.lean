import Verif.Gcn
import Mathlib.Data.Fintype.Sum

/-!
The graph classifier `GinLike` (ngc_example05_gin.py 15-49) in evaluation mode and how its outputs are compared with the labels of nodes
(ngc_example05_gin.py 118-146).

Simplified as in `Gcn`. From the library it is taken that `GINConv` without trainable epsilon applies its network to the row of a node plus
the sum of the rows of the sources of its edges, that the networks `MLP` act on each row by itself in evaluation mode (any function of a
row), and that `global_add_pool` adds up the rows of each graph of a batch.
-/

namespace NGC

section
variable {V G F H C K : Type} [DecidableEq V] [DecidableEq G] [Fintype V] [Field K] [LinearOrder K] [IsStrictOrderedRing K]

/-- Parameters of `GinLike` (ngc_example05_gin.py 18-36), with at least one layer: the networks of the layers and the last one. -/
structure Gin (F H C K : Type) where
  first : (F → K) → (H → K)
  rest : List ((H → K) → (H → K))
  last : (H → K) → (C → K)

/-- `GINConv` followed by `relu` (ngc_example05_gin.py 45-46). -/
def ginLayer {A B : Type} (mlp : (A → K) → (B → K)) (edges : List (V × V)) (x : Rows V A K) : Rows V B K := fun i f =>
  max 0 (mlp (fun a => x i a + propagate edges none x i a) f)

/-- `global_add_pool` (ngc_example05_gin.py 47); `batch` gives the graph of each node. -/
def addPool (batch : V → G) (x : Rows V H K) : Rows G H K := fun g f => ∑ v, if batch v = g then x v f else 0

/-- `forward` (ngc_example05_gin.py 38-49). -/
def Gin.forward (n : Gin F H C K) (x : Rows V F K) (edges : List (V × V)) (batch : V → G) : Rows G C K := fun g =>
  n.last (addPool batch (n.rest.foldl (fun y mlp => ginLayer mlp edges y) (ginLayer n.first edges x)) g)

end

/-- `out_sum.scatter_(0, node_idx…, out)` into zeros (ngc_example05_gin.py 88-91, 130-132): row `i` of `out` goes to row `i`. More rows
than nodes raise an error. -/
def scatterRows (zero : List ℚ) (nodes : Nat) (out : List (List ℚ)) : Py (List (List ℚ)) :=
  (List.range out.length).foldlM (fun (acc : List (List ℚ)) i =>
    if i < acc.length then .ok (acc.set i (out.getD i zero)) else .error .runtime) (List.replicate nodes zero)

/-- `argmax` of a row: the first place of the greatest entry (0 for no entries). -/
def argmaxRow (r : List ℚ) : Nat := r.idxOf (r.foldl max (r.headD 0))

/-- The classes predicted for the nodes of a batch (ngc_example05_gin.py 130-136), before the mask is applied. -/
def nodeClasses (classes nodes : Nat) (out : List (List ℚ)) : Py (List Nat) :=
  (scatterRows (List.replicate classes 0) nodes out).map (fun l => l.map argmaxRow)

end NGC
