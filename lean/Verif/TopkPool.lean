import Mathlib.Analysis.SpecialFunctions.Log.Basic
import Mathlib.Data.Fintype.BigOperators
import Mathlib.Algebra.BigOperators.Fin

/-!
The pooling experiment of dataset_checker.py (106-148, 260-283): attention taken from the first feature, `TopKPooling` with `min_score`, the divergence between the two and the loss.

Simplified: reals for floats, one graph per batch (the loader has `batch_size=1`). The two `GINConv` layers, `global_add_pool` and the linear layer are arbitrary functions; the optimiser
is left out. From the library it is taken that `TopKPooling` with `min_score` scores a node by the softmax of the product of its row of `attn` with the weight, keeps the nodes whose score
is above the smaller of `min_score` and the greatest score less 1e-7, in the order of the nodes, multiplies their rows with their scores, and keeps the edges between kept nodes, renumbered;
and that `kl_div` without reduction is `target * (log target - input)`.
-/

namespace NGC

variable {n d : ℕ} {H : Type}

/-- `softmax` over the nodes of a graph (dataset_checker.py 108; also inside `TopKPooling`, 132-134). -/
noncomputable def softOver (s : Fin n → ℝ) : Fin n → ℝ := fun v => Real.exp (s v) / ∑ u, Real.exp (s u)

/-- `HandleNodeAttention` (dataset_checker.py 106-110), `data.attn`: softmax of the first feature. -/
noncomputable def attnOf (x : Fin n → Fin (d + 1) → ℝ) : Fin n → ℝ := softOver (fun v => x v 0)

/-- `HandleNodeAttention` (dataset_checker.py 106-110), `data.x`: the other features. -/
def restOf (x : Fin n → Fin (d + 1) → ℝ) : Fin n → Fin d → ℝ := fun v j => x v j.succ

/-- The scores of `TopKPooling(in_channels, min_score=0.05)` with `attn=x` (dataset_checker.py 118, 132-134). -/
noncomputable def poolScore (w : Fin d → ℝ) (x : Fin n → Fin d → ℝ) : Fin n → ℝ := softOver (fun v => ∑ j, x v j * w j)

/-- `perm` of `TopKPooling` (dataset_checker.py 118, 132-134): the nodes that are kept. -/
noncomputable def keptNodes (score : Fin n → ℝ) : List (Fin n) :=
  (List.finRange n).filter (fun v => decide (min ((⨆ u, score u) - 1 / 10000000) (5 / 100) < score v))

/-- The edges that `TopKPooling` keeps (dataset_checker.py 132-134), renumbered by the place of a node in `perm`. -/
def keptEdges (perm : List (Fin n)) (edges : List (Fin n × Fin n)) : List (ℕ × ℕ) :=
  (edges.filter (fun e => decide (e.1 ∈ perm ∧ e.2 ∈ perm))).map (fun e => (perm.idxOf e.1, perm.idxOf e.2))

/-- `F.kl_div(log(score + 1e-14), attn[perm], reduction='none')` for one node (dataset_checker.py 141-143). -/
noncomputable def klTerm (target score : ℝ) : ℝ := target * (Real.log target - Real.log (score + 1 / 10 ^ 14))

/-- `attn_loss` of a graph (dataset_checker.py 141-145). -/
noncomputable def attnLoss (attn score : Fin n → ℝ) (perm : List (Fin n)) : ℝ :=
  (perm.map (fun v => klTerm (attn v) (score v))).sum / perm.length

/-- Parameters of `ModelTokPoolingTest` (dataset_checker.py 114-120): the first layer with its `relu`, the weight of the pooling, and everything after it. -/
structure TopkNet (d : ℕ) (H : Type) where
  conv1 : {n : ℕ} → (Fin n → Fin d → ℝ) → List (Fin n × Fin n) → Fin n → H → ℝ
  weight : Fin d → ℝ
  tail : List (H → ℝ) → List (ℕ × ℕ) → ℝ

/-- `forward` (dataset_checker.py 122-148): output, attention loss, share of the nodes that are kept. -/
noncomputable def TopkNet.forward (net : TopkNet d H) (x : Fin n → Fin d → ℝ) (attn : Fin n → ℝ) (edges : List (Fin n × Fin n)) : ℝ × ℝ × ℝ :=
  let out := net.conv1 x edges
  let score := poolScore net.weight x
  let perm := keptNodes score
  (net.tail (perm.map (fun v => fun h => out v h * score v)) (keptEdges perm edges), attnLoss attn score perm, (perm.length : ℝ) / n)

/-- The loss of a batch (dataset_checker.py 279): `y` are the labels of `sampled_data`, the graph drawn before the loop (270). -/
noncomputable def topkLoss (y : List ℝ) (out attn : ℝ) : ℝ := (y.map (fun t => (out - t) ^ 2 + 100 * attn)).sum / y.length

/-- A graph as the dataset holds it, before the transform. -/
structure RawGraph (d : ℕ) where
  n : ℕ
  x : Fin n → Fin (d + 1) → ℝ
  edges : List (Fin n × Fin n)
  y : List ℝ

/-- The losses of one epoch (dataset_checker.py 273-281) with the labels of the sampled graph; `nets` are the networks before each step of the optimiser. -/
noncomputable def topkEpoch (sampled : RawGraph d) (nets : List (TopkNet d H)) (batches : List (RawGraph d)) : List ℝ :=
  (nets.zip batches).map (fun p =>
    let r := p.1.forward (restOf p.2.x) (attnOf p.2.x) p.2.edges
    topkLoss sampled.y r.1 r.2.1)

end NGC
