import Verif.Py
import Mathlib.Data.List.GetD

/-!
Model of the graph surgery in `transforms.py` and `ngc_shared.py`: node removal, edge removal, degree
feature. Tensors are lists; a boolean mask of the wrong length raises IndexError, and so does an index
that is out of range. Negative indices are left out: edge endpoints are natural numbers.
-/

namespace NGC

/-- A graph as the transforms see it. `x` has one entry per node. -/
structure GData (F Y A : Type) where
  x : List F
  y : List Y
  edges : List (Nat × Nat)
  attr : Option (List A)
  train : List Bool
  val : List Bool
  test : List Bool
  deriving DecidableEq

/-- `t[mask]`: boolean indexing. -/
def selMask {α : Type} (mask : List Bool) (l : List α) : Py (List α) :=
  if mask.length = l.length then .ok (((mask.zip l).filter (·.1)).map (·.2)) else .error .index

/-- `t[idx]`: indexing with a list of positions. -/
def selIdx {α : Type} (l : List α) : List Nat → Py (List α)
  | [] => .ok []
  | i :: is =>
    match l[i]? with
    | none => .error .index
    | some a => do
      let more ← selIdx l is
      .ok (a :: more)

/-- `mask = ones(n); mask[gone] = False` (ngc_shared.py 404-405). -/
def keepMask (n : Nat) (gone : List Nat) : List Bool := (List.range n).map (fun j => decide (j ∉ gone))

/-- `mask[row] & mask[col]`. -/
def edgeMask (mask : List Bool) : List (Nat × Nat) → Py (List Bool)
  | [] => .ok []
  | e :: es =>
    match mask[e.1]?, mask[e.2]? with
    | some a, some b => do
      let more ← edgeMask mask es
      .ok ((a && b) :: more)
    | _, _ => .error .index

/-- `remove_nodes_and_edges` (ngc_shared.py 393-408). `choice` is the result of
`np.random.choice(n, k, replace=False)`. Only `x` and `edge_index` are changed. -/
def removeNodesEdges {F Y A : Type} (d : GData F Y A) (choice : List Nat) : Py (GData F Y A) := do
  let mask := keepMask d.x.length choice
  let x ← selMask mask d.x
  let em ← edgeMask mask d.edges
  let edges ← selMask em d.edges
  .ok { d with x := x, edges := edges }

/-- Number of nodes to remove, `int(num_nodes * remove_ratio)` (ngc_shared.py 402). -/
def removeCount (n : Nat) (ratio : ℚ) : Int := pyInt (n * ratio)

/-- The nodes `RandomNodeDrop` keeps, ascending (transforms.py 93-95): `perm` is
`torch.randperm(num_nodes)`. -/
def remainIdx (n : Nat) (p : ℚ) (perm : List Nat) : List Nat :=
  (List.range n).filter (fun j => decide (j ∉ perm.take (pyInt (p * n)).toNat))

/-- `filter_adj` with edge attributes (transforms.py 110-134). -/
def filterAdj {A : Type} (n : Nat) (keep : List Nat) (edges : List (Nat × Nat)) (attr : List A) :
    Py (List (Nat × Nat) × List A) := do
  let mask := (List.range n).map (fun j => decide (j ∈ keep))
  let em ← edgeMask mask edges
  let e ← selMask em edges
  let a ← selMask em attr
  .ok (e, a)

/-- `RandomNodeDrop.__call__` (transforms.py 84-108) for data with edge attributes. Without them
`filter_adj` returns a single 2×E tensor that is unpacked into two; see `nodeDropNoAttr`. -/
def nodeDrop {F Y A : Type} (p : ℚ) (perm : List Nat) (d : GData F Y A) (attr : List A) :
    Py (GData F Y A) := do
  let n := d.x.length
  let keep := remainIdx n p perm
  let ea ← filterAdj n keep d.edges attr
  let x ← selIdx d.x keep
  let y ← selIdx d.y keep
  let tr ← selIdx d.train keep
  let va ← selIdx d.val keep
  let te ← selIdx d.test keep
  .ok ⟨x, y, ea.1, some ea.2, tr, va, te⟩

/-- What `RandomNodeDrop` stores as `edge_index` and `edge_attr` when the data has no edge attributes
(transforms.py 97-98 with the return of line 134): the two rows of the kept edges. -/
def nodeDropNoAttr (n : Nat) (keep : List Nat) (edges : List (Nat × Nat)) :
    Py (List Nat × List Nat) := do
  let mask := (List.range n).map (fun j => decide (j ∈ keep))
  let em ← edgeMask mask edges
  let e ← selMask em edges
  .ok (e.map (·.1), e.map (·.2))

/-- `RandomEdgeDrop.__call__` (transforms.py 152-184): `mask` is `torch.rand(E) >= p`. `pos` and `neg`
are the label edges when both labels are present. -/
def edgeDrop {F Y A : Type} (mask : List Bool) (d : GData F Y A)
    (labels : Option (List (Nat × Nat) × List (Nat × Nat))) :
    Py (GData F Y A × Option (List (Nat × Nat) × List (Nat × Nat))) := do
  let edges ← selMask mask d.edges
  let attr ← (match d.attr with
    | none => (.ok none : Py (Option (List A)))
    | some a => (selMask mask a).map some)
  let lab ← (match labels with
    | none => (.ok none : Py (Option (List (Nat × Nat) × List (Nat × Nat))))
    | some (p, q) => do
      let p' ← selMask mask p
      let q' ← selMask mask q
      .ok (some (p', q')))
  .ok ({ d with edges := edges, attr := attr }, lab)

/-- `degree(edge_index[0], num_nodes)` (transforms.py 31): how often each node is a source. -/
def outDegree (n : Nat) (edges : List (Nat × Nat)) : Py (List Nat) :=
  if edges.all (fun e => decide (e.1 < n)) then
    .ok ((List.range n).map (fun j => edges.countP (fun e => decide (e.1 = j))))
  else .error .index

/-- `AddDegreeTransform.__call__` (transforms.py 28-36): one more feature column. -/
def addDegree (x : List (List ℚ)) (edges : List (Nat × Nat)) : Py (List (List ℚ)) := do
  let deg ← outDegree x.length edges
  .ok (List.zipWith (fun row (k : Nat) => row ++ [(k : ℚ)]) x deg)

end NGC
