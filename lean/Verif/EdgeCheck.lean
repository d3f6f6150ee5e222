import Verif.Py

/-!
The checks of a batch in `example_read_complex_midi.py`: `check_masking` (60-95) and `check_edge_index` (99-162).
-/

namespace NGC

/-- The parts of a batch the checks read: numbers of nodes, columns of `edge_index`, three masks, targets and labels of the nodes. -/
structure MaskedBatch where
  numNodes : Nat
  edges : List (Int × Int)
  train : List Bool
  val : List Bool
  test : List Bool
  y : List Int
  label : List Int

/-- `mask.nonzero(as_tuple=True)[0]` (example_read_complex_midi.py 109-111): `mask * mask` is `mask`. -/
def nonzeroIdx (mask : List Bool) : List Nat := (List.range mask.length).filter (fun i => mask.getD i false)

/-- `edge_index[:, idx]` (example_read_complex_midi.py 109-111): an index past the last column is IndexError. -/
def pickCols (edges : List (Int × Int)) : List Nat → Py (List (Int × Int))
  | [] => .ok []
  | i :: is =>
    match edges[i]? with
    | none => .error .index
    | some e => do
      let r ← pickCols edges is
      .ok (e :: r)

/-- `torch.logical_and(a, b).sum()` (example_read_complex_midi.py 118-120). -/
def overlap (a b : List Bool) : Nat := (List.zipWith (fun x y => x && y) a b).countP id

/-- An `assert`. -/
def assertThat (b : Bool) : Py Unit := if b then .ok () else .error .assertion

/-- `check_edge_index(batch)` (example_read_complex_midi.py 99-162). Simplified: the six assertions on the greatest index are three, on pairs; printing is left out. -/
def checkEdgeIndex (b : MaskedBatch) : Py Unit := do
  let tr ← pickCols b.edges (nonzeroIdx b.train)
  let va ← pickCols b.edges (nonzeroIdx b.val)
  let te ← pickCols b.edges (nonzeroIdx b.test)
  assertThat (overlap b.train b.val == 0)
  assertThat (overlap b.train b.test == 0)
  assertThat (overlap b.val b.test == 0)
  let m : Int := (b.numNodes : Int) - 1
  assertThat (tr.all (fun e => decide (e.1 ≤ m ∧ e.2 ≤ m)))
  assertThat (va.all (fun e => decide (e.1 ≤ m ∧ e.2 ≤ m)))
  assertThat (te.all (fun e => decide (e.1 ≤ m ∧ e.2 ≤ m)))
  assertThat (tr.all (fun e => decide (0 ≤ e.1 ∧ 0 ≤ e.2)))
  assertThat (va.all (fun e => decide (0 ≤ e.1 ∧ 0 ≤ e.2)))
  assertThat (te.all (fun e => decide (0 ≤ e.1 ∧ 0 ≤ e.2)))
  assertThat (b.edges.length == b.train.countP id + b.val.countP id + b.test.countP id)

/-- `y[mask]` (example_read_complex_midi.py 68-70). -/
def maskedRows (l : List Int) (mask : List Bool) : List Int := ((l.zip mask).filter Prod.snd).map Prod.fst

/-- `check_masking(batch)` (example_read_complex_midi.py 60-95). -/
def checkMasking (b : MaskedBatch) : Py Unit := do
  assertThat (maskedRows b.y b.train == maskedRows b.label b.train)
  assertThat (maskedRows b.y b.val == maskedRows b.label b.val)
  assertThat (maskedRows b.y b.test == maskedRows b.label b.test)

end NGC
