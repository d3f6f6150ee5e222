import Verif.Graph

/-!
Model of the reverse checks of a dataset (`x`, `y` → index → hash → pitches) in `ngc_small_graph.py` and
`midi_dataset.py`, of `compute_statistics` and of the index that a dataset remembers.

Left out: the printed text (only which rows are reported is modelled), `has_edge_weights` (it inspects attributes of the
dataset object, not of a graph), `split` (it reads `train_idx`, `val_idx` and `test_idx`, which nothing ever sets).
-/

namespace NGC

/-- `tensor[mask]` with a boolean mask over the first dimension: IndexError when the lengths differ. -/
def maskRows {α : Type} (rows : List α) (mask : List Bool) : Py (List α) :=
  if rows.length ≠ mask.length then .error .index
  else .ok (((rows.zip mask).filter (fun p => p.2)).map (fun p => p.1))

/-- A dictionary lookup. -/
def lookupKey {K V : Type} [DecidableEq K] (d : List (K × V)) (k : K) : Py V :=
  match dget d k with
  | some v => .ok v
  | none => .error .key

/-- `torch.equal(torch.sort(row), torch.sort(torch.cat((notes, zeros))[:cut]))` (ngc_small_graph.py 136-142, 243-251;
midi_dataset.py 527-536). -/
def rowAgrees (row : List ℚ) (notes : List Int) (zeros cut : Nat) : Bool :=
  decide (sortByKey (fun x : ℚ => x) row =
    sortByKey (fun x : ℚ => x) ((notes.map (fun p : Int => (p : ℚ)) ++ List.replicate zeros 0).take cut))

/-- The loop of the checks (ngc_small_graph.py 131-145, 237-254; midi_dataset.py 523-538): the positions that are
reported. `env.iter` is `list(original_set_of_notes)`. -/
def checkLoop (env : PyEnv) (t : Tables) (zeros cut : Nat) : Nat → List (List ℚ) → List Nat → Py (List Nat)
  | _, [], _ => .ok []
  | _, _ :: _, [] => .error .index
  | i, row :: rows, y :: ys => do
    let h ← lookupKey t.indexToHash y
    let c ← lookupKey t.hashToNotes h
    let rest ← checkLoop env t zeros cut (i + 1) rows ys
    .ok (if rowAgrees row (env.iter c) zeros cut then rest else i :: rest)

/-- The selected rows and labels, and the check with a given number of zeros and a given cut, both computed from the
number of selected rows. -/
def reverseCheck (env : PyEnv) (t : Tables) (zeros cut : Nat → Nat) (x : List (List ℚ)) (y : List Nat) (mask : List Bool) :
    Py (List Nat) := do
  let xs ← maskRows x mask
  let ys ← maskRows y mask
  checkLoop env t (zeros xs.length) (cut xs.length) 0 xs ys

/-- `index_to_hash` (ngc_small_graph.py 115-145): as many zeros as rows, cut at the width of the features. -/
def smallGraphCheck (env : PyEnv) (t : Tables) (width : Nat) (x : List (List ℚ)) (y : List Nat) (mask : List Bool) :
    Py (List Nat) := reverseCheck env t (fun n => n) (fun _ => width) x y mask

/-- The loop at the end of `index_checker` (ngc_small_graph.py 237-254): five zeros, cut at five. -/
def fiveCheck (env : PyEnv) (t : Tables) (x : List (List ℚ)) (y : List Nat) (mask : List Bool) : Py (List Nat) :=
  reverseCheck env t (fun _ => 5) (fun _ => 5) x y mask

/-- `__sanity_checker` (midi_dataset.py 516-538): cut at the number of rows. -/
def sanityCheck (env : PyEnv) (t : Tables) (x : List (List ℚ)) (y : List Nat) (mask : List Bool) : Py (List Nat) :=
  reverseCheck env t (fun n => n) (fun n => n) x y mask

/-! ### Statistics -/

/-- The dictionary that `compute_statistics` returns. -/
structure DataStats where
  nodes : Nat
  edges : Nat
  labels : Nat
  deriving DecidableEq

/-- One round of the loop (midi_dataset.py 394-397): a graph that was never labelled has no attribute
`label`. `torch.unique` gives the distinct values. -/
def statStep (s : DataStats) (g : PygData) : Py DataStats :=
  match g.label with
  | none => .error .attribute
  | some l => .ok ⟨s.nodes + g.nodeHash.length, s.edges + g.edgeIndex.length, s.labels + l.dedup.length⟩

/-- The data set object as far as indexing is concerned: its graphs and `_current_index` (midi_dataset.py 221). -/
structure IndexedData where
  items : List PygData
  current : Int := 0

/-- `__getitem__` with an integer (midi_dataset.py 700-702): the index is remembered before the lookup; negative indices
count from the end; IndexError outside. -/
def IndexedData.getItem (d : IndexedData) (i : Int) : Py PygData × IndexedData :=
  let d' := { d with current := i }
  let n : Int := d.items.length
  let j := if i < 0 then i + n else i
  if j < 0 then (.error .index, d')
  else match d.items[j.toNat]? with
    | some g => (.ok g, d')
    | none => (.error .index, d')

/-- `for data in self` with the body of `compute_statistics` (midi_dataset.py 389-403): a class without `__iter__` is
iterated by `__getitem__(0)`, `__getitem__(1)`, … until IndexError. The first argument is fuel; one more than the number
of graphs suffices. -/
def statLoop : Nat → Int → IndexedData → DataStats → Py DataStats × IndexedData
  | 0, _, d, s => (.ok s, d)
  | fuel + 1, i, d, s =>
    match d.getItem i with
    | (.ok g, d') =>
      match statStep s g with
      | .ok s' => statLoop fuel (i + 1) d' s'
      | .error e => (.error e, d')
    | (.error .index, d') => (.ok s, d')
    | (.error e, d') => (.error e, d')

/-- `compute_statistics` (midi_dataset.py 389-403): its result and the object afterwards. -/
def IndexedData.statistics (d : IndexedData) : Py DataStats × IndexedData :=
  statLoop (d.items.length + 1) 0 d ⟨0, 0, 0⟩

end NGC
