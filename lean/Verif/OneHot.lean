import Verif.Py

/-!
Model of `utils.py`: `np_onehot` and `pretty_midi_to_one_hot`. A matrix is its number of columns and
the function giving its entries.
-/

namespace NGC

/-- numpy index into an axis of length `n`: negative indices count from the end. -/
def wrapIdx (n : Nat) (i : Int) : Py Nat :=
  if 0 ≤ i ∧ i < n then .ok i.toNat
  else if -(n : Int) ≤ i ∧ i < 0 then .ok (i + n).toNat
  else .error .index

/-- The row of `depth` zeros with a one at `k`. -/
def npRow (depth k : Nat) : List Nat := (List.replicate depth 0).set k 1

/-- `np_onehot` (utils.py 7-16): one row per index. All indices are checked before the assignment. -/
def npOnehot (depth : Nat) : List Int → Py (List (List Nat))
  | [] => .ok []
  | i :: is => do
    let k ← wrapIdx depth i
    let rows ← npOnehot depth is
    .ok (npRow depth k :: rows)

/-- The parts of a note of `pretty_midi` that are used. -/
structure RollNote where
  pitch : Int
  start : ℚ
  stop : ℚ

/-- An instrument of `pretty_midi`: its notes and the times of its bends and control changes, which
count for `get_end_time` (pretty_midi `Instrument.get_end_time`). -/
structure RollIns where
  notes : List RollNote
  others : List ℚ

/-- `instrument.get_end_time()`. -/
def RollIns.endTime (i : RollIns) : ℚ :=
  match i.notes.map RollNote.stop ++ i.others with
  | [] => 0
  | x :: xs => xs.foldl max x

/-- `one_hot[p, c] = v` on a matrix with 128 rows. -/
def rollSet (cols : Nat) (m : Nat → Nat → Int) (p c v : Int) : Py (Nat → Nat → Int) := do
  let r ← wrapIdx 128 p
  let k ← wrapIdx cols c
  .ok (fun a b => if a = r ∧ b = k then v else m a b)

/-- The two assignments for a note (utils.py 53-56). -/
def rollNote (fs : ℚ) (cols : Nat) (m : Nat → Nat → Int) (n : RollNote) : Py (Nat → Nat → Int) := do
  let m' ← rollSet cols m n.pitch (pyInt (n.start * fs)) 1
  rollSet cols m' n.pitch (pyInt (n.stop * fs)) 0

/-- The loop over the notes (utils.py 51-57). -/
def rollNotes (fs : ℚ) (cols : Nat) (m : Nat → Nat → Int) : List RollNote → Py (Nat → Nat → Int)
  | [] => .ok m
  | n :: ns => do
    let m' ← rollNote fs cols m n
    rollNotes fs cols m' ns

/-- The matrix of one instrument (utils.py 49-57). A negative size is a ValueError. -/
def rollOfIns (fs : ℚ) (i : RollIns) : Py (Nat × (Nat → Nat → Int)) :=
  let c := pyInt (fs * i.endTime) + 1
  if c < 0 then .error .value
  else do
    let m ← rollNotes fs c.toNat (fun _ _ => 0) i.notes
    .ok (c.toNat, m)

/-- All instruments. -/
def rollsOf (fs : ℚ) : List RollIns → Py (List (Nat × (Nat → Nat → Int)))
  | [] => .ok []
  | i :: is => do
    let r ← rollOfIns fs i
    let rs ← rollsOf fs is
    .ok (r :: rs)

/-- The sum of the matrices, each padded with zeros (utils.py 60-62). -/
def rollSum (rs : List (Nat × (Nat → Nat → Int))) (a b : Nat) : Int :=
  (rs.map (fun r => if b < r.1 then r.2 a b else 0)).sum

/-- `pretty_midi_to_one_hot` (utils.py 29-65). `np.max` of nothing is a ValueError. -/
def midiToOneHot (fs : ℚ) (ins : List RollIns) : Py (Nat × (Nat → Nat → Int)) := do
  let rs ← rollsOf fs ins
  match rs with
  | [] => .error .value
  | r :: more =>
    .ok ((more.map Prod.fst).foldl max r.1, fun a b => clampI (-1) 1 (rollSum (r :: more) a b))

end NGC
