import Verif.FloatTree

/-!
Model of the remaining methods of `FloatIntervalTree` (intervaltree.py): in-place set algebra, cutting, the other merges and
the self-check. Sets are iterated in an arbitrary order, which is an argument.
-/

namespace NGC
namespace FTree
variable {D : Type} [DecidableEq D]

/-- `intersection_update(other)` (intervaltree.py 403-410); `order` is `list(self)`. -/
def intersectionUpdate (lim : Nat) (t : FTree D) (order other : List (FIv D)) : Py (FTree D) :=
  order.foldlM (fun t iv => if iv ∈ other then .ok t else t.remove lim iv) t

/-- The loop of `symmetric_difference_update` (intervaltree.py 428-432): the tree and what is left of `other`. -/
def symGo (lim : Nat) : List (FIv D) → FTree D × List (FIv D) → Py (FTree D × List (FIv D))
  | [], st => .ok st
  | iv :: rest, st =>
    if iv ∈ st.2 then do
      let t ← st.1.remove lim iv
      symGo lim rest (t, st.2.erase iv)
    else symGo lim rest st

/-- `symmetric_difference_update(other)` (intervaltree.py 422-433); `other` is `set(other)`. -/
def symmetricDifferenceUpdate (lim : Nat) (t : FTree D) (order other : List (FIv D)) : Py (FTree D) := do
  let r ← symGo lim order (t, other)
  r.1.update lim r.2

/-- `envelop(begin, end)` with numbers (intervaltree.py 819-851): as `overlap`, the first step searches for `begin`; the
filter is reached only if that returns. -/
def envelop (t : FTree D) (b e : ℚ) : Py (List (FIv D)) :=
  match t.top with
  | .nil => .ok []
  | n => if e ≤ b then .ok [] else do
    let l ← n.searchNumber b
    .ok (l.filter (fun iv => decide (b ≤ iv.b) && decide (iv.e ≤ e)))

/-- `remove_envelop(begin, end)` (intervaltree.py 447-457). -/
def removeEnvelop (lim : Nat) (t : FTree D) (b e : ℚ) : Py (FTree D) := do
  let l ← t.envelop b e
  l.foldlM (fun t iv => t.remove lim iv) t

/-- `chop(begin, end)` with numbers (intervaltree.py 459-482): a hit evaluates the undefined name `Interval`; without hits nothing is
discarded or added. -/
def chop (lim : Nat) (t : FTree D) (b e : ℚ) : Py (FTree D) := do
  let l1 ← t.at_ b
  let l2 ← t.at_ e
  if l1.any (fun iv => decide (iv.b < b)) || l2.any (fun iv => decide (iv.e > e)) then .error .name
  else t.removeEnvelop lim b e

/-- `slice(point)` with a number (intervaltree.py 484-504). -/
def slice (t : FTree D) (p : ℚ) : Py (FTree D) := do
  let l ← t.at_ p
  if l.any (fun iv => decide (iv.b < p)) then .error .name else .ok t

/-- `del tree[p]` with a number (intervaltree.py 435-445, 1072-1076). -/
def delItem (lim : Nat) (t : FTree D) (p : ℚ) : Py (FTree D) := do
  let l ← t.at_ p
  l.foldlM (fun t iv => t.remove lim iv) t

/-- `tree[b:e] = data` (intervaltree.py 305-314, 1062-1070): `addi` evaluates `Interval`. -/
def setItem (t : FTree D) (_b _e : ℚ) (_data : D) : Py (FTree D) := t.undefinedName

/-- The loop of the merging methods without data functions: intervals that should be joined evaluate the undefined name
`Interval`. -/
def joinGo (join : FIv D → FIv D → Bool) : List (FIv D) → List (FIv D) → Py (List (FIv D))
  | merged, [] => .ok merged
  | merged, higher :: rest =>
    match merged.getLast? with
    | none => joinGo join (merged ++ [higher]) rest
    | some lower => if join lower higher then .error .name else joinGo join (merged ++ [higher]) rest

/-- `merge_equals()` (intervaltree.py 661-716); `sorted` is `sorted(self.all_intervals)`. -/
def mergeEquals (lim : Nat) (t : FTree D) (sorted : List (FIv D)) : Py (FTree D) :=
  if t.len = 0 then .ok t
  else do
    let merged ← joinGo (fun lower higher => higher.rangeMatches lower) [] sorted
    ofIntervals lim merged merged

/-- Whether `merge_neighbors` joins two intervals (intervaltree.py 766-778). -/
def neighborJoin (distance : ℚ) (strict : Bool) (lower higher : FIv D) : Bool :=
  decide (higher.b - lower.e ≤ distance) && !(strict && decide (higher.b - lower.e < 0))

/-- `merge_neighbors(distance=…, strict=…)` (intervaltree.py 718-788). -/
def mergeNeighbors (lim : Nat) (t : FTree D) (sorted : List (FIv D)) (distance : ℚ) (strict : Bool) : Py (FTree D) :=
  if t.len = 0 then .ok t
  else do
    let merged ← joinGo (neighborJoin distance strict) [] sorted
    ofIntervals lim merged merged

/-- `verify()` (intervaltree.py 934-1000): with intervals, the nodes are compared with the set and then the undefined name
`Interval` is evaluated; without, the table and the nodes must be gone. -/
def verify (t : FTree D) : Py Unit :=
  if t.all ≠ [] then
    if (∀ iv ∈ t.all, iv ∈ t.top.ivs) ∧ (∀ iv ∈ t.top.ivs, iv ∈ t.all) then .error .name else .error .assertion
  else if t.bounds ≠ [] then .error .assertion
  else match t.top with
    | .nil => .ok ()
    | _ => .error .assertion

end FTree

namespace ITree
variable {D : Type} [DecidableEq D]

/-- `Node.compute_depth()` (node.py 140-148), 0 for a missing child. -/
def computeDepth : ITree D → Int
  | nil => 0
  | node _ _ l r _ _ => 1 + max l.computeDepth r.computeDepth

/-- `Node.verify()` (node.py 472-514). The first assertion wants `abs(balance)` to be 2 (`isclose` of two integers at most
1e-9 apart relatively: equal, for the balances of nodes less than 10^9 deep), the second compares the stored balance with the
recomputed one, the third wants an interval; for the first interval `math.isclose` is called with one argument. Nothing behind
that is reached. -/
def verifyNode : ITree D → Py Unit
  | nil => .error .attribute
  | node _ s l r _ bal =>
    if bal ≠ 2 ∧ bal ≠ -2 then .error .assertion
    else if bal ≠ r.depth - l.depth then .error .assertion
    else match s with
      | [] => .error .assertion
      | _ :: _ => .error .type

/-- The nodes of a subtree. -/
def nodesOf : ITree D → List (ITree D)
  | nil => []
  | node x s l r d b => node x s l r d b :: (nodesOf l ++ nodesOf r)

end ITree
end NGC
