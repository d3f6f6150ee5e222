import Verif.PyDict
import Mathlib.Data.List.Perm.Basic

/-!
Model of `interval/interval.py`, `interval/node.py` and `interval/intervaltree.py`.

Node objects are mutable in Python; every method used here returns the new top node of the subtree,
and no two nodes share a child, so subtrees are values. `s_center` and `all_intervals` are Python
sets, modelled by duplicate-free lists. The first argument of the recursive functions is the
recursion limit of the interpreter: when it is used up, RecursionError (a RuntimeError) is raised.
-/

namespace NGC

/-- `math.isclose(a, b)` with the default tolerances. -/
def iclose (a b : ℚ) : Bool := isclose a b (1/1000000000) 0

/-- `FloatInterval` (interval.py 39-43). -/
structure FIv (D : Type) where
  b : ℚ
  e : ℚ
  data : D
  deriving DecidableEq

namespace FIv
variable {D : Type}

/-- `is_null` (interval.py 126-132). -/
def isNull (iv : FIv D) : Bool := decide (iv.e ≤ iv.b)

/-- `length` (interval.py 134-142). -/
def length (iv : FIv D) : ℚ := if iv.isNull then 0 else iv.e - iv.b

/-- `contains_point` (interval.py 80-86). -/
def containsPoint (iv : FIv D) (p : ℚ) : Bool := iclose iv.b p && iclose p iv.e

/-- `overlaps(begin, end)` (interval.py 44-53). -/
def overlapsRange (iv : FIv D) (b e : ℚ) : Bool := iclose b iv.e && decide (iv.b < e)

/-- `overlaps(other)` with another interval (interval.py 44-57). -/
def overlapsIv (iv other : FIv D) : Bool := iv.overlapsRange other.b other.e

/-- `range_matches` (interval.py 88-94). -/
def rangeMatches (iv other : FIv D) : Bool := decide (iv.b = other.b) && decide (iv.e = other.e)

/-- `contains_interval` (interval.py 96-102). -/
def containsInterval (iv other : FIv D) : Bool := decide (iv.b ≤ other.b) && decide (other.e ≤ iv.e)

/-- `overlap_size(begin, end)` (interval.py 59-78). -/
def overlapSize (iv : FIv D) (b e : ℚ) : ℚ :=
  if iv.overlapsRange b e then min iv.e e - max iv.b b else 0

/-- `distance_to(other)` with another interval (interval.py 104-124). -/
def distanceTo (iv other : FIv D) : ℚ :=
  if iv.overlapsIv other then 0
  else if iv.b < other.b then other.b - iv.e else iv.b - other.e

/-- `__lt__` through `__cmp__` (interval.py 161-196), with `dlt` the `<` of the data fields; when
the data are not comparable the type names are compared, which for data of one type never decides
(`dlt` is then constantly false). -/
def lt (dlt : D → D → Bool) (a c : FIv D) : Bool :=
  if a.b ≠ c.b then decide (a.b < c.b)
  else if a.e ≠ c.e then decide (a.e < c.e)
  else dlt a.data c.data

/-- `lt` (interval.py 206-223), ValueError on null intervals. -/
def strictlyBefore (a c : FIv D) : Py Bool :=
  if a.isNull || c.isNull then .error .value else .ok (decide (a.e ≤ c.b))

/-- `gt` (interval.py 239-251). -/
def strictlyAfter (a c : FIv D) : Py Bool :=
  if a.isNull || c.isNull then .error .value else .ok (decide (c.e ≤ a.b))

/-- `le` (interval.py 228-237). -/
def le (a c : FIv D) : Py Bool :=
  if a.isNull || c.isNull then .error .value else .ok (iclose a.e c.e)

/-- `ge` (interval.py 253-262). -/
def ge (a c : FIv D) : Py Bool :=
  if a.isNull || c.isNull then .error .value else .ok (decide (c.b ≤ a.b))

end FIv

/-- `Node` (node.py 46-71), or `None`. -/
inductive ITree (D : Type) where
  | nil
  | node (x : ℚ) (s : List (FIv D)) (l r : ITree D) (depth bal : Int)
  deriving DecidableEq

namespace ITree
variable {D : Type} [DecidableEq D]

/-- `node.depth`, 0 for `None` (node.py 135-136). -/
def depth : ITree D → Int
  | nil => 0
  | node _ _ _ _ d _ => d

/-- `node.balance`. -/
def balance : ITree D → Int
  | nil => 0
  | node _ _ _ _ _ b => b

/-- `node.s_center`. -/
def center : ITree D → List (FIv D)
  | nil => []
  | node _ s _ _ _ _ => s

/-- `self[dir]` (node.py 516-524). -/
def child : ITree D → Bool → ITree D
  | nil, _ => nil
  | node _ _ l r _ _, dir => if dir then r else l

/-- `self[dir] = c` (node.py 526-531). -/
def setChild : ITree D → Bool → ITree D → ITree D
  | nil, _, _ => nil
  | node x s l r d b, dir, c => if dir then node x s l c d b else node x s c r d b

/-- A node after `refresh_balance` (node.py 132-138). -/
def mk (x : ℚ) (s : List (FIv D)) (l r : ITree D) : ITree D :=
  node x s l r (1 + max l.depth r.depth) (r.depth - l.depth)

/-- `refresh_balance` (node.py 132-138). -/
def refresh : ITree D → ITree D
  | nil => nil
  | node x s l r _ _ => mk x s l r

/-- `from_interval` (node.py 73-79). -/
def single (iv : FIv D) : ITree D := mk iv.b [iv] nil nil

/-- `all_children` (node.py 461-470), left to right. -/
def ivs : ITree D → List (FIv D)
  | nil => []
  | node _ s l r _ _ => l.ivs ++ s ++ r.ivs

/-- `count_nodes` (node.py 552-562). -/
def count : ITree D → Nat
  | nil => 0
  | node _ _ l r _ _ => 1 + l.count + r.count

/-- `s.update(xs)` on a set. -/
def setUpdate (s xs : List (FIv D)) : List (FIv D) := s ++ xs.filter (fun x => decide (x ∉ s))

/-- The x coordinate chosen in `pop_greatest_child` (node.py 391-398): the largest `end` that differs
from the greatest one, if larger than `x_center`. -/
def newCenter (x : ℚ) (s : List (FIv D)) : ℚ :=
  match s.map FIv.e with
  | [] => x
  | e :: es => (((e :: es).filter (fun y => decide (y ≠ es.foldl max e)))).foldl max x

mutual

/-- `rotate` (node.py 150-173). -/
def rotate : Nat → ITree D → Py (ITree D)
  | 0, _ => .error .runtime
  | lim + 1, t =>
    let t := t.refresh
    if |t.balance| < 2 then .ok t
    else
      let heavy := decide (0 < t.balance)
      let c := t.child heavy
      if c = nil then .error .attribute
      else if heavy = decide (0 < c.balance) ∨ c.balance = 0 then srotate lim t
      else drotate lim t

/-- `srotate` (node.py 175-206). -/
def srotate : Nat → ITree D → Py (ITree D)
  | 0, _ => .error .runtime
  | lim + 1, t =>
    let heavy := decide (0 < t.balance)
    match t.child heavy with
    | nil => .error .type
    | node sx ss sl sr sd sb => do
      let save := node sx ss sl sr sd sb
      let sub ← rotate lim (t.setChild heavy (save.child (!heavy)))
      let promotees := sub.center.filter (fun iv => iv.containsPoint sx)
      let sub ← promoteLoop lim promotees sub
      .ok ((node sx (setUpdate ss promotees) sl sr sd sb).setChild (!heavy) sub).refresh

/-- The loop `save[light] = save[light].remove(iv)` of `srotate` (node.py 198-200). -/
def promoteLoop : Nat → List (FIv D) → ITree D → Py (ITree D)
  | 0, _, _ => .error .runtime
  | _ + 1, [], t => .ok t
  | lim + 1, iv :: rest, t => do
    let r ← removeHelper lim t iv true
    promoteLoop lim rest r.1

/-- `drotate` (node.py 208-219). -/
def drotate : Nat → ITree D → Py (ITree D)
  | 0, _ => .error .runtime
  | lim + 1, t => do
    let heavy := decide (0 < t.balance)
    let c ← srotate lim (t.child heavy)
    srotate lim (t.setChild heavy c).refresh

/-- `remove_interval_helper` (node.py 255-309): the new subtree and whether `done` was set. -/
def removeHelper : Nat → ITree D → FIv D → Bool → Py (ITree D × Bool)
  | 0, _, _, _ => .error .runtime
  | _ + 1, nil, _, _ => .error .attribute
  | lim + 1, node x s l r d b, iv, shouldRaise =>
    if iv.containsPoint x then
      if !shouldRaise && decide (iv ∉ s) then .ok (node x s l r d b, true)
      else if iv ∉ s then .error .key
      else if s.erase iv ≠ [] then .ok (node x (s.erase iv) l r d b, true)
      else do
        let t ← prune lim (node x [] l r d b)
        .ok (t, false)
    else
      let dir := decide (x < iv.b)
      if (node x s l r d b).child dir = nil then
        if shouldRaise then .error .value else .ok (node x s l r d b, true)
      else do
        let (c, done) ← removeHelper lim ((node x s l r d b).child dir) iv shouldRaise
        if done then .ok ((node x s l r d b).setChild dir c, true)
        else do
          let t ← rotate lim ((node x s l r d b).setChild dir c)
          .ok (t, false)

/-- `prune` (node.py 333-372). -/
def prune : Nat → ITree D → Py (ITree D)
  | 0, _ => .error .runtime
  | _ + 1, nil => .error .attribute
  | lim + 1, node _ _ l r _ _ =>
    if l = nil then .ok r
    else if r = nil then .ok l
    else do
      let (heir, l') ← popGreatest lim l
      match heir with
      | nil => .error .attribute
      | node hx hs _ _ _ _ => rotate lim (mk hx hs l' r)

/-- `pop_greatest_child` (node.py 374-449). -/
def popGreatest : Nat → ITree D → Py (ITree D × ITree D)
  | 0, _ => .error .runtime
  | _ + 1, nil => .error .attribute
  | lim + 1, node x s l r d b =>
    if r = nil then
      if s = [] then .error .index
      else
        let nx := newCenter x s
        let moved := s.filter (fun iv => iv.containsPoint nx)
        let rest := s.filter (fun iv => !iv.containsPoint nx)
        .ok (mk nx moved nil nil, if rest ≠ [] then node x rest l r d b else l)
    else do
      let (g, r') ← popGreatest lim r
      match g with
      | nil => .error .attribute
      | node gx gs gl gr gd gb =>
        let moved := s.filter (fun iv => iv.containsPoint gx)
        let rest := s.filter (fun iv => !iv.containsPoint gx)
        let g' := node gx (setUpdate gs moved) gl gr gd gb
        if rest ≠ [] then do
          let t ← rotate lim (mk x rest l r')
          .ok (g', t)
        else do
          let t ← prune lim (node x rest l r' d b)
          .ok (g', t)

end

/-- `add` on an existing node (node.py 221-236). -/
def add : Nat → ITree D → FIv D → Py (ITree D)
  | 0, _, _ => .error .runtime
  | _ + 1, nil, _ => .error .attribute
  | lim + 1, node x s l r d b, iv =>
    if iv.containsPoint x then .ok (node x (setUpdate s [iv]) l r d b)
    else
      let dir := decide (x < iv.b)
      if (node x s l r d b).child dir = nil then
        .ok ((node x s l r d b).setChild dir (single iv)).refresh
      else do
        let c ← add lim ((node x s l r d b).child dir) iv
        rotate lim ((node x s l r d b).setChild dir c)

/-- The choice of the new top node in `FloatIntervalTree.add` (intervaltree.py 300-303). -/
def addTop (lim : Nat) (t : ITree D) (iv : FIv D) : Py (ITree D) :=
  match t with
  | nil => .ok (single iv)
  | node x s l r d b => add lim (node x s l r d b) iv

/-- `from_sorted_intervals` and `init_from_sorted` (node.py 90-119) on the sorted list. -/
def ofSorted : Nat → List (FIv D) → Py (ITree D)
  | _, [] => .ok nil
  | 0, _ :: _ => .error .runtime
  | lim + 1, iv :: rest => do
    let xs := iv :: rest
    match xs[xs.length / 2]? with
    | none => .error .index
    | some c =>
      let sRight := xs.filter (fun k => decide (c.b < k.b))
      let sLeft := xs.filter (fun k => !decide (c.b < k.b) && iclose k.e c.b)
      let sCenter := xs.filter (fun k => !decide (c.b < k.b) && !iclose k.e c.b)
      let l ← ofSorted lim sLeft
      let r ← ofSorted lim sRight
      rotate lim (mk c.b sCenter l r)

/-- `contains_point` (node.py 451-459). -/
def containsPoint : ITree D → ℚ → Bool
  | nil, _ => false
  | node x s l r _ _, p =>
    s.any (fun iv => iv.containsPoint p) ||
      (if x < p then r.containsPoint p else l.containsPoint p)

/-- `search_point` with a number: every path evaluates `point.isclose`, which a number lacks
(node.py 320-331). -/
def searchNumber : ITree D → ℚ → Py (List (FIv D))
  | nil, _ => .error .attribute
  | node _ _ _ _ _ _, _ => .error .attribute

end ITree

/-- `FloatIntervalTree` state (intervaltree.py 226-243). -/
structure FTree (D : Type) where
  all : List (FIv D)
  top : ITree D
  bounds : List (ℚ × Nat)
  deriving DecidableEq

/-- `del d[k]` on a dict. -/
def ddel {K V : Type} [DecidableEq K] (d : List (K × V)) (k : K) : List (K × V) :=
  d.filter (fun p => decide (p.1 ≠ k))

/-- One half of `_add_boundaries` (intervaltree.py 254-268). -/
def addBound (t : List (ℚ × Nat)) (k : ℚ) : List (ℚ × Nat) :=
  match dget t k with
  | some n => dset t k (n + 1)
  | none => dset t k 1

/-- One half of `_remove_boundaries` (intervaltree.py 270-284). -/
def delBound (t : List (ℚ × Nat)) (k : ℚ) : Py (List (ℚ × Nat)) :=
  match dget t k with
  | none => .error .key
  | some n => if n = 1 then .ok (ddel t k) else .ok (dset t k (n - 1))

namespace FTree
variable {D : Type} [DecidableEq D]

/-- `FloatIntervalTree()` (intervaltree.py 226-243). -/
def empty : FTree D := ⟨[], .nil, []⟩

/-- `FloatIntervalTree(intervals)` (intervaltree.py 226-243). `sorted` is the result of
`sorted(set(intervals))`, `all` the set itself. -/
def ofIntervals (lim : Nat) (all sorted : List (FIv D)) : Py (FTree D) :=
  if all.any FIv.isNull then .error .value
  else do
    let top ← ITree.ofSorted lim sorted
    .ok ⟨all, top, all.foldl (fun t iv => addBound (addBound t iv.b) iv.e) []⟩

/-- `__contains__` (intervaltree.py 1078-1091). -/
def has (t : FTree D) (iv : FIv D) : Bool := decide (iv ∈ t.all)

/-- `__len__` (intervaltree.py 1110-1116). -/
def len (t : FTree D) : Nat := t.all.length

/-- `add`, `append`, `addi` (intervaltree.py 286-314). -/
def add (lim : Nat) (t : FTree D) (iv : FIv D) : Py (FTree D) :=
  if t.has iv then .ok t
  else if iv.isNull then .error .value
  else do
    let top ← t.top.addTop lim iv
    .ok ⟨t.all ++ [iv], top, addBound (addBound t.bounds iv.b) iv.e⟩

/-- `remove` (intervaltree.py 325-338). -/
def remove (lim : Nat) (t : FTree D) (iv : FIv D) : Py (FTree D) :=
  if !t.has iv then .error .value
  else do
    let (top, _) ← ITree.removeHelper lim t.top iv true
    let b1 ← delBound t.bounds iv.b
    let b2 ← delBound b1 iv.e
    .ok ⟨t.all.erase iv, top, b2⟩

/-- `discard` (intervaltree.py 347-357). -/
def discard (lim : Nat) (t : FTree D) (iv : FIv D) : Py (FTree D) :=
  if !t.has iv then .ok t
  else do
    let (top, _) ← ITree.removeHelper lim t.top iv false
    let b1 ← delBound t.bounds iv.b
    let b2 ← delBound b1 iv.e
    .ok ⟨t.all.erase iv, top, b2⟩

/-- `update(ivs)` (intervaltree.py 316-323). -/
def update (lim : Nat) (t : FTree D) (xs : List (FIv D)) : Py (FTree D) :=
  xs.foldlM (fun t iv => t.add lim iv) t

/-- `difference_update(ivs)` (intervaltree.py 377-382). -/
def differenceUpdate (lim : Nat) (t : FTree D) (xs : List (FIv D)) : Py (FTree D) :=
  xs.foldlM (fun t iv => t.discard lim iv) t

/-- `removei`, `discardi`, `containsi`, `range`, `copy`, `from_tuples`, `union`, `difference`,
`intersection`, `symmetric_difference`, `find_nested`: all evaluate the undefined name `Interval` or
`IntervalTree` (intervaltree.py 218-224, 245-252, 340-345, 359-364, 366-375, 384-401, 412-420,
513-532, 898-905, 1093-1099), and so does `__eq__` (1118-1127). `difference` etc. build a set first, which has no effect. -/
def undefinedName (_t : FTree D) : Py (FTree D) := .error .name

/-- The sorted boundaries (sortedcontainers `SortedDict.keys()`). -/
def keys (t : FTree D) : List ℚ := sortByKey id (dkeys t.bounds)

/-- `begin()` (intervaltree.py 880-887). -/
def begin (t : FTree D) : ℚ := t.keys.headD 0

/-- `end()` (intervaltree.py 889-896). -/
def stop (t : FTree D) : ℚ := t.keys.getLastD 0

/-- `span()` (intervaltree.py 907-915). -/
def span (t : FTree D) : ℚ := if t.len = 0 then 0 else t.stop - t.begin

/-- `at(p)` with a number, also reached by `tree[p]` (intervaltree.py 806-817, 1040-1060). -/
def at_ (t : FTree D) (p : ℚ) : Py (List (FIv D)) :=
  match t.top with
  | .nil => .ok []
  | n => n.searchNumber p

/-- `overlap(begin, end)` with numbers (intervaltree.py 853-878): the first step searches for
`begin`; the rest is reached only if that returns. `envelop` (819-851) starts in the same way. -/
def overlap (t : FTree D) (b e : ℚ) : Py (List (FIv D)) :=
  match t.top with
  | .nil => .ok []
  | n => if e ≤ b then .ok [] else n.searchNumber b

/-- `remove_overlap(begin, end)` on numbers (intervaltree.py 435-445): the search raises or returns
nothing to remove. -/
def removeOverlap (t : FTree D) (b e : ℚ) : Py (FTree D) := do
  let _ ← t.overlap b e
  .ok t

/-- `overlaps_point(p)` (intervaltree.py 549-557). -/
def overlapsPoint (t : FTree D) (p : ℚ) : Bool :=
  if t.len = 0 then false else t.top.containsPoint p

/-- `overlaps_range(b, e)` (intervaltree.py 559-576). -/
def overlapsRange (t : FTree D) (b e : ℚ) : Bool :=
  if t.len = 0 then false
  else if e ≤ b then false
  else if t.overlapsPoint b then true
  else t.keys.any (fun k => decide (b < k) && decide (k < e) && t.overlapsPoint k)

/-- `split_overlaps()` (intervaltree.py 578-598). -/
def splitOverlaps (t : FTree D) : Py (FTree D) :=
  if t.len = 0 then .ok t
  else if t.bounds.length = 2 then .ok t
  else match t.keys with
    | k :: _ :: _ => do
      let _ ← t.at_ k
      .error .name
    | _ => .ok empty

/-- The loop of `merge_overlaps` over the sorted intervals with the default arguments
(intervaltree.py 642-657): merging two intervals evaluates the undefined name `Interval`. -/
def mergeGo (strict : Bool) : List (FIv D) → List (FIv D) → Py (List (FIv D))
  | merged, [] => .ok merged
  | merged, higher :: rest =>
    match merged.getLast? with
    | none => mergeGo strict (merged ++ [higher]) rest
    | some lower =>
      if higher.b < lower.e || (!strict && decide (higher.b = lower.e)) then .error .name
      else mergeGo strict (merged ++ [higher]) rest

/-- `merge_overlaps(strict=…)` without data functions (intervaltree.py 600-659); `sorted` is
`sorted(self.all_intervals)`. -/
def mergeOverlaps (lim : Nat) (t : FTree D) (sorted : List (FIv D)) (strict : Bool) : Py (FTree D) :=
  if t.len = 0 then .ok t
  else do
    let merged ← mergeGo strict [] sorted
    ofIntervals lim merged merged

end FTree

/-- One operation on a tree. -/
inductive TOp (D : Type) where
  | add (iv : FIv D)
  | discard (iv : FIv D)
  | remove (iv : FIv D)
  | clear

/-- One operation; exceptions end the history. -/
def TOp.run {D : Type} [DecidableEq D] (lim : Nat) (t : FTree D) : TOp D → Py (FTree D)
  | .add iv => t.add lim iv
  | .discard iv => t.discard lim iv
  | .remove iv => t.remove lim iv
  | .clear => .ok FTree.empty

end NGC
