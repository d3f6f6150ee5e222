import Verif.Order

/-!
Model of `midi/sorted_dict.py`, `midi/Interval.py` and `midi/sorted_interval_dict.py`.

The key order is a parameter `lt` (the keys' `__lt__`). The inherited `OrderedDict` content is an
association list in insertion order.
-/

namespace NGC

/-- `SortedDict` state: the inherited ordered dictionary and `_keys` (sorted_dict.py 33-35). -/
structure SDict (K V : Type) where
  dict : List (K × V)
  keys : List K
  deriving Repr

namespace SDict
variable {K V : Type} [DecidableEq K]

/-- The empty dictionary, `SortedDict()` (sorted_dict.py 33-35). -/
def empty : SDict K V := { dict := [], keys := [] }

/-- `SortedDict(items)` (sorted_dict.py 33-35). The inherited constructor stores the items through
the overridden `__setitem__`, which reads `_keys` before it is set: AttributeError, unless there is
nothing to store. -/
def ofItems (items : List (K × V)) : Py (SDict K V) :=
  match items with
  | [] => .ok empty
  | _ :: _ => .error .attribute

/-- `d.get(key)` / `d[key]` without its KeyError (inherited). -/
def lookup (d : SDict K V) (k : K) : Option V := (d.dict.find? (fun p => decide (p.1 = k))).map (·.2)

/-- `key in d` (inherited). -/
def has (d : SDict K V) (k : K) : Bool := d.dict.any (fun p => decide (p.1 = k))

/-- `d[key]` (inherited). -/
def getItem (d : SDict K V) (k : K) : Py V :=
  match d.lookup k with
  | some v => .ok v
  | none => .error .key

/-- `__delitem__` (sorted_dict.py 57-63): inherited deletion (KeyError if missing), then
`list.remove` (first occurrence; ValueError if missing). -/
def delItem (d : SDict K V) (k : K) : Py (SDict K V) :=
  if d.has k then
    if k ∈ d.keys then
      .ok { dict := d.dict.filter (fun p => decide (p.1 ≠ k)), keys := d.keys.erase k }
    else .error .value
  else .error .key

/-- `__setitem__` (sorted_dict.py 37-51). -/
def setItem (lt : K → K → Bool) (d : SDict K V) (k : K) (v : V) : Py (SDict K V) := do
  let d ← if d.has k then d.delItem k else .ok d
  .ok { dict := d.dict ++ [(k, v)], keys := insortLeft lt d.keys k }

/-- `values()` (sorted_dict.py 71-75). -/
def values (d : SDict K V) : Py (List V) := d.keys.mapM d.getItem

/-- `items()` (sorted_dict.py 77-81). -/
def items (d : SDict K V) : Py (List (K × V)) :=
  d.keys.mapM (fun k => do let v ← d.getItem k; .ok (k, v))

/-- `reversed(d)` (sorted_dict.py 83-87). -/
def reversed (d : SDict K V) : List K := d.keys.reverse

/-- `len(d)` (inherited). -/
def len (d : SDict K V) : Nat := d.dict.length

/-- `clear()` is inherited and does not touch `_keys` (there is no override in sorted_dict.py). -/
def clear (d : SDict K V) : SDict K V := { d with dict := [] }

end SDict

/-- One mutation of a dictionary. -/
inductive DictOp (K V : Type) where
  | set (k : K) (v : V)
  | del (k : K)

/-- One mutation with its outcome; an exception leaves the dictionary as it was (the only
exceptional exit that has already mutated it is unreachable, see `SDict.delItem`). -/
def SDict.step {K V : Type} [DecidableEq K] (lt : K → K → Bool) (d : SDict K V) :
    DictOp K V → SDict K V × Option Err
  | .set k v => match d.setItem lt k v with
    | .ok d' => (d', none)
    | .error e => (d, some e)
  | .del k => match d.delItem k with
    | .ok d' => (d', none)
    | .error e => (d, some e)

/-- A history of mutations with the list of outcomes. -/
def SDict.run {K V : Type} [DecidableEq K] (lt : K → K → Bool) :
    SDict K V → List (DictOp K V) → SDict K V × List (Option Err)
  | d, [] => (d, [])
  | d, op :: ops =>
    let r := d.step lt op
    let r' := SDict.run lt r.1 ops
    (r'.1, r.2 :: r'.2)

/-! ### Interval -/

/-- `Interval` (Interval.py 15-21): frozen dataclass of two integers. -/
structure IVal where
  start : Int
  stop : Int
  deriving DecidableEq, Repr

namespace IVal

/-- `__lt__` (Interval.py 35-38). -/
def lt (a b : IVal) : Bool := decide (a.start < b.start ∨ (a.start = b.start ∧ a.stop < b.stop))

/-- `__le__` (Interval.py 40-43). -/
def le (a b : IVal) : Bool := a.lt b || decide (a.start = b.start ∧ a.stop = b.stop)

/-- `__contains__` (Interval.py 45-46). -/
def contains (a : IVal) (x : Int) : Bool := decide (a.start ≤ x ∧ x ≤ a.stop)

/-- `overlaps` (Interval.py 67-68). -/
def overlaps (a b : IVal) : Bool := decide (max a.start b.start ≤ min a.stop b.stop)

/-- `intersection` (Interval.py 51-56). -/
def intersection (a b : IVal) : Option IVal :=
  if a.overlaps b then
    if max a.start b.start ≤ min a.stop b.stop then
      some { start := max a.start b.start, stop := min a.stop b.stop }
    else none
  else none

/-- `union` (Interval.py 58-65). -/
def union (a b : IVal) : IVal := { start := min a.start b.start, stop := max a.stop b.stop }

end IVal

/-! ### SortedIntervalDict -/

/-- `SortedIntervalDict` state (sorted_interval_dict.py 9-11): a `SortedDict` of intervals. -/
abbrev SIDict (V : Type) := SDict IVal V

namespace SIDict
variable {V : Type}

/-- `k.overlaps(Interval(start, stop))` where a missing bound is minus or plus infinity
(sorted_interval_dict.py 17-19). -/
def overlapsSlice (k : IVal) (lo hi : Option Int) : Bool :=
  let okLo := match lo with | some a => decide (a ≤ k.stop) | none => true
  let okHi := match hi with | some b => decide (k.start ≤ b) | none => true
  let okB := match lo, hi with | some a, some b => decide (a ≤ b) | _, _ => true
  decide (k.start ≤ k.stop) && okLo && okHi && okB

/-- `__getitem__` on a slice (sorted_interval_dict.py 16-19): the selected items are collected by
`dict` and stored one by one in a new dictionary. -/
def slice (d : SIDict V) (lo hi : Option Int) : Py (SIDict V) := do
  let its ← d.items
  (its.filter (fun p => overlapsSlice p.1 lo hi)).foldlM (fun acc p => acc.setItem IVal.lt p.1 p.2)
    SDict.empty

/-- `__delitem__` on an interval (sorted_interval_dict.py 39-54): `_items` does not exist. -/
def delItem (_d : SIDict V) (_k : IVal) : Py (SIDict V) := .error .attribute

end SIDict

end NGC
