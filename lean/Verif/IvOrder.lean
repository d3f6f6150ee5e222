import Verif.FloatTree
import Mathlib.Data.String.Basic
import Mathlib.Data.Finset.Basic

/-!
Comparison of intervals that carry arbitrary data: `FloatInterval.__cmp__`, `__lt__`, `__gt__` and `__eq__` (interval/interval.py 151-204), used wherever the tree sorts.

Simplified: of the values of Python the data may be `None`, booleans, integers, floats (without `nan`), strings, frozensets of numbers (the chords of this library), and objects of other classes
that have no order and are equal only to themselves. Lists and tuples are left out.
-/

namespace NGC

/-- The data of an interval. -/
inductive IvData where
  | none
  | bool (b : Bool)
  | int (z : Int)
  | float (q : ℚ)
  | str (s : String)
  | fset (s : Finset Nat)
  | obj (cls : String) (id : Nat)
  deriving DecidableEq

namespace IvData

/-- `type(data).__name__` (interval/interval.py 182-183). -/
def typeName : IvData → String
  | .none => "NoneType"
  | .bool _ => "bool"
  | .int _ => "int"
  | .float _ => "float"
  | .str _ => "str"
  | .fset _ => "frozenset"
  | .obj c _ => c

/-- The value of a number; `True` is 1. -/
def num : IvData → Option ℚ
  | .bool b => some (if b then 1 else 0)
  | .int z => some z
  | .float q => some q
  | _ => Option.none

/-- `a == c` for data. -/
def eq (a c : IvData) : Bool :=
  match a.num, c.num with
  | some x, some y => decide (x = y)
  | _, _ => decide (a = c)

/-- `a < c` for data, where Python defines it; elsewhere TypeError. -/
def lt? (a c : IvData) : Option Bool :=
  match a.num, c.num with
  | some x, some y => some (decide (x < y))
  | _, _ =>
    match a, c with
    | .str s, .str t => some (decide (s < t))
    | .fset s, .fset t => some (decide (s ⊂ t))
    | _, _ => Option.none

/-- The second half of `__cmp__` (interval/interval.py 177-186). -/
def cmp (a c : IvData) : Int :=
  if a.eq c then 0
  else match a.lt? c with
    | some b => if b then -1 else 1
    | Option.none => if a.typeName = c.typeName then 0 else if a.typeName < c.typeName then -1 else 1

end IvData

/-- `FloatInterval.__cmp__` (interval/interval.py 161-186) with another interval. -/
def ivCmp (a c : FIv IvData) : Int :=
  if a.b = c.b ∧ a.e = c.e then a.data.cmp c.data
  else if a.b < c.b ∨ a.b = c.b ∧ a.e < c.e then -1 else 1

/-- `a < c` (interval/interval.py 188-194). -/
def ivLt (a c : FIv IvData) : Bool := decide (ivCmp a c < 0)

/-- `a > c` (interval/interval.py 198-204). -/
def ivGt (a c : FIv IvData) : Bool := decide (0 < ivCmp a c)

/-- `a == c` (interval/interval.py 151-159). -/
def ivEq (a c : FIv IvData) : Bool := decide (a.b = c.b) && decide (a.e = c.e) && a.data.eq c.data

end NGC
