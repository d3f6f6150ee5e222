import Verif.SortedDict

/-!
`SortedIntervalDict` as a mutable mapping (`midi/sorted_interval_dict.py` 6-63): the class defines five methods and
inherits the rest from `collections.abc.MutableMapping`, whose methods are written in terms of those five.
-/

namespace NGC

/-- What a caller can put between the brackets: an interval, a slice with optional integer ends, or anything else
(sorted_interval_dict.py 13-21). -/
inductive SIKey where
  | interval (k : IVal)
  | range (lo hi : Option Int)
  | other

/-- What a call gives back. -/
inductive SIOut (V : Type) where
  | none
  | value (v : V)
  | item (k : IVal) (v : V)
  | sub (d : SIDict V)

namespace SIDict
variable {V : Type}

/-- `__getitem__` (sorted_interval_dict.py 13-21). -/
def getKey (d : SIDict V) : SIKey → Py (SIOut V)
  | .interval k => do let v ← SDict.getItem d k; .ok (.value v)
  | .range lo hi => do let r ← slice d lo hi; .ok (.sub r)
  | .other => .error .key

/-- `__setitem__` (sorted_interval_dict.py 23-27). -/
def setKey (d : SIDict V) (k : SIKey) (v : V) : Py (SIDict V) :=
  match k with
  | .interval k => SDict.setItem IVal.lt d k v
  | .range _ _ => .error .key
  | .other => .error .key

/-- A position of a Python slice over a list of length `n`: negative ones count from the end. -/
def slicePos (n : Nat) (i : Int) : Nat := if i < 0 then (i + n).toNat else min i.toNat n

/-- `l[lo:hi]`. -/
def pySliceList {α : Type} (l : List α) (lo hi : Option Int) : List α :=
  let a := (lo.map (slicePos l.length)).getD 0
  let b := (hi.map (slicePos l.length)).getD l.length
  (l.take b).drop a

/-- `__delitem__` (sorted_interval_dict.py 39-54): deleting an interval reads `self._items`, which does not exist; a
slice picks positions of the list of keys and deletes them one by one; other keys are refused. -/
def delKey (d : SIDict V) : SIKey → Py (SIDict V)
  | .interval k => delItem d k
  | .range lo hi => (pySliceList d.keys lo hi).foldlM (fun d k => delItem d k) d
  | .other => .error .key

/-- `key in d` (`Mapping.__contains__`: True unless `d[key]` raises KeyError; sorted_interval_dict.py 6 inherits it). -/
def hasKey (d : SIDict V) (k : SIKey) : Py Bool :=
  match d.getKey k with
  | .ok _ => .ok true
  | .error .key => .ok false
  | .error e => .error e

/-- `d.get(key, default)` (`Mapping.get`; sorted_interval_dict.py 6 inherits it). -/
def getD' (d : SIDict V) (k : SIKey) (default : SIOut V) : Py (SIOut V) :=
  match d.getKey k with
  | .error .key => .ok default
  | r => r

/-- `d.setdefault(key, default)` (`MutableMapping.setdefault`; sorted_interval_dict.py 6 inherits it). -/
def setDefault (d : SIDict V) (k : SIKey) (default : V) : Py (SIOut V × SIDict V) :=
  match d.getKey k with
  | .ok r => .ok (r, d)
  | .error .key => do let d' ← d.setKey k default; .ok (.value default, d')
  | .error e => .error e

/-- `d.pop(key[, default])` (`MutableMapping.pop`; sorted_interval_dict.py 6 inherits it). -/
def pop (d : SIDict V) (k : SIKey) (default : Option V) : Py (SIOut V × SIDict V) :=
  match d.getKey k with
  | .ok r => do let d' ← d.delKey k; .ok (r, d')
  | .error .key => match default with
    | some v => .ok (.value v, d)
    | none => .error .key
  | .error e => .error e

/-- `d.popitem()` (`MutableMapping.popitem`; sorted_interval_dict.py 6 inherits it). -/
def popItem (d : SIDict V) : Py (SIOut V × SIDict V) :=
  match d.keys with
  | [] => .error .key
  | k :: _ => do
    let v ← SDict.getItem d k
    let d' ← d.delKey (.interval k)
    .ok (.item k v, d')

/-- `d.clear()` (`MutableMapping.clear`; sorted_interval_dict.py 6 inherits it): `popitem` until KeyError. The number
of rounds is bounded by `fuel`; the caller passes one more than the number of keys. -/
def clearGo : Nat → SIDict V → Py (SIDict V)
  | 0, d => .ok d
  | fuel + 1, d => match d.popItem with
    | .ok r => clearGo fuel r.2
    | .error .key => .ok d
    | .error e => .error e

/-- `d.clear()`. -/
def clear (d : SIDict V) : Py (SIDict V) := clearGo (d.keys.length + 1) d

/-- `d.update(pairs)` with interval keys (`MutableMapping.update`; sorted_interval_dict.py 6 inherits it); the
constructor does the same with `dict(pairs)` on an empty dictionary (9-11). -/
def update (d : SIDict V) (items : List (IVal × V)) : Py (SIDict V) :=
  items.foldlM (fun d p => d.setKey (.interval p.1) p.2) d

end SIDict

/-- One call of a mutating method. -/
inductive SIOp (V : Type) where
  | set (k : SIKey) (v : V)
  | del (k : SIKey)
  | setDefault (k : SIKey) (v : V)
  | pop (k : SIKey) (default : Option V)
  | popItem
  | clear
  | update (items : List (IVal × V))

/-- One call with its outcome: a call that raises leaves the dictionary as it was (see `C164_history`; a slice
deletion raises at its first key, an update stores interval keys only and cannot raise). -/
def SIDict.call {V : Type} (d : SIDict V) : SIOp V → SIDict V × Py (SIOut V)
  | .set k v => match d.setKey k v with
    | .ok d' => (d', .ok .none) | .error e => (d, .error e)
  | .del k => match d.delKey k with
    | .ok d' => (d', .ok .none) | .error e => (d, .error e)
  | .setDefault k v => match d.setDefault k v with
    | .ok r => (r.2, .ok r.1) | .error e => (d, .error e)
  | .pop k v => match d.pop k v with
    | .ok r => (r.2, .ok r.1) | .error e => (d, .error e)
  | .popItem => match d.popItem with
    | .ok r => (r.2, .ok r.1) | .error e => (d, .error e)
  | .clear => match d.clear with
    | .ok d' => (d', .ok .none) | .error e => (d, .error e)
  | .update items => match d.update items with
    | .ok d' => (d', .ok .none) | .error e => (d, .error e)

/-- A history of calls. -/
def SIDict.calls {V : Type} (d : SIDict V) (ops : List (SIOp V)) : SIDict V :=
  ops.foldl (fun d op => (d.call op).1) d

end NGC
