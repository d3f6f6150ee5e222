import Verif.Py

/-!
Model of `midi_instruments.py` (`MidiInstrumentInfo`). Type checks are not modelled:
arguments have the annotated types.
-/

namespace NGC

/-- `MidiInstrumentInfo` (midi_instruments.py 42-72). -/
structure InstrumentInfo where
  num : Int
  name : String
  isDrum : Bool
  deriving DecidableEq, Repr

/-- `MidiInstrumentMap` (midi_instruments.py 15-32): half-open ranges. -/
def gmTable : List ((Int × Int) × String) :=
  [((1, 9), "Piano"), ((9, 17), "Chromatic Percussion"), ((17, 25), "Organ"), ((25, 33), "Guitar"),
   ((33, 41), "Bass"), ((41, 49), "Strings"), ((49, 57), "Ensemble"), ((57, 65), "Brass"),
   ((65, 73), "Reed"), ((73, 81), "Pipe"), ((81, 89), "Synth Lead"), ((89, 97), "Synth Pad"),
   ((97, 105), "Synth Effects"), ((105, 113), "Ethnic"), ((113, 121), "Percussive"),
   ((121, 129), "Sound Effects")]

/-- The `for ... else` loop (midi_instruments.py 64-70): the first range in iteration order that
contains the number, else "Unknown". The table is a `frozenset`, so its iteration order is an
argument. -/
def familyName : List ((Int × Int) × String) → Int → String
  | [], _ => "Unknown"
  | ((lo, hi), s) :: rest, i => if lo ≤ i ∧ i < hi then s else familyName rest i

/-- `MidiInstrumentInfo.__init__` (midi_instruments.py 44-72); `order` is the iteration order of
the frozen set. -/
def InstrumentInfo.mk? (order : List ((Int × Int) × String)) (i : Int) (name : String := "")
    (isDrum : Bool := false) : Py InstrumentInfo :=
  if ¬ (0 ≤ i ∧ i ≤ 255) then .error .value
  else .ok
    { num := min (max 0 i) 255
      name := if name = "" then familyName order i else name
      isDrum := isDrum }

/-- `__eq__` between two infos (midi_instruments.py 74-83). -/
def InstrumentInfo.eq (a b : InstrumentInfo) : Bool :=
  a.num == b.num && a.name == b.name && a.isDrum == b.isDrum

/-- `__lt__` (midi_instruments.py 104-109). -/
def InstrumentInfo.lt (a b : InstrumentInfo) : Bool := decide (a.num < b.num)

/-- `__hash__` (midi_instruments.py 111-116) for an arbitrary tuple hash `h`. -/
def InstrumentInfo.hash (h : Int × String × Bool → Int) (a : InstrumentInfo) : Int :=
  h (a.num, a.name, a.isDrum)

/-- A dictionary as read by `from_dict`: absent keys are `none`. -/
structure InstrumentDict where
  num : Option Int
  name : Option String
  isDrum : Option Bool

/-- `to_dict` (midi_instruments.py 126-132). -/
def InstrumentInfo.toDict (a : InstrumentInfo) : InstrumentDict :=
  { num := some a.num, name := some a.name, isDrum := some a.isDrum }

/-- `from_dict` (midi_instruments.py 118-124): an absent number is passed as `None`, a TypeError. -/
def InstrumentInfo.fromDict (order : List ((Int × Int) × String)) (d : InstrumentDict) :
    Py InstrumentInfo :=
  match d.num with
  | none => .error .type
  | some i => InstrumentInfo.mk? order i (d.name.getD "") (d.isDrum.getD false)

end NGC
