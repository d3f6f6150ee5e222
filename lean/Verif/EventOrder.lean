import Verif.Events
import Verif.Order

/-!
The comparisons of control changes, controller descriptions and pitch bends
(`midi_control_change.py` 18-64, 71-180, 217-253 and `midi_pitch_bend.py` 84-98), with Python's
choice of the method that answers when a `MidiControlChange` meets its base class.
-/

namespace NGC

/-- `MidiControlChange.__lt__` (midi_control_change.py 217-225) between two control changes;
`math.isclose` has its default tolerances. -/
def CC.lt (a b : CC) : Bool :=
  if isclose a.time b.time (1/1000000000) 0 then decide (a.seq < b.seq) else decide (a.time < b.time)

/-- `MidiControlChange.__ne__` (midi_control_change.py 245-253) between two control changes. -/
def CC.ne (a b : CC) : Bool := !(a.eq b)

/-- `MidiBaseControlChange` state (midi_control_change.py 38-49); the limits `cc_min`, `cc_max` and the on/off
mark take no part in any comparison and are left out. -/
structure BaseCC where
  number : Int
  description : String
  deriving DecidableEq, Repr

/-- `MidiBaseControlChange.__init__` (midi_control_change.py 22-49). -/
def BaseCC.mk' (number : Int) (description : String := "Undefined") : BaseCC :=
  { number := number
    description := if description = "Undefined" then description ++ " " ++ toString number else description }

/-- `MidiBaseControlChange.__lt__` (midi_control_change.py 51-52). -/
def BaseCC.lt (a b : BaseCC) : Bool := decide (a.number < b.number)

/-- `MidiBaseControlChange.__ne__` (midi_control_change.py 54-55). -/
def BaseCC.ne (a b : BaseCC) : Bool := decide (a.number ≠ b.number)

/-- `MidiBaseControlChange.__eq__` (midi_control_change.py 61-64). -/
def BaseCC.eq (a b : BaseCC) : Bool := decide (a.number = b.number) && decide (a.description = b.description)

/-- What a control change is as an instance of its base class: the constructor passes only the number up
(midi_control_change.py 202), so the description is always the default one. -/
def CC.base (c : CC) : BaseCC := BaseCC.mk' c.number

/-- An object of either class. -/
inductive CCObj where
  | base (b : BaseCC)
  | change (c : CC)

/-- `x == y`: a control change answers `NotImplemented` for a base object, so whichever side is asked first the
base object answers in the end (midi_control_change.py 61-64, 227-233). -/
def CCObj.eq : CCObj → CCObj → Bool
  | .base a, .base b => a.eq b
  | .change a, .change b => a.eq b
  | .base a, .change b => a.eq b.base
  | .change a, .base b => b.eq a.base

/-- `x != y`, answered by the base object as for `==` (midi_control_change.py 54-55, 245-253). -/
def CCObj.ne : CCObj → CCObj → Bool
  | .base a, .base b => a.ne b
  | .change a, .change b => a.ne b
  | .base a, .change b => a.ne b.base
  | .change a, .base b => b.ne a.base

/-- `x < y` (midi_control_change.py 51-52, 217-225): a control change asks a base object for `cc_time`, which it
does not have. -/
def CCObj.lt : CCObj → CCObj → Py Bool
  | .base a, .base b => .ok (a.lt b)
  | .change a, .change b => .ok (a.lt b)
  | .base a, .change b => .ok (a.lt b.base)
  | .change _, .base _ => .error .attribute

/-- The literal entries of `MIDI_CC_NAME_TO_CC` (midi_control_change.py 71-162); entries without a description
have the default `"Undefined"`. -/
def ccLiteral : List (Int × String) :=
  [(0, "Bank"), (1, "Modulation"), (2, "Breath Controller"), (3, "Undefined"), (4, "Foot Controller"),
   (5, "Portamento Time"), (6, "Data Entry Most Significant Bit(MSB)"), (7, "Volume"), (8, "Balance"),
   (9, "Undefined"), (10, "Pan"), (11, "Expression"), (12, "Effect Controller 1"), (13, "Effect Controller 2"),
   (14, "Undefined"), (15, "Undefined"), (16, "General Purpose:"),
   (17, "Controller 0-31 Least Significant Bit (LSB)"), (18, "Undefined"),
   (64, "Damper Pedal"), (65, "Portamento On/Off Switch"), (66, "Sostenuto On/Off Switch"),
   (67, "Soft Pedal On/Off Switch"), (68, "Legato FootSwitch"), (69, "Hold 2"),
   (70, "Sound Controller 1"), (71, "Sound Controller 2"), (72, "Sound Controller 3"), (73, "Sound Controller 4"),
   (74, "Sound Controller 5"), (75, "Sound Controller 6"), (76, "Sound Controller 7"), (77, "Sound Controller 8"),
   (78, "Sound Controller 9"), (79, "Sound Controller 10"),
   (80, "General Purpose CC 80"), (81, "Sound Purpose CC 81"), (82, "General Purpose 82"),
   (83, "General Purpose 83"), (84, "Portamento CC Control"), (85, "Undefined"), (86, "Undefined"),
   (87, "Undefined"), (91, "Effect 1 Depth"), (92, "Effect 2 Depth"), (93, "Effect 3 Depth"),
   (94, "Effect 4 Depth"), (95, "Effect 5 Depth"), (96, "Data Increment"), (97, "Data Decrement"),
   (98, "NRPN 98"), (99, "NRPN 99"), (100, "RPN 100"), (101, "RPN 101"),
   (120, "All Sound Off"), (121, "Reset All Controllers"), (122, "Local On/Off Switch"), (123, "All Notes Off"),
   (124, "Omni Mode Off"), (125, "Omni Mode On"), (126, "Mono Mode"), (127, "Poly Mode")]

/-- `MIDI_CC_NAME_TO_CC[n]` (midi_control_change.py 71-180): the literal entries, overwritten by the updates at
165-168, 171-172 and 175-178. The last one lacks the `f` before its text, so the text is not filled in. -/
def ccEntry (n : Int) : Py BaseCC :=
  if 120 ≤ n ∧ n < 128 then .ok (BaseCC.mk' n "Channel Mode Messages {cc_num}")
  else if 102 ≤ n ∧ n < 120 then .ok (BaseCC.mk' n)
  else if 31 ≤ n ∧ n < 64 then .ok (BaseCC.mk' n ("Controller " ++ toString n))
  else match ccLiteral.find? (fun e => e.1 == n) with
    | some e => .ok (BaseCC.mk' e.1 e.2)
    | none => .error .key

/-- `MIDI_CC_NAME_TO_CC[n].is_onoff` (midi_control_change.py 71-180): given for nine of the literal entries; the
updates at 165-178 do not touch these. -/
def ccOnOff (n : Int) : Py Bool := do
  let b ← ccEntry n
  .ok ([64, 65, 66, 67, 69, 80, 81, 82, 83].contains b.number)

/-- `MidiPitchBend.__eq__` (midi_pitch_bend.py 84-98) between two bends. -/
def PitchBend.eq (a b : PitchBend) : Bool :=
  a.amount == b.amount && a.program == b.program && a.instrument == b.instrument && a.time == b.time &&
  a.isDrum == b.isDrum

/-- `!=` of two bends: Python's default, the negation of `__eq__` (midi_pitch_bend.py 84-98 defines no other). -/
def PitchBend.ne (a b : PitchBend) : Bool := !(a.eq b)

end NGC
