import Verif.PyStr
import Verif.PyDict

/-!
Model of `midi/midi_scales.py`: scales, chords, intervals.

An `Interval` member is its number of semitones: Python's `Enum` makes members with equal values
aliases of one another, and the values 0..22 all occur. Arguments of types not announced by the signatures are left out. 
-/

namespace NGC

/-- `s.upper()`, ASCII letters only. -/
def pyUpper (s : String) : String := String.ofList (s.toList.map Char.toUpper)

/-! ### Tables -/

/-- `ScaleType` (midi_scales.py 37-48). -/
inductive ScaleType where
  | major | minor | dorian | phrygian | lydian | mixolydian | aeolian | locrian | harmonicMinor
  | melodicMinor
  deriving DecidableEq

/-- All members. -/
def ScaleType.all : List ScaleType :=
  [.major, .minor, .dorian, .phrygian, .lydian, .mixolydian, .aeolian, .locrian, .harmonicMinor,
   .melodicMinor]

/-- The value of the member (midi_scales.py 39-48). -/
def ScaleType.value : ScaleType → String
  | .major => "major" | .minor => "minor" | .dorian => "dorian" | .phrygian => "phrygian"
  | .lydian => "lydian" | .mixolydian => "mixolydian" | .aeolian => "aeolian"
  | .locrian => "locrian" | .harmonicMinor => "harmonic_minor" | .melodicMinor => "melodic_minor"

/-- `ScaleType(s)`: lookup by value, ValueError if there is none. -/
def ScaleType.ofValue (s : String) : Py ScaleType :=
  match ScaleType.all.find? (fun t => t.value = s) with
  | some t => .ok t
  | none => .error .value

/-- `MusicTheory.scale_intervals` (midi_scales.py 266-317), members of each frozenset. -/
def scaleIntervals : ScaleType → List Nat
  | .major => [0, 2, 4, 5, 7, 9, 11]
  | .minor => [0, 2, 3, 5, 7, 8, 10]
  | .dorian => [0, 2, 3, 5, 7, 9, 10]
  | .phrygian => [0, 1, 3, 5, 7, 8, 10]
  | .lydian => [0, 2, 4, 6, 7, 9, 11]
  | .mixolydian => [0, 2, 4, 5, 7, 9, 10]
  | .aeolian => [0, 2, 3, 5, 7, 8, 10]
  | .locrian => [0, 1, 3, 5, 6, 8, 10]
  | .harmonicMinor => [0, 2, 3, 5, 7, 8, 11]
  | .melodicMinor => [0, 2, 3, 5, 7, 9, 11]

/-- `MusicTheory.scales` (midi_scales.py 320-331). -/
def scalesTable : ScaleType → List Nat
  | .major => [0, 2, 4, 5, 7, 9, 11]
  | .minor => [0, 2, 3, 5, 7, 8, 10]
  | .dorian => [0, 2, 3, 5, 7, 9, 10]
  | .phrygian => [0, 1, 3, 5, 7, 8, 10]
  | .lydian => [0, 2, 4, 6, 7, 9, 11]
  | .mixolydian => [0, 2, 4, 5, 7, 9, 10]
  | .aeolian => [0, 2, 3, 5, 7, 8, 10]
  | .locrian => [0, 1, 3, 5, 6, 8, 10]
  | .harmonicMinor => [0, 2, 3, 5, 7, 8, 11]
  | .melodicMinor => [0, 2, 3, 5, 7, 9, 11]

/-- `MusicTheory.chords` (midi_scales.py 349-360). -/
def chordTypes : ScaleType → List String
  | .major => ["M", "m", "m", "M", "M", "m", "dim"]
  | .minor => ["m", "dim", "M", "m", "m", "M", "M"]
  | .dorian => ["M", "m", "m", "M", "M", "dim", "m"]
  | .phrygian => ["m", "M", "dim", "m", "m", "M", "M"]
  | .lydian => ["M", "M", "m", "dim", "M", "m", "m"]
  | .mixolydian => ["M", "m", "dim", "m", "M", "m", "M"]
  | .aeolian => ["m", "dim", "M", "m", "m", "M", "M"]
  | .locrian => ["dim", "M", "m", "m", "dim", "M", "m"]
  | .harmonicMinor => ["m", "dim", "aug", "m", "M", "M", "dim"]
  | .melodicMinor => ["m", "m", "aug", "M", "M", "dim", "dim"]

/-- `MusicTheory.chord_name_mapping` (midi_scales.py 363-392), the entries `chords` refers to. -/
def chordNameMapping : List (String × String) :=
  [("M", "maj"), ("m", "min"), ("dim", "dim"), ("aug", "aug")]

/-- `MusicTheory.note_names` (midi_scales.py 244); `pitch_names` (427-440) is the same list as a
dictionary. -/
def noteNames : List String := ["C", "C#", "D", "D#", "E", "F", "F#", "G", "G#", "A", "A#", "B"]

/-- `MusicTheory.intervals[i]` (midi_scales.py 247-263): simple intervals only. -/
def simpleInterval (i : Nat) : Py Nat := if i ≤ 12 then .ok i else .error .key

/-- `MusicTheory.chord_intervals` (midi_scales.py 446-470), in order. -/
def chordIntervals : List (String × List Int) :=
  [("M", [4, 3]), ("m", [3, 4]), ("7", [4, 3, 3]), ("M7", [4, 3, 4]), ("m7", [3, 4, 3]),
   ("m7b5", [3, 3, 4]), ("dim7", [3, 3, 3]), ("aug7", [4, 3, 4]), ("6", [4, 3, 2]),
   ("m6", [3, 4, 2]), ("9", [4, 3, 3, 4]), ("M9", [4, 3, 4, 3]), ("m9", [3, 4, 3, 4]),
   ("11", [4, 3, 3, 4, 3]), ("M11", [4, 3, 4, 3, 3]), ("m11", [3, 4, 3, 4, 3]),
   ("13", [4, 3, 3, 4, 3, 4]), ("M13", [4, 3, 4, 3, 3, 4]), ("m13", [3, 4, 3, 4, 3, 4]),
   ("add9", [4, 3, 7]), ("sus2", [2, 5]), ("sus4", [5, 2]), ("7sus4", [5, 2, 3])]

/-- `MusicTheory.chord_intervals_mapping` (midi_scales.py 477-501). -/
def chordIntervalsMapping : List (String × List Nat) :=
  [("M", [0, 4, 7]), ("m", [0, 3, 7]), ("7", [0, 4, 7, 10]), ("M7", [0, 4, 7, 11]),
   ("m7", [0, 3, 7, 10]), ("m7b5", [0, 3, 6, 10]), ("dim7", [0, 3, 6, 10]),
   ("aug7", [0, 4, 8, 10]), ("6", [0, 4, 7, 9]), ("m6", [0, 3, 7, 9]), ("9", [0, 4, 7, 10, 14]),
   ("M9", [0, 4, 7, 11, 14]), ("m9", [0, 3, 7, 10, 14]), ("11", [0, 4, 7, 10, 14, 17]),
   ("M11", [0, 4, 7, 11, 14, 17]), ("m11", [0, 3, 7, 10, 14, 17]), ("13", [0, 4, 7, 10, 14, 21]),
   ("M13", [0, 4, 7, 11, 14, 21]), ("m13", [0, 3, 7, 10, 14, 21]), ("add9", [0, 4, 7, 14]),
   ("sus2", [0, 2, 7]), ("sus4", [0, 5, 7]), ("7sus4", [0, 5, 7, 10])]

/-- Member names of `Interval` (midi_scales.py 151-197) with their values. -/
def intervalNames : List (String × Nat) :=
  [("P1", 0), ("m2", 1), ("M2", 2), ("m3", 3), ("M3", 4), ("P4", 5), ("Tritone", 6), ("P5", 7),
   ("A5", 8), ("m6", 8), ("M6", 9), ("m7", 10), ("M7", 11), ("P8", 12), ("M9", 14), ("m9", 13),
   ("m10", 15), ("M10", 16), ("d12", 11), ("P11", 17), ("A11", 18), ("M11", 17), ("m11", 15),
   ("m13", 20), ("M13", 21), ("P13", 19), ("A13", 20), ("m14", 21), ("M14", 22), ("A4", 6),
   ("d5", 6), ("d7", 10)]

/-! ### Notes of a scale -/

/-- A root is a number or a name. -/
inductive Root where
  | num (n : Int)
  | name (s : String)

/-- A scale is given as a member or as a text. -/
inductive ScaleArg where
  | member (t : ScaleType)
  | text (s : String)

/-- `list.index(x)`. -/
def listIndex (l : List String) (x : String) : Py Nat :=
  if x ∈ l then .ok (l.idxOf x) else .error .value

/-- `MusicTheory.note_names[(root + semitones) % 12]`. -/
def noteAt (root semitones : Nat) : String := noteNames.getD ((root + semitones) % 12) ""

/-- The member a scale argument stands for. -/
def ScaleArg.resolve : ScaleArg → Py ScaleType
  | .member t => .ok t
  | .text s => ScaleType.ofValue s

/-- `intervals_from_scale` (midi_scales.py 534-575): texts are looked up by member name, KeyError if
there is none. Every member has an entry. -/
def intervalsFromScale : ScaleArg → Py (List Nat)
  | .member t => .ok (scaleIntervals t)
  | .text s =>
    match ScaleType.all.find? (fun t => pyUpper t.value = pyUpper s) with
    | some t => .ok (scaleIntervals t)
    | none => .error .key

/-- The semitones of a list of intervals, through the table of simple intervals. -/
def simpleIntervals : List Nat → Py (List Nat)
  | [] => .ok []
  | i :: is => do
    let a ← simpleInterval i
    let more ← simpleIntervals is
    .ok (a :: more)

/-- `notes_from_scale` (midi_scales.py 686-716). `iter` is the order in which Python iterates over the
frozenset. A number as root passes the range check but is not found among the names. -/
def notesFromScale (iter : List Nat → List Nat) (root : Root) (scale : ScaleArg) : Py (List String) := do
  let t ← scale.resolve
  let idx ← (match root with
    | .name s =>
      if pyUpper s ∈ noteNames then listIndex noteNames s else (.error .value : Py Nat)
    | .num _ => .error .value)
  let ivs ← simpleIntervals (sortByKey (fun i : Nat => (i : ℚ)) (iter (scaleIntervals t)))
  .ok (ivs.map (noteAt idx))

/-- The pitch class a root stands for in the chord functions (midi_scales.py 607-612, 761-764, 801-811). -/
def Root.pitch (bad : Err) : Root → Py Nat
  | .num n => if 0 ≤ n ∧ n ≤ 11 then .ok n.toNat else .error .value
  | .name s => if pyUpper s ∈ noteNames then .ok (noteNames.idxOf (pyUpper s)) else .error bad

/-- Three notes of a scale, two steps apart (midi_scales.py 776, 829). -/
def triadAt (notes : List String) (i : Nat) : List String :=
  [notes.getD i "", notes.getD ((i + 2) % notes.length) "", notes.getD ((i + 4) % notes.length) ""]

/-- `triads_from_scale` (midi_scales.py 746-779): the three names joined. An unknown name is a
KeyError. -/
def triadsFromScale (iter : List Nat → List Nat) (root : Root) (scale : ScaleArg) :
    Py (List String) := do
  let t ← scale.resolve
  let idx ← root.pitch .key
  let ivs ← simpleIntervals (sortByKey (fun i : Nat => (i : ℚ)) (iter (scaleIntervals t)))
  let notes := ivs.map (noteAt idx)
  .ok ((List.range notes.length).map (fun i => String.join (triadAt notes i)))

/-- `triads_from_scale_tuple` (midi_scales.py 782-833). -/
def triadsFromScaleTuple (iter : List Nat → List Nat) (root : Root) (scale : ScaleArg) :
    Py (List (List String × String)) := do
  let t ← scale.resolve
  let idx ← root.pitch .key
  let ivs ← simpleIntervals (sortByKey (fun i : Nat => (i : ℚ)) (iter (scaleIntervals t)))
  let notes := ivs.map (noteAt idx)
  .ok ((List.range notes.length).map (fun i =>
    (triadAt notes i, (dget chordNameMapping ((chordTypes t).getD i "")).getD "")))

/-! ### Chords -/

/-- An element of `interval_chord`: a member or a text. -/
inductive IntervalArg where
  | member (semitones : Nat)
  | text (s : String)

/-- `isinstance(i, str)`. -/
def IntervalArg.isText : IntervalArg → Bool
  | .text _ => true
  | .member _ => false

/-- `isinstance(i, Interval)`. -/
def IntervalArg.isMember : IntervalArg → Bool
  | .text _ => false
  | .member _ => true

/-- `Interval[interval.upper()]` for texts (midi_scales.py 617-618). -/
def IntervalArg.resolve : IntervalArg → Py Nat
  | .member n => .ok n
  | .text s =>
    match dget intervalNames (pyUpper s) with
    | some n => .ok n
    | none => .error .key

/-- The loop of `chord_pitch_from_interval` (midi_scales.py 614-622). -/
def chordPitches (root : Nat) : List IntervalArg → Py (List Nat)
  | [] => .ok []
  | a :: as => do
    let i ← a.resolve
    let s ← simpleInterval i
    let more ← chordPitches root as
    .ok ((root + s) % 12 :: more)

/-- `chord_pitch_from_interval` (midi_scales.py 578-622) for a list. -/
def chordPitchFromInterval (root : Root) (ivs : List IntervalArg) : Py (List Nat) := do
  if !(ivs.all IntervalArg.isText) && !(ivs.all IntervalArg.isMember) then
    (.error .type : Py Unit)
  let r ← root.pitch .value
  chordPitches r ivs

/-- `get_chord_intervals` (midi_scales.py 625-638). -/
def getChordIntervals (name : String) : Py (List Int) :=
  match dget chordIntervals name with
  | some l => .ok l
  | none => .error .key

/-- `get_chord_name` (midi_scales.py 641-661): first match. -/
def getChordName (l : List Int) : Option String :=
  (chordIntervals.find? (fun p => p.2 = l)).map (·.1)

/-- `chord_intervals_reverse` (midi_scales.py 530): later entries overwrite earlier ones. -/
def chordIntervalsReverse : List (List Int × String) :=
  chordIntervals.foldl (fun d p => dset d p.2 p.1) []

/-- `get_chord_name_from_intervals` (midi_scales.py 664-683). -/
def getChordNameFromIntervals (l : List Int) : Option String := dget chordIntervalsReverse l

/-- `chord_from_scale` (midi_scales.py 719-743): the last character is the type, the rest the root.
The list of scale notes is not used. No entry of the table is empty, so the check in 738 never
fires. -/
def chordFromScale (text : List Char) : Py (List String) :=
  match text.getLast? with
  | none => .error .index
  | some c => do
    let r ← listIndex noteNames (String.ofList text.dropLast)
    match dget chordIntervalsMapping (String.ofList [c]) with
    | none => .error .assertion
    | some ivs => do
      let ps ← chordPitchFromInterval (.num r) (ivs.map .member)
      .ok (ps.map (fun p => noteNames.getD p ""))

/-- `chord_from_scale_name_extended` (midi_scales.py 836-862). -/
def chordsExtended (iter : List Nat → List Nat) (root : String) (scale : ScaleArg) :
    Py (List String) := do
  let notes ← notesFromScale iter (.name root) scale
  .ok ((chordIntervals.filter (fun p =>
    (p.2.map (fun i : Int => notes.getD (i % (notes.length : Int)).toNat "")).all (fun n => decide (n ∈ notes)))).map
      (fun p => root ++ p.1))

/-! ### Pitch names -/

/-- `str(n)` of an integer. -/
def intStr (z : Int) : List Char :=
  match z with
  | .ofNat n => decStr n
  | .negSucc n => '-' :: decStr (n + 1)

/-- `pitch_to_note` (midi_scales.py 865-874). -/
def pitchToNote (pitch : Int) : List Char :=
  (noteNames.getD (pitch % 12).toNat "").toList ++ intStr (pitch / 12)

/-! ### Intervals -/

/-- `from_semitones` (midi_scales.py 913-928). -/
def fromSemitones (n : Int) : Py Nat := if 0 ≤ n ∧ n ≤ 22 then .ok n.toNat else .error .value

/-- `compound_interval_from_bases` (midi_scales.py 931-942). -/
def compoundFromBases (a b : Nat) : Py Nat :=
  let s : Int := a + b
  let o := s / 12
  fromSemitones (o * 12 + (s - o * 12))

/-- `compound_interval_to_base` (midi_scales.py 945-954). -/
def compoundToBase (v : Int) : Py (Int × Int) :=
  if v < 0 then .error .value else .ok (v % 12, v / 12)

/-- `base_to_compound_interval` (midi_scales.py 957-968). -/
def baseToCompound (base octave : Int) : Py Int :=
  if base < 0 ∨ base > 11 then .error .value
  else if octave < 0 then .error .value
  else .ok (octave * 12 + base)

/-- `bases` (midi_scales.py 971-986), also `Interval.bases` (199-214). -/
def basesOf (v : Nat) : List Int :=
  let r := v % 12
  if v = 0 ∨ v = 12 then [(v : Int)]
  else if r ∈ [1, 4, 5, 8, 11] then [2, (v : Int) - 2]
  else if r ∈ [2, 3, 6, 7, 9, 10] then [2, 4, (v : Int) - 2 - 4]
  else []

/-- `inverse_compound_interval` (midi_scales.py 989-1021). -/
def inverseCompound (v : Nat) : Int :=
  let b := basesOf v
  let diff := (v : Int) - b.sum
  let inv := b.map (fun x => 12 - x)
  (if diff ≠ 0 then inv ++ [12 - diff] else inv).sum

/-- `list_of_chords` (midi_scales.py 1024-1047): a dictionary with text keys is indexed by a number. -/
def listOfChords (root : Root) (ivs : List IntervalArg) : Py (List String) := do
  let ps ← chordPitchFromInterval root ivs
  match ps with
  | [] => .ok []
  | _ => .error .key

end NGC
