import Verif.Note
import Verif.PyStr

/-!
Names of notes: `MidiNote.from_name` (midi_note.py 684-710), the attribute `pitch_name` (midi_note.py 133) and the assignment of a pitch (midi_note.py 585-588).

The two functions of the library `librosa` they call, `note_to_midi` and `midi_to_note` with default arguments, are modelled from their documented behaviour: a name is a letter from A to G of
either case, any number of accidentals, an optional octave with optional sign, and optionally, with a sign, hundredths of a semitone; the regular expression ends in `$`, so one newline may follow.
Simplified: only the ten ASCII digits; hundredths are exact numbers. Texts are lists of characters.
-/

namespace NGC

/-- The semitones of a letter above C (`pitch_map` of `librosa.note_to_midi`, called at midi_note.py 701). -/
def letterPc (c : Char) : Option Int :=
  if c = 'C' ∨ c = 'c' then some 0 else if c = 'D' ∨ c = 'd' then some 2 else if c = 'E' ∨ c = 'e' then some 4 else if c = 'F' ∨ c = 'f' then some 5
  else if c = 'G' ∨ c = 'g' then some 7 else if c = 'A' ∨ c = 'a' then some 9 else if c = 'B' ∨ c = 'b' then some 11 else none

/-- The semitones of an accidental (`acc_map` of `librosa.note_to_midi`, called at midi_note.py 701). -/
def accVal (c : Char) : Option Int :=
  if c = '#' ∨ c = '♯' then some 1 else if c = 'b' ∨ c = '!' ∨ c = '♭' then some (-1) else if c = '𝄪' then some 2 else if c = '𝄫' then some (-2)
  else if c = '♮' then some 0 else none

/-- `\d`. -/
def isDig (c : Char) : Bool := (digitVal c).isSome

/-- The text before the digits is cut off: the sign, if there is one. -/
def cutSign : List Char → Option Int × List Char
  | '+' :: r => (some 1, r)
  | '-' :: r => (some (-1), r)
  | r => (none, r)

/-- `[+-]?\d+`, or `[+-]\d+` if the sign is a must, at the begin of a text, and the rest. -/
def numTok (must : Bool) (s : List Char) : Option (Int × List Char) :=
  let ds := (cutSign s).2.takeWhile isDig
  if ds = [] ∨ must = true ∧ (cutSign s).1 = none then none
  else some ((cutSign s).1.getD 1 * ((decVal ds).getD 0 : Nat), (cutSign s).2.dropWhile isDig)

/-- An optional number. -/
def optTok (must : Bool) (s : List Char) : Option Int × List Char :=
  match numTok must s with
  | some (z, r) => (some z, r)
  | none => (none, s)

/-- The sum of the accidentals. -/
def accSum (accs : List Char) : Int := (accs.map (fun c => (accVal c).getD 0)).sum

/-- `librosa.note_to_midi(name)` (called at midi_note.py 701); `none` is its `ParameterError`. -/
def noteToMidi (s : List Char) : Option Int :=
  match s with
  | [] => none
  | c :: r =>
    match letterPc c with
    | none => none
    | some pc =>
      let accs := r.takeWhile (fun c => (accVal c).isSome)
      let o := optTok false (r.dropWhile (fun c => (accVal c).isSome))
      let ce := optTok true o.2
      if ce.2 = [] ∨ ce.2 = ['\n'] then
        some (roundHE (((12 * (o.1.getD 0 + 1) + pc + accSum accs : Int) : ℚ) + ((ce.1.getD 0 : Int) : ℚ) / 100))
      else none

/-- The names of the twelve semitones in C major with sharps (`librosa.midi_to_note`, called at midi_note.py 133). -/
def sharpNames : List (List Char) :=
  [['C'], ['C', '♯'], ['D'], ['D', '♯'], ['E'], ['F'], ['F', '♯'], ['G'], ['G', '♯'], ['A'], ['A', '♯'], ['B']]

/-- `str(z)` of an integer. -/
def intText (z : Int) : List Char := if z < 0 then '-' :: decStr z.natAbs else decStr z.natAbs

/-- `librosa.midi_to_note(p)` (called at midi_note.py 133). -/
def midiToNote (p : Nat) : List Char := sharpNames.getD (p % 12) [] ++ intText (((p / 12 : Nat) : Int) - 1)

/-- A note with its attribute `pitch_name`, set at construction only (midi_note.py 133). -/
structure NamedNote where
  note : Note
  name : List Char
  deriving DecidableEq

/-- `MidiNote.__init__` with the name (midi_note.py 76-173). -/
def NamedNote.mk? (a : NoteArgs) : Py NamedNote := do
  let n ← Note.mk? a
  .ok ⟨n, midiToNote n.pitch.toNat⟩

/-- The exceptions of `from_name`: of librosa, or of the constructor. -/
inductive NameErr where
  | parameter
  | py (e : Err)
  deriving DecidableEq

/-- `MidiNote.from_name` (midi_note.py 684-710). -/
def NamedNote.fromName (name : List Char) (start stop : ℚ) (velocity : Int := 127) (program : Int := 0) (instrument : Int := 0) (isDrum : Bool := false) :
    Except NameErr NamedNote :=
  match noteToMidi name with
  | none => .error .parameter
  | some p =>
    match NamedNote.mk? { pitch := p, start := start, stop := stop, velocity := velocity, program := program, instrument := instrument, isDrum := isDrum } with
    | .error e => .error (.py e)
    | .ok n => .ok n

/-- `note.pitch = v` (midi_note.py 585-588): the name is not touched. -/
def NamedNote.setPitch (n : NamedNote) (v : Int) : Py NamedNote := do
  let m ← n.note.setPitch v
  .ok ⟨m, n.name⟩

/-- `make_copy` (midi_note.py 555-579): through the constructor, so the name is made anew. -/
def NamedNote.makeCopy (n : NamedNote) : Py NamedNote := do
  let m ← n.note.makeCopy
  .ok ⟨m, midiToNote m.pitch.toNat⟩

end NGC
