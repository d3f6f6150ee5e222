import Verif.Float64
import Verif.Seq

/-!
Shifting and stretching (midi_note.py, midi_sequence.py) computed with floats: every `+` and `*` is followed by rounding to binary64.
-/

namespace NGC

/-- `MidiNote.shift_time` in floats (midi_note.py 820-826). -/
def Note.shiftF (n : Note) (d : ℚ) : Note := { n with start := b64 (n.start + d), stop := b64 (n.stop + d) }

/-- `MidiNote.stretch` in floats (midi_note.py 828-834). -/
def Note.stretchF (n : Note) (k : ℚ) : Note := { n with start := b64 (n.start * k), stop := b64 (n.stop * k) }

/-- `MidiNoteSequence.shift_times` in floats (midi_sequence.py 500-509). -/
def MSeq.shiftTimesF (s : MSeq) (d : ℚ) : Py MSeq :=
  if s.isQuantized then .error .value
  else .ok ((s.setVisible (s.notes.map (·.shiftF d))).setTotal (b64 (s.total + d)))

/-- `MidiNoteSequence.stretch` in floats (midi_sequence.py 416-422). -/
def MSeq.stretchF (s : MSeq) (k : ℚ) : MSeq := (s.setVisible (s.notes.map (·.stretchF k))).adjustTotal

/-- `MidiNoteSequence.truncate_to_last_event` with a number, in floats (midi_sequence.py 654-664). -/
def MSeq.lastEventF (s : MSeq) (offset : ℚ) : ℚ := b64 (maxEnd s.notes + offset)

end NGC
