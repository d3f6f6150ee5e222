import Verif.Seq
import Verif.PrettyMidi

/-!
Model of saving a sequence as a MIDI file: `MidiNoteSequence.to_midi_file` (midi_sequence.py 788-801)
and `save_midi_callback` (callbacks.py 12-54).

The object made by the callback is a `pretty_midi.PrettyMIDI` of the library and is written by the
`write` of the library. The class `CustomPrettyMIDI` of this project is a copy of it, and its writing
code (custom_pretty_midi.py 1278-1448) stands for the library's here.
-/

namespace NGC

/-- The object `save_midi_callback` builds (callbacks.py 30-53): an empty instrument with program 0, then the
given instrument with the notes. The clock is that of `PrettyMIDI(initial_tempo=120., resolution=220)`.
The instrument of a sequence is never `None`, so line 33 is left out. -/
def saveObject (info : InstrumentInfo) (notes : List Note) : Py PM :=
  if notes = [] then .error .value
  else do
    let c ← Clock.fresh 220 120
    .ok { clock := c, drum := 9, timeSigs := [], keySigs := [], lyrics := []
          insts := [⟨0, false, "", [], [], []⟩,
            ⟨info.num.toNat, info.isDrum, info.name,
              notes.map (fun n => ⟨n.velocity.toNat, n.pitch.toNat, n.start, n.stop⟩), [], []⟩] }

/-- `save_midi_callback` (callbacks.py 12-54); `srt` is the sort of the writer. The total time is not used. -/
def saveMidi (srt : List Msg → List Msg) (info : InstrumentInfo) (notes : List Note) (_total : ℚ) : Py (List (List Msg)) := do
  let pm ← saveObject info notes
  pm.serialize srt

/-- `MidiNoteSequence.to_midi_file` (midi_sequence.py 788-801); `none` is a callback that is `None`. The notes are those of
the property `notes`; they and the instrument are never `None`. -/
def MSeq.toMidiFile {α : Type} (callback : Option (InstrumentInfo → List Note → ℚ → Py α)) (s : MSeq) : Py α :=
  match callback with
  | none => .error .value
  | some f => f s.instr (sortByKey Note.start s.notes) s.total

end NGC
