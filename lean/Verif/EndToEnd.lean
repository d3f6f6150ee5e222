import Verif.Pipeline
import Verif.Reader
import Verif.SongLoop

/-!
From the bytes of raw MIDI files (as messages, see `PrettyMidi`) to the graphs of a dataset: the reader of `Reader`
in front of the loops of `Pipeline`.

Left out: `num_instruments` of each song, which the loop stores and nothing reads (midi_dataset.py 466-467).
-/

namespace NGC

/-- The tracks the builder sees: `for s in midi_seqs: midi_seqs[s]` (midi_graph_builder.py 518-522, midi_sequences.py
190-228, 263-265), see `Tracks.loop`. -/
def Song.loopTracks (s : Song) : Py (List MSeq) := do
  let r ← s.tracks.loop s.defaultTrack (fun l v => .ok (l ++ [v])) []
  .ok r.1

/-- What one raw file gives the loops of the dataset (midi_dataset.py 465, 619): `MidiReader.read` of the file with
this resolution and these tracks, and the tracks of the song. -/
def rawTracks (f : Nat × List (List Msg)) : Py (List MSeq) := do
  let s ← readFile f.1 f.2
  s.loopTracks

/-- `process` from the raw files (midi_dataset.py 540-608). -/
def processRaw (env : PyEnv) (o : DataOpts) (keep : PygData → Bool) (rnd rnd2 : Nat → Nat → List Nat)
    (files : List (Nat × List (List Msg))) : Py (SavedSet × SavedSet) :=
  processFiles env o keep rnd rnd2 (files.map rawTracks)

end NGC
