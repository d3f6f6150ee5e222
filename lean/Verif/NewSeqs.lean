import Verif.Sequences
import Verif.Instrument
import Verif.Signature

/-!
`_create_new_midi_seq` of `MidiNoteSequences` with its counter, and `average_qpm` of a tempo signature.
-/

namespace NGC

/-- The track table with `_idx` (midi_sequences.py 113-117). -/
structure Counted (V : Type) where
  tracks : Tracks V
  idx : Nat

/-- `_create_new_midi_seq` (midi_sequences.py 679-696). `make` is the new sequence with the given instrument; the printed line is left out. -/
def Counted.create {V : Type} (c : Counted V) (order : List ((Int × Int) × String)) (make : InstrumentInfo → V) (name : String) (program : Int) (isDrum : Bool) : Py (Counted V) := do
  let info ← InstrumentInfo.mk? order program name isDrum
  let seqs ← c.tracks.seqs.setItem intLt c.idx (make info)
  let toIdx ← c.tracks.toIdx.setItem intLt program c.idx
  .ok ⟨⟨seqs, toIdx⟩, c.idx + 1⟩

/-- One call after the other; a call that raises changes nothing. -/
def Counted.creates {V : Type} (order : List ((Int × Int) × String)) (make : InstrumentInfo → V) (c : Counted V) (calls : List (String × Int × Bool)) : Counted V :=
  calls.foldl (fun c q => match c.create order make q.1 q.2.1 q.2.2 with | .ok c' => c' | .error _ => c) c

/-- The second argument of `average_qpm`: a list, which has no hash, or a tuple. -/
inductive TempoArg where
  | list (l : List TempoSig)
  | tuple (l : List TempoSig)

/-- `average_qpm` (midi_time_signature.py 84-98). `functools.cache` hashes the arguments, and a list has no hash; a tempo signature has no attribute `tempo_ticks`. -/
def averageQpm (_t : TempoSig) (_total : ℚ) : TempoArg → Py ℚ
  | .list _ => .error .type
  | .tuple [] => .ok 120
  | .tuple (_ :: _) => .error .attribute

end NGC
