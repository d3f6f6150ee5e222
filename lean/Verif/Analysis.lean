import Verif.Py
import Mathlib.Algebra.BigOperators.Fin
import Mathlib.Algebra.Order.BigOperators.Group.Finset
import Mathlib.Algebra.BigOperators.Group.Finset.Basic

/-!
Model of the summaries of `custom_pretty_midi.py`: piano roll, chroma, pitch class histogram and pitch class transitions. Per-instrument rolls come from the library and are
arguments; the per-instrument histogram and transitions are those of `pretty_midi.Instrument`. The option `normalize` of the transitions is left out (its result is the
library's).
-/

namespace NGC

/-- A matrix with 128 rows: its number of columns and its entries. -/
structure PianoRoll where
  cols : Nat
  at_ : Nat → Nat → ℚ

/-- `get_piano_roll` (custom_pretty_midi.py 815-851) from the rolls of the instruments. -/
def pianoRoll : List PianoRoll → PianoRoll
  | [] => ⟨0, fun _ _ => 0⟩
  | r :: rs => ⟨(rs.map (·.cols)).foldl max r.cols, fun p t => ((r :: rs).map (fun q => if t < q.cols then q.at_ p t else 0)).sum⟩

/-- The rows `piano_roll[note::12]` of 128. -/
def octaveRows (note : Nat) : List Nat := (List.range 128).filter (fun p => decide (note ≤ p ∧ (p - note) % 12 = 0))

/-- `get_chroma` (custom_pretty_midi.py 909-937): 12 rows. -/
def chroma (rolls : List PianoRoll) (note t : Nat) : ℚ := ((octaveRows note).map (fun p => (pianoRoll rolls).at_ p t)).sum

/-- The parts of a note of `pretty_midi` that are used. -/
structure PcNote where
  pitch : Int
  start : ℚ
  stop : ℚ
  velocity : ℚ

/-- An instrument of `pretty_midi`. -/
structure PcIns where
  isDrum : Bool
  notes : List PcNote

/-- The pitch class of a note: Python `pitch % 12`. -/
def PcNote.cls (n : PcNote) : Int := n.pitch % 12

/-- The weight of a note (pretty_midi `Instrument.get_pitch_class_histogram`). -/
def PcNote.weight (useDur useVel : Bool) (n : PcNote) : ℚ :=
  (if useDur then n.stop - n.start else 1) * (if useVel then n.velocity else 1)

/-- pretty_midi `Instrument.get_pitch_class_histogram(use_duration, use_velocity)`. -/
def PcIns.histogram (useDur useVel : Bool) (i : PcIns) (k : Fin 12) : ℚ :=
  if i.isDrum then 0
  else ((i.notes.filter (fun n => decide (n.cls = (k : Int)))).map (PcNote.weight useDur useVel)).sum

/-- `get_pitch_class_histogram` (custom_pretty_midi.py 853-879). -/
def pcHistogram (useDur useVel normalize : Bool) (ins : List PcIns) (k : Fin 12) : ℚ :=
  let h : Fin 12 → ℚ := fun k => (ins.map (fun i => i.histogram useDur useVel k)).sum
  if normalize then h k / ((∑ j, h j) + (if ∑ j, h j = 0 then 1 else 0)) else h k

/-- The pairs of notes of which the second starts where the first ends (pretty_midi `Instrument.get_pitch_class_transition_matrix`). -/
def PcIns.pairs (thresh : ℚ) (i : PcIns) : List (PcNote × PcNote) :=
  if i.isDrum then []
  else if i.notes.length ≤ 1 then []
  else (i.notes.product i.notes).filter (fun p => decide (|p.1.stop - p.2.start| < thresh))

/-- `get_pitch_class_transition_matrix(False, time_thresh)` (custom_pretty_midi.py 881-907). -/
def pcTransitions (thresh : ℚ) (ins : List PcIns) (a b : Fin 12) : Nat :=
  (ins.map (fun i => ((i.pairs thresh).filter (fun p => decide (p.1.cls = (a : Int)) && decide (p.2.cls = (b : Int)))).length)).sum

end NGC
