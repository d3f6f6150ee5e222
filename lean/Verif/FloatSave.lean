import Verif.FloatOps

/-!
Saving the tempo map, in floats: what `write` puts into the file for the tempi of the object, and what one round of loading and saving does
to the tempo events of a file.
-/

namespace NGC

/-- The tempo written for a tick scale (custom_pretty_midi.py 1347-1350): `int(6e7 / (60. / (tick_scale * self.resolution)))`, each operation
rounded. -/
def writtenTempoF (res : Nat) (scale : ℚ) : Py Nat :=
  if b64 (scale * res) = 0 then .error .zeroDiv
  else .ok (pyInt (b64 (60000000 / b64 (60 / b64 (scale * res))))).toNat

/-- The loop that adds the tempo messages to the timing track (custom_pretty_midi.py 1345-1350). -/
def tempoMsgsF (res : Nat) (scales : List (Nat × ℚ)) : Py (List Msg) :=
  scales.mapM (fun p => do
    let t ← writtenTempoF res p.2
    pure (⟨(p.1 : Int), .setTempo t⟩ : Msg))

/-- Load a file and save it again: from the tempo events of the file to those of the saved file (custom_pretty_midi.py 142-171, 1345-1350).
The other messages are left out; no message of another kind touches the tempo map. -/
def resaveF (res : Nat) (track : List Msg) : Py (List Msg) := do
  let s ← loadTempoF res track
  tempoMsgsF res s

/-- Load and save `n` times in a row, every time the file just saved. -/
def resavesF (res : Nat) : Nat → List Msg → Py (List Msg)
  | 0, track => .ok track
  | n + 1, track => do
    let t ← resaveF res track
    resavesF res n t

/-- The tempo `get_tempo_changes` reports for a tick scale (custom_pretty_midi.py 484): `60.0 / (tick_scale * self.resolution)`. -/
def tempoOfScaleF (res : Nat) (scale : ℚ) : Py ℚ :=
  if b64 (scale * res) = 0 then .error .zeroDiv else .ok (b64 (60 / b64 (scale * res)))

end NGC
