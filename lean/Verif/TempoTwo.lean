import Verif.PrettyMidi

/-!
The second reader of tempo events: `CustomPrettyMIDI._load_tempo_changes2` (custom_pretty_midi.py 173-199).
-/

namespace NGC

/-- The comprehension over the events of type `set_tempo` (custom_pretty_midi.py 183-184). -/
def tempoScales (res : Nat) : List Msg → Py (List (Nat × ℚ))
  | [] => .ok []
  | e :: es =>
    match e.body with
    | .setTempo tempo => do
      let s ← tickScale res tempo
      let r ← tempoScales res es
      .ok ((e.time.toNat, s) :: r)
    | _ => tempoScales res es

/-- `midi_data.tracks[0][0].tempo` (custom_pretty_midi.py 187): other events have no such attribute. -/
def firstTempo : List Msg → Py Nat
  | [] => .error .index
  | e :: _ =>
    match e.body with
    | .setTempo tempo => .ok tempo
    | _ => .error .attribute

/-- `_load_tempo_changes2` on track 0 with absolute ticks (custom_pretty_midi.py 173-199). -/
def loadTempo2 (res : Nat) (track0 : List Msg) : Py (List (Nat × ℚ)) :=
  if res = 0 then .error .zeroDiv
  else do
    let all ← tempoScales res track0
    let start : ℚ := 60 / (120 * (res : ℚ))
    match all with
    | (0, _) :: rest => do
      let tempo ← firstTempo track0
      let s ← tickScale res tempo
      .ok ((0, s) :: rest.filter (fun p => decide (p.2 ≠ s)))
    | all => .ok ((0, start) :: all.filter (fun p => decide (p.2 ≠ start)))

end NGC
