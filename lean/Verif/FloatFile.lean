import Verif.PrettyMidi
import Verif.FloatOps
import Verif.FloatSave

/-!
Loading and saving a whole file in floats: `from_file` (custom_pretty_midi.py 74-126) and `serialize` (1278-1448) with the float versions of the
tick table, of `time_to_tick` and of the tempo written.
-/

namespace NGC

/-- `from_file` (custom_pretty_midi.py 74-126) in floats, on the tracks with delta ticks. -/
def PM.fromFileF (res : Nat) (tracks : List (List Msg)) (drum : Nat := 9) : Py PM := do
  let tracks := tracks.map toAbs
  match tracks with
  | [] => .error .index
  | t0 :: _ => do
    let scales ← loadTempoF res t0
    let mt ← maxTick tracks
    if 1000000000 < mt then .error .value
    else do
      let times := tickTableF scales mt.toNat
      let tt : Int → ℚ := fun t => times.getD t.toNat 0
      let (ks, ts, ly) := loadMeta tt t0
      let insts ← loadInstruments drum tt tracks
      .ok
        { clock := { res := res, scales := scales, times := times }
          drum := drum, timeSigs := ts, keySigs := ks, lyrics := ly, insts := insts }

/-- The unsorted events of an instrument track (custom_pretty_midi.py 1376-1416), with `toTick` for `time_to_tick`. -/
def instEventsW (toTick : ℚ → Py Int) (ch : Nat) (i : PInst) : Py (List Msg) := do
  let nm : List Msg := if i.name ≠ "" then [⟨0, .trackName i.name⟩] else []
  let notes ← i.notes.mapM (fun n => do
    let a ← toTick n.start
    let b ← toTick n.stop
    pure [(⟨a, .noteOn ch n.pitch n.velocity⟩ : Msg), ⟨b, .noteOn ch n.pitch 0⟩])
  let bends ← i.bends.mapM (fun b => do
    let t ← toTick b.2
    pure (⟨t, .pitchwheel ch b.1⟩ : Msg))
  let ccs ← i.controls.mapM (fun b => do
    let t ← toTick b.2.2
    pure (⟨t, .controlChange ch b.1 b.2.1⟩ : Msg))
  .ok (nm ++ [⟨0, .programChange ch i.program⟩] ++ notes.flatten ++ bends ++ ccs)

/-- The instrument tracks, numbered from `n` (custom_pretty_midi.py 1376-1437), with `toTick` for `time_to_tick`. -/
def instTracksW (srt : List Msg → List Msg) (toTick : ℚ → Py Int) (drum : Nat) : Nat → List PInst → Py (List (List Msg))
  | _, [] => .ok []
  | n, i :: is => do
    let ch ← channelOf drum n i.isDrum
    let evs ← instEventsW toTick ch i
    let t ← addEnd (swapOffs (srt evs))
    let ts ← instTracksW srt toTick drum (n + 1) is
    .ok (t :: ts)

/-- The unsorted events of the timing track (custom_pretty_midi.py 1331-1365), with `toTick` for `time_to_tick` and `tempo` for the tempo written. -/
def timingEventsW (toTick : ℚ → Py Int) (tempo : ℚ → Py Nat) (pm : PM) : Py (List Msg) := do
  let addTs := pm.timeSigs = [] ∨ ∀ t ∈ pm.timeSigs, 0 < t.2.2
  let dflt : List Msg := if addTs then [⟨0, .timeSig 4 4⟩] else []
  let tempos ← pm.clock.scales.mapM (fun p => do
    let t ← tempo p.2
    pure (⟨(p.1 : Int), .setTempo t⟩ : Msg))
  let ts ← pm.timeSigs.mapM (fun t => do
    let k ← toTick t.2.2
    pure (⟨k, .timeSig t.1 t.2.1⟩ : Msg))
  let ks ← pm.keySigs.mapM (fun t => do
    let k ← toTick t.2
    pure (⟨k, .keySig t.1⟩ : Msg))
  let ly ← pm.lyrics.mapM (fun t => do
    let k ← toTick t.2
    pure (⟨k, .lyrics t.1⟩ : Msg))
  .ok (dflt ++ tempos ++ ts ++ ks ++ ly)

/-- `serialize()` (custom_pretty_midi.py 1278-1448), with `toTick` for `time_to_tick` and `tempo` for the tempo written. -/
def PM.serializeW (toTick : ℚ → Py Int) (tempo : ℚ → Py Nat) (srt : List Msg → List Msg) (pm : PM) : Py (List (List Msg)) := do
  let evs ← timingEventsW toTick tempo pm
  let t0 ← addEnd (srt evs)
  let ts ← if 16 ≤ pm.drum then .error .value else instTracksW srt toTick pm.drum 0 pm.insts
  .ok ((t0 :: ts).map toDelta)

/-- `serialize()` (custom_pretty_midi.py 1278-1448) in floats: the tracks with delta ticks. -/
def PM.serializeF (srt : List Msg → List Msg) (pm : PM) : Py (List (List Msg)) :=
  pm.serializeW pm.clock.timeToTickF (writtenTempoF pm.clock.res) srt

end NGC
