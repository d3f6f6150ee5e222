import Verif.PyDict
import Verif.Order

/-!
Model of `custom_pretty_midi.py`: loading a MIDI file (delta to absolute ticks, tempo map, tick table,
notes and instruments) and serializing it. Seconds are exact rationals. A file is the list of tracks
that `mido` delivers; `mido` itself and its range checks are not modelled, nor is the parent class of
`CustomPrettyMIDI` (its constructor runs first and everything it computes is overwritten).
-/

namespace NGC

/-- The MIDI messages the code distinguishes (`mido` message types). -/
inductive Body where
  | setTempo (tempo : Nat)
  | timeSig (num den : Int)
  | keySig (key : Nat)
  | lyrics (text : String)
  | programChange (ch prog : Nat)
  | pitchwheel (ch : Nat) (pitch : Int)
  | controlChange (ch control value : Nat)
  | noteOff (ch note vel : Nat)
  | noteOn (ch note vel : Nat)
  | endOfTrack
  | trackName (name : String)
  | other (type : String)
  deriving DecidableEq, Repr

/-- A message with its `time` field: delta ticks in a file, absolute ticks in between. -/
structure Msg where
  time : Int
  body : Body
  deriving DecidableEq, Repr

/-! ### Delta and absolute ticks -/

/-- The loop turning deltas into absolute ticks, with the running `tick`
(custom_pretty_midi.py 91-96). -/
def toAbsGo (tick : Int) : List Msg → List Msg
  | [] => []
  | e :: es =>
    let t := e.time + tick
    { e with time := t } :: toAbsGo t es

/-- One track with absolute ticks (custom_pretty_midi.py 91-96). -/
def toAbs (track : List Msg) : List Msg := toAbsGo 0 track

/-- The loop turning absolute ticks into deltas (custom_pretty_midi.py 1440-1446). -/
def toDeltaGo (tick : Int) : List Msg → List Msg
  | [] => []
  | e :: es =>
    let t := e.time - tick
    { e with time := t } :: toDeltaGo (tick + t) es

/-- One serialized track (custom_pretty_midi.py 1440-1446). -/
def toDelta (track : List Msg) : List Msg := toDeltaGo 0 track

/-! ### Tempo map and tick table -/

/-- `60.0 / ((6e7 / tempo) * resolution)` (custom_pretty_midi.py 162-163, 168); the divisions raise
for a zero tempo or resolution. -/
def tickScale (res tempo : Nat) : Py ℚ :=
  if tempo = 0 ∨ res = 0 then .error .zeroDiv
  else .ok (60 / ((60000000 / (tempo : ℚ)) * res))

/-- One event of the loop of `_load_tempo_changes` (custom_pretty_midi.py 158-171). -/
def tempoStep (res : Nat) (scales : List (Nat × ℚ)) (e : Msg) : Py (List (Nat × ℚ)) :=
  match e.body with
  | .setTempo tempo => do
    let s ← tickScale res tempo
    if e.time = 0 then .ok [(0, s)]
    else match scales.getLast? with
      | none => .error .index
      | some (_, last) =>
        if s ≠ last then .ok (scales ++ [(e.time.toNat, s)]) else .ok scales
  | _ => .ok scales

/-- `_load_tempo_changes` on track 0 with absolute ticks (custom_pretty_midi.py 142-171). -/
def loadTempo (res : Nat) (track0 : List Msg) : Py (List (Nat × ℚ)) :=
  if res = 0 then .error .zeroDiv
  else track0.foldlM (tempoStep res) [(0, 60 / (120 * (res : ℚ)))]

/-- `arr[start:start+len] = f(arange(len))` on a numpy array. -/
def sliceSet (arr : List ℚ) (start len : Nat) (f : Nat → ℚ) : List ℚ :=
  arr.mapIdx (fun i v => if start ≤ i ∧ i < start + len then f (i - start) else v)

/-- The loop over pairs of consecutive tempo entries followed by the final interval
(custom_pretty_midi.py 250-265). -/
def fillTable (maxTick : Nat) : List (Nat × ℚ) → ℚ → List ℚ → List ℚ
  | [], _, arr => arr
  | [(s, c)], last, arr => sliceSet arr s (maxTick + 1 - s) (fun i => last + c * i)
  | (s, c) :: (e, c') :: rest, last, arr =>
    let arr := sliceSet arr s (e + 1 - s) (fun i => last + c * i)
    fillTable maxTick ((e, c') :: rest) (arr.getD e 0) arr

/-- `_update_tick_to_time` (custom_pretty_midi.py 236-265); `_tick_scales` is never empty. -/
def tickTable (scales : List (Nat × ℚ)) (maxTick : Nat) : List ℚ :=
  let m := (scales.map (fun p => p.1)).foldl max maxTick
  fillTable m scales 0 (List.replicate (m + 1) 0)

/-- The part of a `CustomPrettyMIDI` object that concerns time (custom_pretty_midi.py 36-72). -/
structure Clock where
  res : Nat
  scales : List (Nat × ℚ)
  times : List ℚ
  deriving DecidableEq

/-- The object built without a file (custom_pretty_midi.py 52-60). -/
def Clock.fresh (res : Nat) (tempo : ℚ) : Py Clock :=
  if tempo * res = 0 then .error .zeroDiv
  else .ok
    { res := res
      scales := [(0, 60 / (tempo * res))]
      times := [0] }

/-- `tick_to_time` for a non-negative tick (custom_pretty_midi.py 999-1021): the time and the object
with its possibly grown table. -/
def Clock.tickToTime (c : Clock) (tick : Nat) : Py (ℚ × Clock) :=
  if 1000000000 ≤ tick then .error .index
  else
    let c := if c.times.length ≤ tick then { c with times := tickTable c.scales tick } else c
    match c.times[tick]? with
    | some t => .ok (t, c)
    | none => .error .index

/-- `np.searchsorted(arr, x, side="left")`. -/
def searchsortedLeft (arr : List ℚ) (x : ℚ) : Nat := bisectLeft (fun a b => decide (a < b)) arr x

/-- `time_to_tick` (custom_pretty_midi.py 1023-1052). -/
def Clock.timeToTick (c : Clock) (time : ℚ) : Py Int :=
  let tick := searchsortedLeft c.times time
  if tick = c.times.length then
    match c.scales.getLast?, c.times.getLast? with
    | some (_, s), some l =>
      if s = 0 then .error .zeroDiv
      else .ok (roundHE (((c.times.length : Nat) : ℚ) - 1 + (time - l) / s))
    | _, _ => .error .index
  else if tick ≠ 0 ∧ |time - c.times.getD (tick - 1) 0| < |time - c.times.getD tick 0| then
    .ok ((tick : Int) - 1)
  else .ok (tick : Int)

/-- `update_scale` followed by `update_tick_time([0])`, as the writer does for every tempo
(midi_reader.py 361-366; custom_pretty_midi.py 136-140). -/
def Clock.pushTempo (c : Clock) (time qpm : ℚ) : Py Clock := do
  if (c.res : ℚ) * qpm = 0 then .error .zeroDiv
  else
    let tick ← c.timeToTick time
    .ok { c with scales := c.scales ++ [(tick.toNat, 60 / (c.res * qpm))], times := [0] }

/-- The loop of `get_tempo_changes` (custom_pretty_midi.py 466-485): pairs of time and tempo. -/
def tempoChangesGo : Clock → List (Nat × ℚ) → Py (List (ℚ × ℚ) × Clock)
  | c, [] => .ok ([], c)
  | c, (tick, s) :: rest => do
    let (t, c) ← c.tickToTime tick
    if s * c.res = 0 then .error .zeroDiv
    else do
      let (ps, c) ← tempoChangesGo c rest
      .ok ((t, 60 / (s * c.res)) :: ps, c)

/-- `get_tempo_changes` (custom_pretty_midi.py 466-485). -/
def Clock.tempoChanges (c : Clock) : Py (List (ℚ × ℚ) × Clock) := tempoChangesGo c c.scales

/-! ### Loading notes -/

/-- A finished note, with the program of its channel when it was finished; ticks are absolute. -/
structure Emit where
  program : Nat
  channel : Nat
  pitch : Nat
  velocity : Nat
  start : Int
  stop : Int
  deriving DecidableEq, Repr

/-- What one event does to the instruments of the file. -/
inductive Act where
  | note (e : Emit)
  | bend (program channel : Nat) (pitch : Int) (tick : Int)
  | control (program channel number value : Nat) (tick : Int)
  | name (s : String)
  deriving DecidableEq, Repr

/-- The per-track variables of `_load_instruments` (custom_pretty_midi.py 404-411): open notes by
`(channel, note)` and the program of each channel. -/
structure TrackSt where
  opens : List ((Nat × Nat) × List (Int × Nat))
  prog : List (Nat × Nat)

/-- `current_instrument[channel]` (custom_pretty_midi.py 411). -/
def TrackSt.program (st : TrackSt) (ch : Nat) : Nat := (dget st.prog ch).getD 0

/-- The first loop of `_finish_notes` (custom_pretty_midi.py 270-284): the notes created. Only the
first open note of a key is used. -/
def finishEmits (st : TrackSt) (tick : Int) (eos : Bool) :
    List ((Nat × Nat) × List (Int × Nat)) → Py (List Act)
  | [] => .ok []
  | (k, v) :: rest =>
    match v with
    | [] => .error .index
    | (s, vel) :: _ => do
      let more ← finishEmits st tick eos rest
      if s < tick || eos then
        .ok (.note ⟨st.program k.1, k.1, k.2, vel, s, tick⟩ :: more)
      else .ok more

/-- Whether `_finish_notes` deletes this entry (custom_pretty_midi.py 274, 283-288). -/
def finishes (tick : Int) (eos : Bool) (p : (Nat × Nat) × List (Int × Nat)) : Bool :=
  match p.2 with
  | [] => false
  | (s, _) :: _ => decide (s < tick) || eos

/-- `_finish_notes` (custom_pretty_midi.py 267-288). -/
def finishNotes (st : TrackSt) (tick : Int) (eos : Bool) : Py (TrackSt × List Act) := do
  let acts ← finishEmits st tick eos st.opens
  .ok ({ st with opens := st.opens.filter (fun p => !finishes tick eos p) }, acts)

/-- `_note_off_event` (custom_pretty_midi.py 290-342). -/
def noteOff (st : TrackSt) (tick : Int) (ch note : Nat) : TrackSt × List Act :=
  match dget st.opens (ch, note) with
  | none => (st, [])
  | some notes =>
    let close := notes.filter (fun p => decide (p.1 ≠ tick))
    let keep := notes.filter (fun p => decide (p.1 = tick))
    let acts := close.map (fun p => Act.note ⟨st.program ch, ch, note, p.2, p.1, tick⟩)
    if keep ≠ [] then ({ st with opens := dset st.opens (ch, note) keep }, acts)
    else ({ st with opens := st.opens.filter (fun p => decide (p.1 ≠ (ch, note))) }, acts)

/-- One event of the loop of `_load_instruments` (custom_pretty_midi.py 413-461). -/
def loadStep (st : TrackSt) (e : Msg) : Py (TrackSt × List Act) :=
  match e.body with
  | .trackName s => .ok (st, [.name s])
  | .programChange ch p => .ok ({ st with prog := dset st.prog ch p }, [])
  | .noteOn ch note vel =>
    if 0 < vel then do
      let (st, acts) ← finishNotes st e.time false
      let old := (dget st.opens (ch, note)).getD []
      .ok ({ st with opens := dset st.opens (ch, note) (old ++ [(e.time, vel)]) }, acts)
    else .ok (noteOff st e.time ch note)
  | .noteOff ch note _ => .ok (noteOff st e.time ch note)
  | .pitchwheel ch pitch => .ok (st, [.bend (st.program ch) ch pitch e.time])
  | .controlChange ch num value => .ok (st, [.control (st.program ch) ch num value e.time])
  | .endOfTrack => finishNotes st e.time true
  | _ => .ok (st, [])

/-- The loop over one track (custom_pretty_midi.py 413-461), collecting what the events do. -/
def loadGo : TrackSt → List Msg → Py (List Act)
  | _, [] => .ok []
  | st, e :: es => do
    let (st, acts) ← loadStep st e
    let more ← loadGo st es
    .ok (acts ++ more)

/-- One track with absolute ticks, from its start state (custom_pretty_midi.py 404-461). -/
def loadTrack (track : List Msg) : Py (List Act) := loadGo ⟨[], []⟩ track

/-! ### Instruments -/

/-- A loaded `Note` (times in seconds). -/
structure PNote where
  velocity : Nat
  pitch : Nat
  start : ℚ
  stop : ℚ
  deriving DecidableEq, Repr

/-- An `Instrument` during loading. Its control changes and pitch bends are lists that may be shared
with other instruments: `ref` is their address. -/
structure LInst where
  program : Nat
  isDrum : Bool
  name : String
  notes : List PNote
  ref : Nat
  deriving DecidableEq

/-- The variables of `_load_instruments` (custom_pretty_midi.py 360-364): instrument map, stragglers
(address of their event lists), track names, and the heap of event lists (bends and controls). -/
structure LoadSt where
  insts : List ((Nat × Nat × Nat) × LInst)
  strag : List ((Nat × Nat) × Nat)
  names : List (Nat × String)
  heap : List (List (Int × ℚ) × List (Nat × Nat × ℚ))
  deriving DecidableEq

/-- `__get_instrument(program, channel, track, 1)` followed by `notes.append(note)`
(custom_pretty_midi.py 366-391, 280-281). -/
def LoadSt.addNote (drum : Nat) (track : Nat) (st : LoadSt) (p ch : Nat) (n : PNote) : LoadSt :=
  match dget st.insts (p, ch, track) with
  | some i => { st with insts := dset st.insts (p, ch, track) { i with notes := i.notes ++ [n] } }
  | none =>
    let name := (dget st.names track).getD ""
    match dget st.strag (ch, track) with
    | some r =>
      { st with insts := dset st.insts (p, ch, track) ⟨p, decide (ch = drum), name, [n], r⟩ }
    | none =>
      { st with
        insts := dset st.insts (p, ch, track) ⟨p, decide (ch = drum), name, [n], st.heap.length⟩
        heap := st.heap ++ [([], [])] }

/-- `__get_instrument(program, channel, track, 0)`: the address of the event lists, and the state
with a straggler when there was none (custom_pretty_midi.py 366-402). -/
def LoadSt.eventRef (track : Nat) (st : LoadSt) (p ch : Nat) : LoadSt × Nat :=
  match dget st.insts (p, ch, track) with
  | some i => (st, i.ref)
  | none =>
    match dget st.strag (ch, track) with
    | some r => (st, r)
    | none =>
      ({ st with
        strag := dset st.strag (ch, track) st.heap.length
        heap := st.heap ++ [([], [])] }, st.heap.length)

/-- One action on the instruments (custom_pretty_midi.py 276-281, 318-330, 433-455). `tt` is the tick
table lookup `self.tick_times[tick]`; loaded files have every tick in the table
(`C56_table_covers_file`). -/
def LoadSt.act (drum track : Nat) (tt : Int → ℚ) (st : LoadSt) : Act → LoadSt
  | .note e => st.addNote drum track e.program e.channel ⟨e.velocity, e.pitch, tt e.start, tt e.stop⟩
  | .bend p ch pitch tick =>
    let (st, r) := st.eventRef track p ch
    { st with heap := st.heap.modify r (fun l => (l.1 ++ [(pitch, tt tick)], l.2)) }
  | .control p ch num value tick =>
    let (st, r) := st.eventRef track p ch
    { st with heap := st.heap.modify r (fun l => (l.1, l.2 ++ [(num, value, tt tick)])) }
  | .name s => { st with names := dset st.names track s }

/-- The loop over the tracks (custom_pretty_midi.py 404-461). -/
def loadTracks (drum : Nat) (tt : Int → ℚ) : Nat → LoadSt → List (List Msg) → Py LoadSt
  | _, st, [] => .ok st
  | k, st, t :: ts => do
    let acts ← loadTrack t
    loadTracks drum tt (k + 1) (acts.foldl (fun st a => st.act drum k tt a) st) ts

/-- An instrument of the finished object. -/
structure PInst where
  program : Nat
  isDrum : Bool
  name : String
  notes : List PNote
  bends : List (Int × ℚ)
  controls : List (Nat × Nat × ℚ)
  deriving DecidableEq

/-- The instrument with its event lists read from the heap. -/
def LInst.freeze (heap : List (List (Int × ℚ) × List (Nat × Nat × ℚ))) (i : LInst) : PInst :=
  ⟨i.program, i.isDrum, i.name, i.notes, (heap.getD i.ref ([], [])).1, (heap.getD i.ref ([], [])).2⟩

/-- `_load_instruments` (custom_pretty_midi.py 344-464). -/
def loadInstruments (drum : Nat) (tt : Int → ℚ) (tracks : List (List Msg)) : Py (List PInst) := do
  let st ← loadTracks drum tt 0 ⟨[], [], [], []⟩ tracks
  .ok (st.insts.map (fun p => p.2.freeze st.heap))

/-- A `CustomPrettyMIDI` object (custom_pretty_midi.py 36-72). Time signatures are
`(numerator, denominator, time)`, key signatures `(key number, time)`, lyrics `(text, time)`. -/
structure PM where
  clock : Clock
  drum : Nat
  timeSigs : List (Int × Int × ℚ)
  keySigs : List (Nat × ℚ)
  lyrics : List (String × ℚ)
  insts : List PInst
  deriving DecidableEq

/-- `max([max([e.time for e in t]) for t in tracks]) + 1` (custom_pretty_midi.py 102-103); `max` of an
empty list raises ValueError. -/
def maxTick (tracks : List (List Msg)) : Py Int :=
  if tracks = [] ∨ [] ∈ tracks then .error .value
  else .ok ((tracks.flatten.map (fun e => e.time)).foldl max 0 + 1)

/-- `_load_metadata` (custom_pretty_midi.py 201-234) for track 0. -/
def loadMeta (tt : Int → ℚ) (track0 : List Msg) :
    List (Nat × ℚ) × List (Int × Int × ℚ) × List (String × ℚ) :=
  (track0.filterMap (fun e => match e.body with | .keySig k => some (k, tt e.time) | _ => none),
   track0.filterMap (fun e => match e.body with | .timeSig n d => some (n, d, tt e.time) | _ => none),
   track0.filterMap (fun e => match e.body with | .lyrics s => some (s, tt e.time) | _ => none))

/-- `from_file` (custom_pretty_midi.py 74-126), on the tracks with delta ticks. -/
def PM.fromFile (res : Nat) (tracks : List (List Msg)) (drum : Nat := 9) : Py PM := do
  let tracks := tracks.map toAbs
  match tracks with
  | [] => .error .index
  | t0 :: _ => do
    let scales ← loadTempo res t0
    let mt ← maxTick tracks
    if 1000000000 < mt then .error .value
    else do
      let times := tickTable scales mt.toNat
      let tt : Int → ℚ := fun t => times.getD t.toNat 0
      let (ks, ts, ly) := loadMeta tt t0
      let insts ← loadInstruments drum tt tracks
      .ok
        { clock := { res := res, scales := scales, times := times }
          drum := drum, timeSigs := ts, keySigs := ks, lyrics := ly, insts := insts }

/-! ### Serializing -/

/-- `secondary_sort` (custom_pretty_midi.py 1299-1310); `none` for types not in the dictionary. -/
def secondary : Body → Option Int
  | .setTempo _ => some (1 * 256 * 256)
  | .timeSig _ _ => some (2 * 256 * 256)
  | .keySig _ => some (3 * 256 * 256)
  | .lyrics _ => some (4 * 256 * 256)
  | .programChange _ _ => some (5 * 256 * 256)
  | .pitchwheel _ p => some (6 * 256 * 256 + p)
  | .controlChange _ c v => some (7 * 256 * 256 + c * 256 + v)
  | .noteOff _ n _ => some (8 * 256 * 256 + n * 256)
  | .noteOn _ n v => some (9 * 256 * 256 + n * 256 + v)
  | .endOfTrack => some (10 * 256 * 256)
  | .trackName _ => none
  | .other _ => none

/-- `event_compare` (custom_pretty_midi.py 1287-1321). -/
def eventCompare (a b : Msg) : Int :=
  if a.time = b.time then
    match secondary a.body, secondary b.body with
    | some x, some y => x - y
    | _, _ => a.time - b.time
  else a.time - b.time

/-- `__lt__` of `functools.cmp_to_key(event_compare)`. -/
def eventLt (a b : Msg) : Bool := decide (eventCompare a b < 0)

/-- The test of the loop that puts note-offs before note-ons (custom_pretty_midi.py 1425-1428). -/
def isSwap (a b : Msg) : Bool :=
  match a.body, b.body with
  | .noteOn _ n v, .noteOn _ n' v' => decide (a.time = b.time ∧ n = n' ∧ v ≠ 0 ∧ v' = 0)
  | _, _ => false

/-- The loop that puts note-offs before note-ons (custom_pretty_midi.py 1422-1431). The pairs come
from copies of the list made before the loop; `i` is the loop index. -/
def swapGo : Nat → List (Msg × Msg) → List Msg → List Msg
  | _, [], track => track
  | i, (a, b) :: rest, track =>
    swapGo (i + 1) rest (if isSwap a b then (track.set i b).set (i + 1) a else track)

/-- The whole loop (custom_pretty_midi.py 1422-1431). -/
def swapOffs (track : List Msg) : List Msg := swapGo 0 (track.zip track.tail) track

/-- Appending the end-of-track message (custom_pretty_midi.py 1368-1369, 1434). -/
def addEnd (track : List Msg) : Py (List Msg) :=
  match track.getLast? with
  | none => .error .index
  | some e => .ok (track ++ [⟨e.time + 1, .endOfTrack⟩])

/-- The tempo written for a tick scale (custom_pretty_midi.py 1347-1350):
`int(6e7 / (60. / (scale * resolution)))`. -/
def writtenTempo (res : Nat) (scale : ℚ) : Py Nat :=
  if scale * res = 0 then .error .zeroDiv
  else .ok (pyInt (60000000 / (60 / (scale * res)))).toNat

/-- The channel of instrument number `n` (custom_pretty_midi.py 1373-1385); `channels.remove` raises
for a drum channel outside 0..15. -/
def channelOf (drum n : Nat) (isDrum : Bool) : Py Nat :=
  if 16 ≤ drum then .error .value
  else if isDrum then .ok drum
  else match ((List.range 16).filter (fun c => decide (c ≠ drum)))[n % 15]? with
    | some c => .ok c
    | none => .error .index

/-- The unsorted events of an instrument track (custom_pretty_midi.py 1376-1416). -/
def instEvents (c : Clock) (ch : Nat) (i : PInst) : Py (List Msg) := do
  let nm : List Msg := if i.name ≠ "" then [⟨0, .trackName i.name⟩] else []
  let notes ← i.notes.mapM (fun n => do
    let a ← c.timeToTick n.start
    let b ← c.timeToTick n.stop
    pure [(⟨a, .noteOn ch n.pitch n.velocity⟩ : Msg), ⟨b, .noteOn ch n.pitch 0⟩])
  let bends ← i.bends.mapM (fun b => do
    let t ← c.timeToTick b.2
    pure (⟨t, .pitchwheel ch b.1⟩ : Msg))
  let ccs ← i.controls.mapM (fun b => do
    let t ← c.timeToTick b.2.2
    pure (⟨t, .controlChange ch b.1 b.2.1⟩ : Msg))
  .ok (nm ++ [⟨0, .programChange ch i.program⟩] ++ notes.flatten ++ bends ++ ccs)

/-- One instrument track with absolute ticks (custom_pretty_midi.py 1376-1436); `srt` is
`sorted(track, key=cmp_to_key(event_compare))`. -/
def instTrack (srt : List Msg → List Msg) (c : Clock) (drum n : Nat) (i : PInst) : Py (List Msg) := do
  let ch ← channelOf drum n i.isDrum
  let evs ← instEvents c ch i
  addEnd (swapOffs (srt evs))

/-- The unsorted events of the timing track (custom_pretty_midi.py 1331-1365). -/
def timingEvents (pm : PM) : Py (List Msg) := do
  let addTs := pm.timeSigs = [] ∨ ∀ t ∈ pm.timeSigs, 0 < t.2.2
  let dflt : List Msg := if addTs then [⟨0, .timeSig 4 4⟩] else []
  let tempos ← pm.clock.scales.mapM (fun p => do
    let t ← writtenTempo pm.clock.res p.2
    pure (⟨(p.1 : Int), .setTempo t⟩ : Msg))
  let ts ← pm.timeSigs.mapM (fun t => do
    let k ← pm.clock.timeToTick t.2.2
    pure (⟨k, .timeSig t.1 t.2.1⟩ : Msg))
  let ks ← pm.keySigs.mapM (fun t => do
    let k ← pm.clock.timeToTick t.2
    pure (⟨k, .keySig t.1⟩ : Msg))
  let ly ← pm.lyrics.mapM (fun t => do
    let k ← pm.clock.timeToTick t.2
    pure (⟨k, .lyrics t.1⟩ : Msg))
  .ok (dflt ++ tempos ++ ts ++ ks ++ ly)

/-- The instrument tracks, numbered from `n` (custom_pretty_midi.py 1376-1437). -/
def instTracks (srt : List Msg → List Msg) (c : Clock) (drum : Nat) : Nat → List PInst → Py (List (List Msg))
  | _, [] => .ok []
  | n, i :: is => do
    let t ← instTrack srt c drum n i
    let ts ← instTracks srt c drum (n + 1) is
    .ok (t :: ts)

/-- `serialize()` (custom_pretty_midi.py 1278-1448): the tracks with delta ticks. -/
def PM.serialize (srt : List Msg → List Msg) (pm : PM) : Py (List (List Msg)) := do
  let evs ← timingEvents pm
  let t0 ← addEnd (srt evs)
  let ts ← if 16 ≤ pm.drum then .error .value else instTracks srt pm.clock pm.drum 0 pm.insts
  .ok ((t0 :: ts).map toDelta)

end NGC
