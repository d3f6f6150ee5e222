import Verif.Beats
import Verif.Times

/-!
Model of the rest of `adjust_times` (custom_pretty_midi.py 1054-1269): time signatures, the new tempo map, and the whole
method. Notes and events are in `Times.lean`.

`get_downbeats` asks for the tempo changes first (custom_pretty_midi.py 580), which extends the tick table; the clock with the
extended table is the one the new tempo map is made from.
-/

namespace NGC

/-! ### The new tempo map -/

/-- `tick_times[time_to_tick(time)]` (custom_pretty_midi.py 1204). -/
def Clock.gridTime (c : Clock) (t : ℚ) : Py ℚ := do
  let j ← c.timeToTick t
  match c.times[j.toNat]? with
  | some x => .ok x
  | none => .error .index

/-- `original_times` moved to the tick grid (custom_pretty_midi.py 1203-1205): the table is rebuilt up to the tick of
the last time, then every time is replaced by the table entry of its tick. -/
def gridTimes (c : Clock) (orig : List ℚ) : Py (List ℚ × Clock) :=
  match orig.getLast? with
  | none => .error .index
  | some last => do
    let k ← c.timeToTick last
    let c := { c with times := tickTable c.scales k.toNat }
    let ts ← orig.mapM c.gridTime
    .ok (ts, c)

/-- The points after the first that differ from their predecessor in both components
(custom_pretty_midi.py 1211-1213). -/
def nonRepeatsGo : ℚ × ℚ → List (ℚ × ℚ) → List (ℚ × ℚ)
  | _, [] => []
  | p, q :: rest => if p.2 ≠ q.2 ∧ p.1 ≠ q.1 then q :: nonRepeatsGo q rest else nonRepeatsGo q rest

/-- `non_repeats` (custom_pretty_midi.py 1211-1215). -/
def nonRepeats : List (ℚ × ℚ) → List (ℚ × ℚ)
  | [] => []
  | p :: rest => p :: nonRepeatsGo p rest

/-- The inner `while` (custom_pretty_midi.py 1233-1237): the scaled tempi inside a zone, the tempo in force at its end, and
the tempo changes that are left. -/
def zoneTempi (speed start stop : ℚ) : ℚ → List (ℚ × ℚ) → List (ℚ × ℚ) × ℚ × List (ℚ × ℚ)
  | q, [] => ([], q, [])
  | q, c :: rest =>
    if start ≤ c.1 ∧ c.1 < stop then
      let r := zoneTempi speed start stop c.2 rest
      ((c.1, c.2 * speed) :: r.1, r.2)
    else ([], q, c :: rest)

/-- The `for` over the zones (custom_pretty_midi.py 1216-1237); `q` is the tempo at `tempo_idx`, `rest` the later tempo
changes. -/
def zonesGo : List (ℚ × ℚ) → ℚ → List (ℚ × ℚ) → List (ℚ × ℚ)
  | a :: b :: more, q, rest =>
    let speed := (b.1 - a.1) / (b.2 - a.2)
    let z := zoneTempi speed a.1 b.1 q rest
    (a.1, q * speed) :: (z.1 ++ zonesGo (b :: more) z.2.1 z.2.2)
  | _, _, _ => []

/-- The first `while` (custom_pretty_midi.py 1219-1223): the tempo in force at time `x` and the changes after it. -/
def skipTempi (x : ℚ) : ℚ → List (ℚ × ℚ) → ℚ × List (ℚ × ℚ)
  | q, [] => (q, [])
  | q, c :: rest => if x ≥ c.1 then skipTempi x c.2 rest else (q, c :: rest)

/-- The loop that turns tempo changes into ticks and tick scales (custom_pretty_midi.py 1254-1267); `tick`, `s` and `prev` are
`last_tick`, `last_tick_scale` and `previous_time`. -/
def scalesGo (res : Nat) : ℚ → ℚ → ℚ → List (ℚ × ℚ) → List (Nat × ℚ)
  | _, _, _, [] => []
  | tick, s, prev, (t, q) :: rest =>
    let tick' := tick + (t - prev) / s
    let s' := 60 / (q * res)
    if s' ≠ s then ((roundHE tick').toNat, s') :: scalesGo res tick' s' t rest
    else scalesGo res tick s prev rest

/-- The new tempo map (custom_pretty_midi.py 1197-1269). `m` is the time map, `pts` its points on the tick grid without repeats;
the new times of the tempo changes are interpolated. -/
def adjTempo (c : Clock) (m : List (ℚ × ℚ)) : Py Clock := do
  let (orig, c) ← gridTimes c (m.map Prod.fst)
  let (tempi, c) ← c.tempoChanges
  let pts := nonRepeats (orig.zip (m.map Prod.snd))
  match pts, tempi with
  | p :: _ :: _, (_, q0) :: later =>
    let (q, rest) := skipTempi p.1 q0 later
    let moved := (zonesGo pts q rest).map (fun e => (interp pts e.1, e.2))
    match moved with
    | [] => .error .index
    | (t, q) :: more =>
      let s0 := if t = 0 then 60 / (q * c.res) else 60 / (120 * (c.res : ℚ))
      let scales := (0, s0) :: scalesGo c.res 0 s0 0 (if t = 0 then more else moved)
      match scales.getLast? with
      | some (k, _) => .ok { c with scales := scales, times := tickTable scales (k + 1) }
      | none => .error .index
  | _, _ => .error .index

/-! ### Time signatures -/

/-- Time signatures after the move (custom_pretty_midi.py 1175-1195); `downs` are the moved downbeats. -/
def adjTimeSigs (downs : List ℚ) (sigs : List (Int × Int × ℚ)) : List (Int × Int × ℚ) :=
  match downs with
  | [] => sigs
  | d :: _ =>
    match (sigs.zipIdx.filter (fun e => decide (e.1.2.2 ≤ d))).getLast? with
    | some e => (sigs.set e.2 (e.1.1, e.1.2.1, d)).filter (fun t => decide (t.2.2 ≥ d))
    | none => (4, 4, d) :: sigs

/-! ### The whole method -/

/-- `adjust_times` (custom_pretty_midi.py 1054-1269). `fuel` bounds the loop of `get_beats`; `none` means that it was not enough. -/
def PM.adjustTimes (fuel : Nat) (pm : PM) (l : List (ℚ × ℚ)) : Py (Option PM) := do
  match ← pm.downbeats fuel 0 with
  | none => .ok none
  | some downs =>
    let m := timeMap l
    match m.head? with
    | none => .error .index
    | some a =>
      let downs := (downs.filter (fun d => decide (d ≥ a.1))).map (interp m)
      let sigs := adjEvents (fun e => e.2.2) (fun e t => (e.1, e.2.1, t)) m pm.timeSigs
      let (_, c) ← pm.clock.tempoChanges
      let c ← adjTempo c m
      .ok (some { pm with
        clock := c
        insts := pm.insts.map (adjInst m)
        keySigs := adjEvents (fun e => e.2) (fun e t => (e.1, t)) m pm.keySigs
        lyrics := adjEvents (fun e => e.2) (fun e t => (e.1, t)) m pm.lyrics
        timeSigs := adjTimeSigs downs sigs })

end NGC
