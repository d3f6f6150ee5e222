import Verif.Times

/-!
Model of `get_beats`, `get_downbeats` and the tempo part of `adjust_times` (custom_pretty_midi.py 569-677, 741-798,
1170-1269).

`qpm_to_bpm` of `pretty_midi.utilities` is modelled as documented by the library.
-/

namespace NGC

/-- `np.isclose(a, b)` with default tolerances. -/
def npClose (a b : ℚ) : Bool := decide (|a - b| ≤ 1/100000000 + 1/100000 * |b|)

/-- `gt_or_close` (custom_pretty_midi.py 619-621). -/
def gtOrClose (a b : ℚ) : Bool := decide (b < a) || npClose a b

/-- `qpm_to_bpm` (pretty_midi.utilities): the beat is the denominator note, or three of them in compound metres. -/
def beatBpm (q : ℚ) (num den : Int) : Py ℚ :=
  if ¬ 0 < q ∨ ¬ 0 < num ∨ ¬ 0 < den then .error .value
  else if den ∈ [1, 2, 4, 8, 16, 32] then
    if num = 3 then .ok (q * den / 4)
    else if num % 3 = 0 then .ok (q / 3 * den / 4)
    else .ok (q * den / 4)
  else .ok q

/-- `get_current_bpm` (custom_pretty_midi.py 606-617). -/
def bpmOf (q : ℚ) (ts : Option (Int × Int × ℚ)) : Py ℚ :=
  match ts with
  | some x => beatBpm q x.1 x.2.1
  | none => .ok q

/-- The variables of the loop of `get_beats`: the last beat, the current tempo and the tempo changes after it
(`tempi[tempo_idx]`, `tempi[tempo_idx+1:]`), the current time signature and those after it, and `ts_idx == 0`. -/
structure BeatSt where
  beat : ℚ
  qpm : ℚ
  rest : List (ℚ × ℚ)
  ts : Option (Int × Int × ℚ)
  tsRest : List (Int × Int × ℚ)
  first : Bool

/-- The inner loop (custom_pretty_midi.py 639-655): a beat, of which `rem` is left at time `nb`, across tempo changes. Result:
time, what is left of the beat, current tempo, later tempo changes. -/
def cross (ts : Option (Int × Int × ℚ)) : ℚ → ℚ → ℚ → ℚ → List (ℚ × ℚ) → Py (ℚ × ℚ × ℚ × ℚ × List (ℚ × ℚ))
  | nb, rem, bpm, q, [] => .ok (nb, rem, bpm, q, [])
  | nb, rem, bpm, q, (c, q') :: rest =>
    if nb + rem * 60 / bpm ≥ c then do
      let ratio := (c - nb) / (60 / bpm)
      let bpm' ← bpmOf q' ts
      cross ts (nb + ratio * 60 / bpm) (rem - ratio) bpm' q' rest
    else .ok (nb, rem, bpm, q, (c, q') :: rest)

/-- The next beat by the tempo alone (custom_pretty_midi.py 629-657): time, current tempo, later tempo changes. -/
def tempoBeat (s : BeatSt) : Py (ℚ × ℚ × List (ℚ × ℚ)) := do
  let bpm ← bpmOf s.qpm s.ts
  let nb := s.beat + 60 / bpm
  match s.rest with
  | [] => .ok (nb, s.qpm, [])
  | (c, q') :: rest =>
    if nb > c then do
      let (nb, rem, bpm, q, rest) ← cross s.ts s.beat 1 bpm s.qpm ((c, q') :: rest)
      .ok (nb + rem * 60 / bpm, q, rest)
    else .ok (nb, s.qpm, (c, q') :: rest)

/-- The correction for the first time signature (custom_pretty_midi.py 659-664). -/
def snapFirst (s : BeatSt) (nb : ℚ) : ℚ :=
  match s.ts with
  | some x => if s.first ∧ s.beat < x.2.2 ∧ gtOrClose nb x.2.2 = true then x.2.2 else nb
  | none => nb

/-- One round of the loop (custom_pretty_midi.py 626-675). -/
def beatStep (s : BeatSt) : Py BeatSt := do
  let (nb, q, rest) ← tempoBeat s
  let nb := snapFirst s nb
  match s.tsRest with
  | [] => .ok { s with beat := nb, qpm := q, rest := rest }
  | x :: xs =>
    if gtOrClose nb x.2.2 then do
      let _ ← bpmOf q (some x)
      .ok { beat := x.2.2, qpm := q, rest := rest, ts := some x, tsRest := xs, first := false }
    else .ok { s with beat := nb, qpm := q, rest := rest }

/-- The loop `while beats[-1] < end_time` and `beats[:-1]` (custom_pretty_midi.py 623-678), at most `fuel` rounds; `none` if
it is not done by then. -/
def beatsGo (stop : ℚ) : Nat → BeatSt → Py (Option (List ℚ))
  | 0, s => if s.beat < stop then .ok none else .ok (some [])
  | fuel + 1, s =>
    if s.beat < stop then do
      let s' ← beatStep s
      let r ← beatsGo stop fuel s'
      .ok (r.map (fun l => s.beat :: l))
    else .ok (some [])

/-- The state before the loop (custom_pretty_midi.py 587-604). -/
def beatInit (tempi : List (ℚ × ℚ)) (ts : List (Int × Int × ℚ)) (start : ℚ) : Py BeatSt :=
  match tempi with
  | [] => .error .index
  | t :: rest =>
    let passed := rest.takeWhile (fun c => decide (c.1 < start))
    let later := rest.dropWhile (fun c => decide (c.1 < start))
    let q := ((t :: passed).getLast?.getD t).2
    match ts with
    | [] => .ok { beat := start, qpm := q, rest := later, ts := none, tsRest := [], first := true }
    | x :: xs =>
      let tp := xs.takeWhile (fun y => decide (y.2.2 ≤ start))
      let tl := xs.dropWhile (fun y => decide (y.2.2 ≤ start))
      .ok { beat := start, qpm := q, rest := later, ts := (x :: tp).getLast?, tsRest := tl, first := tp.isEmpty }

/-- `get_beats(start_time)` (custom_pretty_midi.py 569-678). The time signatures are sorted in place. -/
def PM.beats (fuel : Nat) (pm : PM) (start : ℚ) : Py (Option (List ℚ)) := do
  let (tempi, _) ← pm.clock.tempoChanges
  let s ← beatInit tempi (sortByKey (fun x => x.2.2) pm.timeSigs) start
  let stop ← pm.endTime
  beatsGo stop fuel s

/-! ### Downbeats -/

/-- `index` (custom_pretty_midi.py 762-769). -/
def closeIdx (beats : List ℚ) (v : ℚ) (dflt : Nat) : Nat :=
  match beats.findIdx? (fun b => npClose b v) with
  | some i => i
  | none => dflt

/-- Every `n`-th element from the first. -/
def everyNth (n : Nat) (l : List ℚ) : List ℚ :=
  (l.zipIdx.filter (fun p => decide (p.2 % n = 0))).map Prod.fst

/-- `beats[a:b:step]`: a step of 0 raises ValueError. -/
def strided (beats : List ℚ) (a : Nat) (b : Option Nat) (step : Int) : Py (List ℚ) :=
  if step ≤ 0 then .error .value
  else
    let l := match b with
      | some b => (beats.take b).drop a
      | none => beats.drop a
    .ok (everyNth step.toNat l)

/-- The number of beats of a bar (custom_pretty_midi.py 781-786, 790-793). -/
def barBeats (num : Int) : Int := if num % 3 = 0 ∧ num ≠ 3 then num / 3 else num

/-- The spans between time signatures (custom_pretty_midi.py 771-794); the last number is `end_beat_idx`. -/
def downGo (beats : List ℚ) : List (Int × Int × ℚ) → Nat → Py (List ℚ)
  | [], _ => .ok []
  | [x], e => strided beats (closeIdx beats x.2.2 e) none (barBeats x.1)
  | x :: y :: rest, _ => do
    let a := closeIdx beats x.2.2 0
    let b := closeIdx beats y.2.2 a
    let l ← strided beats a (some b) (barBeats x.1)
    let r ← downGo beats (y :: rest) b
    .ok (l ++ r)

/-- `get_downbeats(start_time)` (custom_pretty_midi.py 741-798) for given beats and sorted time signatures. -/
def downbeats (beats : List ℚ) (ts : List (Int × Int × ℚ)) (start : ℚ) : Py (List ℚ) := do
  let ts := match ts with
    | [] => [(4, 4, start)]
    | x :: xs => if start < x.2.2 then (4, 4, start) :: x :: xs else x :: xs
  let l ← downGo beats ts 0
  .ok (l.filter (fun d => decide (start ≤ d)))

/-- `get_downbeats` on the object. -/
def PM.downbeats (fuel : Nat) (pm : PM) (start : ℚ) : Py (Option (List ℚ)) := do
  match ← pm.beats fuel start with
  | none => .ok none
  | some bs => do
    let l ← NGC.downbeats bs (sortByKey (fun x => x.2.2) pm.timeSigs) start
    .ok (some l)

end NGC
