import Verif.PrettyMidi

/-!
Model of the analysis and time-warping methods of `custom_pretty_midi.py`: `get_onsets`,
`estimate_tempi`, `estimate_tempo`, `get_end_time`, and the parts of `adjust_times` that move notes and events.

Arrays are lists. `pretty_midi`'s `Instrument.get_end_time`, `get_onsets` and `remove_invalid_notes` are modelled as
documented by the library.
-/

namespace NGC

/-! ### Interpolation -/

/-- `np.interp(x, xp, fp)` for increasing `xp`, given as pairs `(xp[i], fp[i])`: constant outside, linear
between neighbours. (numpy raises on empty arrays.) -/
def interp : List (ℚ × ℚ) → ℚ → ℚ
  | [], _ => 0
  | [p], _ => p.2
  | p :: q :: rest, x =>
    if x ≤ p.1 then p.2
    else if x < q.1 then p.2 + (x - p.1) * (q.2 - p.2) / (q.1 - p.1)
    else interp (q :: rest) x

/-- First element of every run of equal keys. -/
def dedupKeys : List (ℚ × ℚ) → List (ℚ × ℚ)
  | [] => []
  | p :: rest => p :: dedupKeys (rest.dropWhile (fun q => decide (q.1 = p.1)))
termination_by l => l.length
decreasing_by
  have := List.dropWhile_sublist (fun q : ℚ × ℚ => decide (q.1 = p.1)) (l := rest)
  have := this.length_le
  simp only [List.length_cons]
  omega

/-- `np.maximum.accumulate` on the second components, after the value `m`. -/
def runMax : ℚ → List (ℚ × ℚ) → List (ℚ × ℚ)
  | _, [] => []
  | m, p :: rest => (p.1, max m p.2) :: runMax (max m p.2) rest

/-- The time map of `adjust_times` (custom_pretty_midi.py 1071-1085): `np.unique` of the original times with the
index of the first occurrence, new times made monotone. (Python accumulates only if needed; on a
monotone list it changes nothing.) The two arrays have the same length here. -/
def timeMap (l : List (ℚ × ℚ)) : List (ℚ × ℚ) :=
  match dedupKeys (sortByKey Prod.fst l) with
  | [] => []
  | p :: rest => p :: runMax p.2 rest

/-! ### Moving notes and events -/

/-- A time that is not positive becomes 0 (custom_pretty_midi.py 1104-1105). -/
def clip0 (q : ℚ) : ℚ := if 0 < q then q else 0

/-- What `adjust_times` does to the notes of an instrument (custom_pretty_midi.py 1086-1108): notes inside the
original range are kept and moved, notes that become empty are removed. -/
def adjNotes (m : List (ℚ × ℚ)) (notes : List PNote) : List PNote :=
  match m.head?, m.getLast? with
  | some a, some b =>
    ((notes.filter (fun n => decide (n.start ≥ a.1 ∧ n.stop ≤ b.1))).map
      (fun n => { n with start := clip0 (interp m n.start), stop := clip0 (interp m n.stop) })).filter
        (fun n => decide (n.start < n.stop))
  | _, _ => notes

/-- `adjust_events` / `adjust_meta` (custom_pretty_midi.py 1112-1162) on one list: `time` and `setTime` access the time of an event. -/
def adjEvents {E : Type} (time : E → ℚ) (setTime : E → ℚ → E) (m : List (ℚ × ℚ)) (evs : List E) : List E :=
  let moved := (sortByKey time evs).map (fun e => setTime e (interp m (time e)))
  match m.head?, m.getLast? with
  | some a, some b =>
    ((moved.filter (fun e => decide (time e = a.2))).getLast?).toList ++
      moved.filter (fun e => decide (a.2 < time e ∧ time e < b.2))
  | _, _ => moved

/-- Notes, bends and control changes of an instrument after `adjust_times`. -/
def adjInst (m : List (ℚ × ℚ)) (i : PInst) : PInst :=
  { i with
    notes := adjNotes m i.notes
    bends := adjEvents (fun e => e.2) (fun e t => (e.1, t)) m i.bends
    controls := adjEvents (fun e => e.2.2) (fun e t => (e.1, e.2.1, t)) m i.controls }

/-! ### Onsets and tempo estimation -/

/-- `get_onsets` (custom_pretty_midi.py 800-814). -/
def onsets (insts : List PInst) : List ℚ := sortByKey id (insts.flatMap (fun i => i.notes.map PNote.start))

/-- `np.diff`. -/
def ioi : List ℚ → List ℚ
  | a :: b :: rest => (b - a) :: ioi (b :: rest)
  | _ => []

/-- The loop `while x < .2: x *= 2` (custom_pretty_midi.py 530-532), run at most `fuel` times. -/
def doubleUp : Nat → ℚ → ℚ
  | 0, x => x
  | n + 1, x => if x < 1/5 then doubleUp n (x * 2) else x

/-- The intervals that count (custom_pretty_midi.py 521-532). After the filter two doublings are enough
(`C122_doubling_ends`). -/
def intervals (ons : List ℚ) : List ℚ :=
  (((ioi ons).filter (fun x => decide (x > 1/20))).filter (fun x => decide (x < 2))).map (doubleUp 2)

/-- `np.argmin` of a non-empty list: the first position of the least element. -/
def argmin : List ℚ → Nat
  | [] => 0
  | [_] => 0
  | x :: y :: rest =>
    let k := argmin (y :: rest)
    if x ≤ (y :: rest).getD k 0 then 0 else k + 1

/-- One round of the clustering loop (custom_pretty_midi.py 537-552): clusters with mean and count. The test is about
the absolute distance, but the cluster updated is the one with the least *signed* difference. -/
def clusterStep (cs : List (ℚ × ℚ)) (x : ℚ) : List (ℚ × ℚ) :=
  if cs.any (fun c => decide (|c.1 - x| < 1/40)) then
    cs.modify (argmin (cs.map (fun c => c.1 - x))) (fun c => ((c.2 * c.1 + x) / (c.2 + 1), c.2 + 1))
  else cs ++ [(x, 1)]

/-- All clusters. -/
def clusters (xs : List ℚ) : List (ℚ × ℚ) := xs.foldl clusterStep []

/-- `estimate_tempi` (custom_pretty_midi.py 507-553): tempi with probabilities, by falling count. `srt` is
`np.argsort(counts)[::-1]`, whose order on equal counts is not specified. -/
def estimateTempi (srt : List (ℚ × ℚ) → List (ℚ × ℚ)) (insts : List PInst) : List (ℚ × ℚ) :=
  let cs := srt (clusters (intervals (onsets insts)))
  let total := (cs.map (fun c => c.2)).sum
  cs.map (fun c => (60 / c.1, c.2 / total))

/-- `estimate_tempo` (custom_pretty_midi.py 555-567). -/
def estimateTempo (srt : List (ℚ × ℚ) → List (ℚ × ℚ)) (insts : List PInst) : Py ℚ :=
  match estimateTempi srt insts with
  | [] => .error .value
  | p :: _ => .ok p.1

/-! ### End time -/

/-- `Instrument.get_end_time()` of `pretty_midi`: the last time in notes, bends and control changes, 0 if there is
nothing. -/
def PInst.endTime (i : PInst) : ℚ :=
  maxDefault 0 (i.notes.map PNote.stop ++ i.bends.map (fun e => e.2) ++ i.controls.map (fun e => e.2.2))

/-- `get_end_time` (custom_pretty_midi.py 487-505). `_tick_scales` is never empty, so there is always a tempo time. -/
def PM.endTime (pm : PM) : Py ℚ := do
  let (tempos, _) ← pm.clock.tempoChanges
  .ok (maxDefault 0 (pm.insts.map PInst.endTime ++ pm.timeSigs.map (fun e => e.2.2) ++
    pm.keySigs.map (fun e => e.2) ++ pm.lyrics.map (fun e => e.2) ++ tempos.map (fun e => e.1)))

end NGC
