import Verif.Beats

/-!
Model of `estimate_beat_start` (custom_pretty_midi.py 679-739).

The window arithmetic takes the rounding of floats as a parameter: `id` for exact arithmetic, `b64` for floats; the times of notes and beats are exact.
-/

namespace NGC

/-- The loop that chooses the start times to try (custom_pretty_midi.py 700-715): `prev` is the start of the note before, `cnt` the number of candidates so far.
The test `len(beat_candidates) <= len(note_list)` is left out: it is always true. -/
def candGo (candidates : Int) : Option ℚ → Nat → List PNote → List ℚ
  | _, _, [] => []
  | prev, cnt, n :: ns =>
    if (cnt : Int) ≤ candidates then
      if prev.all (fun p => decide (1/1000 < |p - n.start|)) then n.start :: candGo candidates (some n.start) (cnt + 1) ns
      else candGo candidates (some n.start) cnt ns
    else []

/-- `get_beats` for each start time (custom_pretty_midi.py 712-713); `none` if one of them is not done after `fuel` rounds. -/
def beatsAll (fuel : Nat) (pm : PM) : List ℚ → Py (Option (List (List ℚ)))
  | [] => .ok (some [])
  | s :: ss => do
    let b ← pm.beats fuel s
    let r ← beatsAll fuel pm ss
    .ok (match b, r with
      | some b, some r => some (b :: r)
      | _, _ => none)

/-- `onset_signal[i] += v` (custom_pretty_midi.py 720-721); a negative index counts from the end. -/
def addSpike (a : List ℚ) (i : Int) (v : ℚ) : Py (List ℚ) :=
  let j := if i < 0 then i + a.length else i
  if 0 ≤ j ∧ j < a.length then .ok (a.set j.toNat (a.getD j.toNat 0 + v)) else .error .index

/-- The part of the signal that a beat sets to one (custom_pretty_midi.py 726-734): from, to. `np.ones` of a negative length and the assignment of an array to a slice
of another length raise ValueError; an array of length 1 fits every slice. -/
def windowAt (rnd : ℚ → ℚ) (len : Nat) (tol beat : ℚ) : Py (Nat × Nat) :=
  let d := rnd (beat - tol)
  if d < 0 then
    let w := pyInt (rnd (rnd (2000 * tol) + rnd (d * 1000)))
    let e := pyInt (rnd (rnd (beat + tol) * 1000))
    let stop : Nat := if e < 0 then (len + e).toNat else min e.toNat len
    if w < 0 then .error .value
    else if w = stop ∨ w = 1 then .ok (0, stop) else .error .value
  else
    let s := (pyInt (rnd (d * 1000))).toNat
    let w := pyInt (rnd (rnd (1000 * tol) * 2))
    if w < 0 then .error .value
    else
      let from_ := min s len
      let stop := min (s + w.toNat) len
      if w = ((stop - from_ : Nat) : Int) ∨ w = 1 then .ok (from_, stop) else .error .value

/-- The beat signal (custom_pretty_midi.py 722-734): ones around time 0 and around every beat. -/
def beatSignal (rnd : ℚ → ℚ) (len : Nat) (tol : ℚ) (beats : List ℚ) : Py (List ℚ) :=
  (0 :: beats).foldlM (fun a b => do
    let w ← windowAt rnd len tol b
    .ok (sliceSet a w.1 (w.2 - w.1) (fun _ => 1))) (List.replicate len 0)

/-- A score: a number, or what numpy gives for a division by zero. -/
inductive NpScore where
  | num (q : ℚ)
  | inf
  | nan
  deriving DecidableEq, Repr

/-- `np.dot(beat_signal, onset_signal) / beats.shape[0]` (custom_pretty_midi.py 736). -/
def beatScore (sig ons : List ℚ) (nBeats : Nat) : NpScore :=
  let d := (List.zipWith (· * ·) sig ons).sum
  if nBeats = 0 then (if d = 0 then .nan else .inf) else .num (d / nBeats)

/-- Whether `np.argmax` prefers `b`, later in the array, to `a`: `nan` counts as largest. -/
def NpScore.below : NpScore → NpScore → Bool
  | .nan, _ => false
  | _, .nan => true
  | .inf, _ => false
  | .num _, .inf => true
  | .num a, .num b => decide (a < b)

/-- `np.argmax`: the first of the largest; `none` for an empty array (ValueError). -/
def argmaxGo : Nat → NpScore → Nat → List NpScore → Nat
  | best, _, _, [] => best
  | best, s, i, x :: xs => if s.below x then argmaxGo i x (i + 1) xs else argmaxGo best s (i + 1) xs

def argmaxNp : List NpScore → Option Nat
  | [] => none
  | x :: xs => some (argmaxGo 0 x 1 xs)

/-- `estimate_beat_start(candidates, tolerance)` (custom_pretty_midi.py 679-739). -/
def PM.estimateBeatStart (rnd : ℚ → ℚ) (fuel : Nat) (pm : PM) (candidates : Int) (tol : ℚ) : Py (Option ℚ) :=
  let notes := sortByKey PNote.start (pm.insts.flatMap (fun i => i.notes))
  if notes = [] then .error .value
  else do
    let starts := candGo candidates none 0 notes
    match ← beatsAll fuel pm starts with
    | none => .ok none
    | some cands => do
      let stop ← pm.endTime
      let len := pyInt (1000 * (stop + 1))
      if len < 0 then .error .value
      else do
        let ons ← notes.foldlM (fun a n => addSpike a (pyInt (n.start * 1000)) n.velocity) (List.replicate len.toNat 0)
        let scores ← cands.mapM (fun bs => do
          let sig ← beatSignal rnd len.toNat tol bs
          pure (beatScore sig ons bs.length))
        match argmaxNp scores with
        | none => .error .value
        | some i => match starts[i]? with
          | some s => .ok (some s)
          | none => .error .index

end NGC
