import Verif.Order
import Verif.Note
import Verif.Instrument
import Verif.Events
import Verif.Signature

/-!
Model of `midi_sequence.py` (`MidiNoteSequence`).

Notes are values, not references: two sequences never share a note object in this file (sharing
is treated in `Heap.lean`). Every method returns the new state; when Python raises, the model
returns the exception. Left out: logging, `debug`, `program`, `ticks_per_quarter`,
`steps_per_quarter`, `_steps_per_second` (never updated by any method), file output.
The instrument is never `None` (the constructor replaces it).
-/

namespace NGC

/-- State of a `MidiNoteSequence` (midi_sequence.py 108-141). -/
structure MSeq where
  notes_ : List Note
  drums_ : List Note
  instr : InstrumentInfo
  total : ℚ
  ccs : List CC
  bends : List PitchBend
  resolution : Int
  totalSteps : ℚ
  deriving DecidableEq

/-- The argument `instrument` of the constructor. -/
inductive InstrArg where
  | none | num (i : Int) | info (i : InstrumentInfo)

/-- Resolution of the instrument argument (midi_sequence.py 92-97, 109-112). The names given are
non-empty, so the family table is not consulted. -/
def InstrArg.resolve : InstrArg → Py InstrumentInfo
  | .none => .ok { num := 0, name := "Generic", isDrum := false }
  | .num i => InstrumentInfo.mk? gmTable i "Instrument" false
  | .info i => .ok i

/-- `max([n.end_time ...], default=0.0)`. -/
def maxEnd (l : List Note) : ℚ := maxDefault 0 (l.map Note.stop)

/-- `MidiNoteSequence.__init__` (midi_sequence.py 50-141): the `drum_events` argument is ignored. -/
def MSeq.mk' (notes : List Note) (instr : InstrumentInfo) (resolution : Int := 220) : MSeq :=
  { notes_ := if instr.isDrum then [] else notes
    drums_ := if instr.isDrum then notes else []
    instr := instr
    total := maxEnd notes
    ccs := []
    bends := []
    resolution := resolution
    totalSteps := 0 }

/-- The constructor with its instrument argument. -/
def MSeq.new (notes : List Note) (i : InstrArg) (resolution : Int := 220) : Py MSeq :=
  match i.resolve with
  | .error e => .error e
  | .ok info => .ok (MSeq.mk' notes info resolution)

/-- `MidiNoteSequence()`. -/
def MSeq.empty : MSeq := MSeq.mk' [] { num := 0, name := "Generic", isDrum := false }

/-- `notes` getter (midi_sequence.py 276-282). -/
def MSeq.notes (s : MSeq) : List Note := if s.instr.isDrum then s.drums_ else s.notes_

/-- `drum_events` getter (midi_sequence.py 271-274). -/
def MSeq.drumEvents (s : MSeq) : List Note := if s.instr.isDrum then s.drums_ else []

/-- In-place change of the list returned by `notes`. -/
def MSeq.setVisible (s : MSeq) (l : List Note) : MSeq :=
  if s.instr.isDrum then { s with drums_ := l } else { s with notes_ := l }

/-- `total_time` setter (midi_sequence.py 258-269). -/
def MSeq.setTotal (s : MSeq) (v : ℚ) : MSeq := { s with total := max 0 v }

/-- `notes` setter (midi_sequence.py 284-296). -/
def MSeq.setNotes (s : MSeq) (l : List Note) : MSeq := (s.setVisible l).setTotal (maxEnd l)

/-- `append`/`extend` with one note (midi_sequence.py 322-324, 337-339). -/
def MSeq.append (s : MSeq) (n : Note) : MSeq :=
  (s.setVisible (s.notes ++ [n])).setTotal (max s.total n.stop)

/-- `append`/`extend` with a list (midi_sequence.py 325-328, 340-343): `max` of an empty list is a
ValueError. -/
def MSeq.extend (s : MSeq) (l : List Note) : Py MSeq :=
  if l = [] then .error .value
  else .ok ((s.setVisible (s.notes ++ l)).setTotal (max s.total (maxEnd l)))

/-- `as_note_seq` (midi_sequence.py 347-355): sorts in place, returns the pitches. -/
def MSeq.asNoteSeq (s : MSeq) : MSeq × List Int :=
  let l := sortByKey Note.start s.notes
  (s.setVisible l, l.map Note.pitch)

/-- `add_note` (midi_sequence.py 357-375): routes by the drum flag of the note. -/
def MSeq.addNote (s : MSeq) (n : Note) : Py MSeq :=
  if n.instrument ≠ s.instr.num then .error .value
  else
    let s1 := if n.isDrum then { s with drums_ := s.drums_ ++ [n] }
              else { s with notes_ := s.notes_ ++ [n] }
    .ok (s1.setTotal (max s.total n.stop))

/-- `min(xs, default=0.0)`. -/
def minDefault0 : List ℚ → ℚ
  | [] => 0
  | x :: xs => xs.foldl min x

/-- The generator of `calculate_min_step` (midi_sequence.py 391-393): start distances of
consecutive notes that do not touch. -/
def stepGaps : List Note → List ℚ
  | a :: b :: rest => if a.stop < b.start then (b.start - a.start) :: stepGaps (b :: rest)
                      else stepGaps (b :: rest)
  | _ => []

/-- `calculate_min_step` (midi_sequence.py 382-394). -/
def MSeq.minStep (s : MSeq) : ℚ :=
  if s.notes.length < 2 then 0 else minDefault0 (stepGaps (sortByKey Note.start s.notes))

/-- `is_quantized` (midi_sequence.py 410-414). -/
def MSeq.isQuantized (s : MSeq) : Bool := s.notes.all Note.isQuantized

/-- `_adjust_total_time` (midi_sequence.py 699-704). -/
def MSeq.adjustTotal (s : MSeq) : MSeq := s.setTotal (maxEnd s.notes)

/-- `stretch` (midi_sequence.py 416-422). -/
def MSeq.stretch (s : MSeq) (k : ℚ) : MSeq := (s.setVisible (s.notes.map (·.stretch k))).adjustTotal

/-- `truncate` (midi_sequence.py 424-433): returns a new sequence with default resolution. -/
def MSeq.truncate (s : MSeq) (t : ℚ) : MSeq :=
  (MSeq.mk' (s.notes.filter (fun n => decide (n.stop ≤ t))) s.instr).setTotal (min s.total t)

/-- One round of the inner `while` of `compute_intervals` (midi_sequence.py 457-465): consumes
notes starting before the split point. Returns the rest of the notes, the span list and the
boundaries appended. -/
def consumeNotes (p : ℚ) (skip : Bool) : List Note → List Note → List Note × List Note × List ℚ
  | [], span => ([], span, [])
  | n :: rest, span =>
    if n.start < p then
      let span' := if n.stop > p then span ++ [n] else span
      let r := consumeNotes p skip rest span'
      (r.1, r.2.1, if !(skip && !span'.isEmpty) then p :: r.2.2 else r.2.2)
    else (n :: rest, span, [])

/-- The outer loop of `compute_intervals` (midi_sequence.py 451-465). -/
def intervalsGo (skip : Bool) : List ℚ → List Note → List Note → List ℚ
  | [], _, _ => []
  | p :: ps, notes, span =>
    let span := span.dropWhile (fun n => decide (n.stop ≤ p))
    let r := consumeNotes p skip notes span
    r.2.2 ++ intervalsGo skip ps r.1 r.2.1

/-- `compute_intervals` (midi_sequence.py 435-467). -/
def computeIntervals (notes : List Note) (splits : List ℚ) (skip : Bool) : List ℚ :=
  0 :: intervalsGo skip splits notes []

/-- `split` with a list of split points (midi_sequence.py 469-498). `extract_notes` does not exist
on the class: AttributeError. -/
def MSeq.split (s : MSeq) (splits : List ℚ) (skip : Bool) : Py (List MSeq) :=
  let iv := computeIntervals (sortByKey Note.start s.notes) (sortByKey id splits) skip
  let iv := if s.total > iv.getLastD 0 then iv ++ [s.total] else iv
  if iv.length ≤ 1 then .ok [] else .error .attribute

/-- `shift_times` (midi_sequence.py 500-509). -/
def MSeq.shiftTimes (s : MSeq) (d : ℚ) : Py MSeq :=
  if s.isQuantized then .error .value
  else .ok ((s.setVisible (s.notes.map (·.shift d))).setTotal (s.total + d))

/-- The window of a start time in a list of split times (midi_sequence.py 538-539), with the index
of its left end counted from `i`. -/
def findWindow (t : ℚ) : List ℚ → Nat → Option (Nat × ℚ × ℚ)
  | a :: b :: rest, i => if a ≤ t ∧ t < b then some (i, a, b) else findWindow t (b :: rest) (i + 1)
  | _, _ => none

/-- Lines 543-549 of `extract`: placing one note in its sub-sequence (notes, total time). -/
def extractPlace (sub : List Note × ℚ) (n : Note) (a b : ℚ) : Py (List Note × ℚ) := do
  let m ← n.setStart (n.start - a)
  let m ← m.setStop (min n.stop b - a)
  let m ← m.setStop (min m.stop (sub.2 + m.start))
  .ok (sub.1 ++ [m], max 0 (m.stop + m.start))

/-- The loop of `extract` (midi_sequence.py 535-549). -/
def extractGo (splits : List ℚ) : List Note → List (List Note × ℚ) → Py (List (List Note × ℚ))
  | [], subs => .ok subs
  | n :: rest, subs =>
    if n.start < splits.headD 0 then extractGo splits rest subs
    else match findWindow n.start splits 0 with
    | none => .ok subs
    | some (i, a, b) =>
      match extractPlace (subs.getD i ([], 0)) n a b with
      | .error e => .error e
      | .ok sub => extractGo splits rest (subs.set i sub)

/-- `extract` (midi_sequence.py 511-551). Sub-sequences are default sequences, shown as note list
and total time. -/
def MSeq.extract (s : MSeq) (splits : List ℚ) : Py (List (List Note × ℚ)) :=
  if s.isQuantized then .error .value
  else if splits.length < 2 then .error .type
  else if ¬ (splits.zip splits.tail).all (fun p => decide (p.1 ≤ p.2)) then .error .assertion
  else if splits.dropLast.any (fun t => decide (t ≥ s.total)) then .error .type
  else extractGo splits (sortByKey Note.start s.notes) (List.replicate (splits.length - 1) ([], 0))

/-- `clone_empty` (midi_sequence.py 680-691). -/
def MSeq.cloneEmpty (s : MSeq) : MSeq :=
  { MSeq.empty with
    total := max 0 s.total, totalSteps := s.totalSteps, instr := s.instr, resolution := s.resolution }

/-- The loop of `slice` (midi_sequence.py 575-582). The clipped copy is built and dropped; the
original note is added. -/
def sliceGo (a b : ℚ) : List Note → MSeq → Py MSeq
  | [], acc => .ok acc
  | n :: rest, acc =>
    if n.start < a ∨ n.start ≥ b then sliceGo a b rest acc
    else match n.setStop (min n.stop b) with
    | .error e => .error e
    | .ok _ => match acc.addNote n with
      | .error e => .error e
      | .ok acc' => sliceGo a b rest acc'

/-- `slice` (midi_sequence.py 553-586). -/
def MSeq.slice (s : MSeq) (a b : ℚ) (strict : Bool := false) : Py MSeq :=
  if strict && !s.isQuantized then .error .value
  else match sliceGo a b s.notes s.cloneEmpty with
  | .error e => .error e
  | .ok r => .ok (r.setTotal (min s.total b))

/-- The loop of `_quantize` over notes (midi_sequence.py 611-618): new notes and the running
maximum, which looks at the end step of the ORIGINAL note. -/
def quantizeGo (sps : Int) (amount : ℚ) : List Note → ℚ → Py (List Note × ℚ)
  | [], steps => .ok ([], steps)
  | n :: rest, steps =>
    match n.quantize sps amount with
    | .error e => .error e
    | .ok m =>
      match quantizeGo sps amount rest (if n.qe > steps then n.qe else steps) with
      | .error e => .error e
      | .ok (ms, st) => .ok (m :: ms, st)

/-- `quantize` (midi_sequence.py 595-639). -/
def MSeq.quantize (s : MSeq) (sps : Int) (amount : ℚ) : Py MSeq :=
  match quantizeGo sps amount s.notes s.totalSteps with
  | .error e => .error e
  | .ok (ms, st) =>
    match s.ccs.mapM (fun c => c.quantize sps amount) with
    | .error e => .error e
    | .ok ccs => .ok { (({ s with totalSteps := st } : MSeq).setNotes ms) with ccs := ccs }

/-- `truncate_to_last_event` (midi_sequence.py 653-664), on its first call. -/
def MSeq.truncateToLastEvent (s : MSeq) (offset : Option ℚ) : Option ℚ :=
  offset.map (fun o => maxEnd s.notes + o)

/-- `clone` (midi_sequence.py 666-678): `_drum_events` is not copied. -/
def MSeq.clone (s : MSeq) : MSeq :=
  { MSeq.empty with
    notes_ := s.notes_, ccs := s.ccs, bends := s.bends, total := max 0 s.total
    totalSteps := s.totalSteps, instr := s.instr, resolution := s.resolution }

/-- `from_notes` (midi_sequence.py 706-718). -/
def MSeq.fromNotes (l : List Note) : MSeq := (MSeq.empty.setNotes l).adjustTotal

/-- `validate_instrument` (midi_sequence.py 720-729). -/
def MSeq.validInstr (s : MSeq) : Bool := s.notes.all (fun n => n.instrument == s.instr.num)

/-- `merge` (midi_sequence.py 731-758); `srt` is Python's `sorted` with `MidiNote.__lt__`. -/
def MSeq.merge (srt : List Note → List Note) (s o : MSeq) : Py MSeq :=
  if s.instr ≠ o.instr ∨ s.resolution ≠ o.resolution then .error .value
  else if ¬ s.validInstr then .error .value
  else if ¬ o.validInstr then .error .value
  else
    let all := srt (s.notes ++ o.notes)
    let s1 := s.setNotes []
    .ok ((s1.setVisible (all.foldl (insortLeft Note.lt) [])).adjustTotal)

/-- `cut_in_place` (midi_sequence.py 760-766). -/
def MSeq.cutInPlace (s : MSeq) (k : Int) : MSeq :=
  let s1 := s.setNotes (pyTake s.notes k)
  s1.setTotal (maxEnd s1.notes)

/-- `insert` (midi_sequence.py 768-775). -/
def MSeq.insert (s : MSeq) (n : Note) : MSeq :=
  (s.setVisible (insortLeft Note.lt s.notes n)).adjustTotal

/-- `cut` (midi_sequence.py 777-786): `truncated_notes[-1]` of an empty list is an IndexError. -/
def MSeq.cut (s : MSeq) (k : Int) : Py MSeq :=
  let l := pyTake s.notes k
  match l.getLast? with
  | none => .error .index
  | some last => .ok ((MSeq.mk' l s.instr).setTotal (min s.total last.stop))

/-- `__add__` (midi_sequence.py 206-229): `note.instrument` is an int and never equal to the
`MidiInstrumentInfo` it is compared with, so any note makes it raise. -/
def MSeq.add (s o : MSeq) : Py MSeq :=
  if s.instr ≠ o.instr then .error .value
  else if s.notes ≠ [] ∨ o.notes ≠ [] then .error .value
  else .ok (((MSeq.mk' [] s.instr).setNotes s.notes).setNotes (s.notes ++ o.notes))

end NGC
