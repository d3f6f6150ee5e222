import Verif.Seq
import Verif.Order

/-!
Sharing between sequences (`midi_sequence.py`).

`Seq.lean` treats notes as values. In Python a sequence holds references to two list objects, which hold
references to note objects, and a reference to an instrument object; different sequences (and the caller) may
hold the same ones. This file models the methods of `MidiNoteSequence` on a heap of objects, so that the effect of a method on
*other* sequences can be stated. An object is a number; `nN`, `nL`, `nI`, `nS` are the numbers not used yet.

A *client* is a piece of calling code. It holds references in registers and can do anything Python code can do with them: call the
methods, read `notes`, index lists, build lists, assign fields of notes. The one thing left out is assignment to the
fields of an instrument (instrument objects are shared by `clone`, see C118). `Client.run` executes such code. When a
method raises, the client goes on (as after `except`); none of the methods modelled changes an existing
object before it raises.

Left out: control changes, pitch bends, resolution and step counters of sequences (see `Seq.lean`), garbage
collection.
-/

namespace NGC

/-- A sequence object (midi_sequence.py 108-141): references to its two lists and its instrument. -/
structure SObj where
  notes : Nat
  drums : Nat
  instr : Nat
  total : ℚ

/-- The heap. -/
structure Heap where
  note : Nat → Note
  list : Nat → List Nat
  instr : Nat → InstrumentInfo
  seq : Nat → SObj
  nN : Nat
  nL : Nat
  nI : Nat
  nS : Nat

namespace Heap

/-! ### Primitive operations -/

/-- Assignment to the fields of a note object. -/
def setNote (h : Heap) (r : Nat) (n : Note) : Heap :=
  { h with note := fun i => if i = r then n else h.note i }

/-- In-place change of a list object. -/
def setList (h : Heap) (l : Nat) (rs : List Nat) : Heap :=
  { h with list := fun i => if i = l then rs else h.list i }

/-- Assignment to the attributes of a sequence object. -/
def setSeq (h : Heap) (s : Nat) (o : SObj) : Heap :=
  { h with seq := fun i => if i = s then o else h.seq i }

/-- Assignment to the fields of an instrument object. -/
def setInstr (h : Heap) (r : Nat) (x : InstrumentInfo) : Heap :=
  { h with instr := fun i => if i = r then x else h.instr i }

/-- New note objects; their numbers are `h.nN`, `h.nN + 1`, … -/
def allocNotes (h : Heap) (l : List Note) : Heap :=
  { h with note := fun i => if i < h.nN then h.note i else l.getD (i - h.nN) (h.note i)
           nN := h.nN + l.length }

/-- A new list object, with number `h.nL`. -/
def allocList (h : Heap) (rs : List Nat) : Heap :=
  { h with list := fun i => if i = h.nL then rs else h.list i, nL := h.nL + 1 }

/-- A new instrument object, with number `h.nI`. -/
def allocInstr (h : Heap) (x : InstrumentInfo) : Heap :=
  { h with instr := fun i => if i = h.nI then x else h.instr i, nI := h.nI + 1 }

/-- A new sequence object, with number `h.nS`. -/
def allocSeq (h : Heap) (o : SObj) : Heap :=
  { h with seq := fun i => if i = h.nS then o else h.seq i, nS := h.nS + 1 }

/-! ### What a caller sees of a sequence -/

/-- The instrument of a sequence. -/
def info (h : Heap) (s : Nat) : InstrumentInfo := h.instr (h.seq s).instr

/-- The list object that `notes` returns (midi_sequence.py 276-282). -/
def vis (h : Heap) (s : Nat) : Nat := if (h.info s).isDrum then (h.seq s).drums else (h.seq s).notes

/-- References to the notes of a sequence. -/
def refs (h : Heap) (s : Nat) : List Nat := h.list (h.vis s)

/-- The notes of a sequence. -/
def view (h : Heap) (s : Nat) : List Note := (h.refs s).map h.note

/-- `total_time`. -/
def total (h : Heap) (s : Nat) : ℚ := (h.seq s).total

/-! ### Methods -/

/-- `total_time` setter (midi_sequence.py 258-269). -/
def setTotal (h : Heap) (s : Nat) (v : ℚ) : Heap := h.setSeq s { h.seq s with total := max 0 v }

/-- `_adjust_total_time` (midi_sequence.py 699-704). -/
def adjustTotal (h : Heap) (s : Nat) : Heap := h.setTotal s (maxEnd (h.view s))

/-- `notes` setter (midi_sequence.py 284-296): keeps the list object given. -/
def setNotesRef (h : Heap) (s l : Nat) : Heap :=
  let o := h.seq s
  let o' := if (h.info s).isDrum then { o with drums := l } else { o with notes := l }
  let h' := h.setSeq s o'
  h'.setTotal s (maxEnd ((h.list l).map h.note))

/-- A new sequence object with new list objects of the given contents. -/
def build (h : Heap) (ns ds : List Nat) (instr : Nat) (total : ℚ) : Heap :=
  ((h.allocList ns).allocList ds).allocSeq ⟨h.nL, h.nL + 1, instr, total⟩

/-- `MidiNoteSequence(notes, instrument=info)` (midi_sequence.py 108-116): the list is copied, the notes are
not; the instrument object is kept. -/
def construct (h : Heap) (rs : List Nat) (instr : Nat) : Heap :=
  if (h.instr instr).isDrum then h.build [] rs instr (maxEnd (rs.map h.note))
  else h.build rs [] instr (maxEnd (rs.map h.note))

/-- The instrument object of `MidiNoteSequence()` (midi_sequence.py 109-110). -/
def generic : InstrumentInfo := { num := 0, name := "Generic", isDrum := false }

/-- `from_notes(l)` (midi_sequence.py 706-718): the sequence keeps the list object of the caller. The list the constructor
makes is dropped at once and not modelled. -/
def fromNotes (h : Heap) (l : Nat) : Heap :=
  let h1 := h.allocInstr generic
  let h2 := h1.allocList []
  h2.allocSeq ⟨l, h.nL, h.nI, max 0 (maxEnd ((h.list l).map h.note))⟩

/-- `append`/`extend` with notes (midi_sequence.py 322-328, 337-343); an empty list raises. -/
def append (h : Heap) (s : Nat) (rs : List Nat) : Heap :=
  if rs = [] then h
  else (h.setList (h.vis s) (h.refs s ++ rs)).setTotal s (max (h.total s) (maxEnd (rs.map h.note)))

/-- `add_note` (midi_sequence.py 357-375). -/
def addNote (h : Heap) (s r : Nat) : Heap :=
  let n := h.note r
  if n.instrument ≠ (h.info s).num then h
  else
    let l := if n.isDrum then (h.seq s).drums else (h.seq s).notes
    (h.setList l (h.list l ++ [r])).setTotal s (max (h.total s) n.stop)

/-- `insert` (midi_sequence.py 768-775). -/
def insert (h : Heap) (s r : Nat) : Heap :=
  (h.setList (h.vis s) (insortLeft (fun a b => (h.note a).lt (h.note b)) (h.refs s) r)).adjustTotal s

/-- `as_note_seq` (midi_sequence.py 347-355): sorts the list object. -/
def asNoteSeq (h : Heap) (s : Nat) : Heap :=
  h.setList (h.vis s) (sortByKey (fun r => (h.note r).start) (h.refs s))

/-- In-place change of the notes of a list, one after the other. -/
def forEach (f : Note → Note) : List Nat → Heap → Heap
  | [], h => h
  | r :: rs, h => forEach f rs (h.setNote r (f (h.note r)))

/-- `stretch` (midi_sequence.py 416-422). -/
def stretch (h : Heap) (s : Nat) (k : ℚ) : Heap := (forEach (·.stretch k) (h.refs s) h).adjustTotal s

/-- `shift_times` (midi_sequence.py 500-509). -/
def shiftTimes (h : Heap) (s : Nat) (d : ℚ) : Heap :=
  if (h.view s).all Note.isQuantized then h
  else (forEach (·.shift d) (h.refs s) h).setTotal s (h.total s + d)

/-- `quantize` (midi_sequence.py 595-639): new notes in a new list. -/
def quantize (h : Heap) (s : Nat) (sps : Int) (amount : ℚ) : Heap :=
  match (h.view s).mapM (fun n => n.quantize sps amount) with
  | .error _ => h
  | .ok ms =>
    let h1 := h.allocNotes ms
    (h1.allocList (List.range' h.nN ms.length)).setNotesRef s h.nL

/-- `cut_in_place` (midi_sequence.py 760-766): a slice is a new list object. -/
def cutInPlace (h : Heap) (s : Nat) (k : Int) : Heap :=
  (h.allocList (pyTake (h.refs s) k)).setNotesRef s h.nL

/-- `merge` (midi_sequence.py 731-758); `srt` is Python's `sorted`. The comparison of resolutions is left out (sequences of the
heap have the default one). -/
def merge (srt : (Nat → Nat → Bool) → List Nat → List Nat) (h : Heap) (s o : Nat) : Heap :=
  let lt : Nat → Nat → Bool := fun a b => (h.note a).lt (h.note b)
  if h.info s ≠ h.info o then h
  else if ¬ (h.view s).all (fun n => n.instrument == (h.info s).num) then h
  else if ¬ (h.view o).all (fun n => n.instrument == (h.info o).num) then h
  else (h.allocList ((srt lt (h.refs s ++ h.refs o)).foldl (insortLeft lt) [])).setNotesRef s h.nL

/-! Methods that return a new sequence, which gets the number `h.nS`. -/

/-- `truncate` (midi_sequence.py 424-433): every note kept is copied. -/
def truncate (h : Heap) (s : Nat) (t : ℚ) : Heap :=
  let ns := (h.view s).filter (fun n => decide (n.stop ≤ t))
  let h1 := h.allocNotes ns
  (h1.construct (List.range' h.nN ns.length) (h.seq s).instr).setTotal h.nS (min (h.total s) t)

/-- `clone` (midi_sequence.py 666-678): `deepcopy` of the list copies every note *object* once, so two
references to one note become two references to one copy. The drum list is not copied, the instrument is
shared. -/
def clone (h : Heap) (s : Nat) : Heap :=
  let rs := h.list (h.seq s).notes
  let h1 := h.allocNotes (rs.dedup.map h.note)
  h1.build (rs.map (fun r => h.nN + rs.dedup.idxOf r)) [] (h.seq s).instr (max 0 (h.total s))

/-- The loop of `slice` (midi_sequence.py 575-582) with `add_note`: references for the two lists and the
total time of the new sequence. The clipped copy is dropped. -/
def sliceLoop (h : Heap) (num : Int) (a b : ℚ) : List Nat → List Nat × List Nat × ℚ →
    Py (List Nat × List Nat × ℚ)
  | [], acc => .ok acc
  | r :: rs, (ns, ds, t) =>
    let n := h.note r
    if n.start < a ∨ n.start ≥ b then sliceLoop h num a b rs (ns, ds, t)
    else match n.setStop (min n.stop b) with
    | .error e => .error e
    | .ok _ =>
      if n.instrument ≠ num then .error .value
      else if n.isDrum then sliceLoop h num a b rs (ns, ds ++ [r], max 0 (max t n.stop))
      else sliceLoop h num a b rs (ns ++ [r], ds, max 0 (max t n.stop))

/-- `slice` (midi_sequence.py 553-586). -/
def slice (h : Heap) (s : Nat) (a b : ℚ) : Heap :=
  match sliceLoop h (h.info s).num a b (h.refs s) ([], [], max 0 (h.total s)) with
  | .error _ => h
  | .ok (ns, ds, _) => h.build ns ds (h.seq s).instr (max 0 (min (h.total s) b))

/-- `cut` (midi_sequence.py 777-786). -/
def cut (h : Heap) (s : Nat) (k : Int) : Heap :=
  let rs := pyTake (h.refs s) k
  match rs.getLast? with
  | none => h
  | some r => (h.construct rs (h.seq s).instr).setTotal h.nS (min (h.total s) (h.note r).stop)

end Heap

/-! ### Clients -/

/-- The registers of a client. -/
structure Client where
  notes : List Nat
  lists : List Nat
  seqs : List Nat

/-- What calling code can do. Arguments are positions in the registers of the client; results are put into
new registers. -/
inductive Cmd where
  /-- `MidiNote(...)` -/
  | newNote (n : Note)
  /-- a list display `[n1, …, nk]` -/
  | newList (ns : List Nat)
  /-- any assignment to fields of a note -/
  | mutNote (n : Nat) (f : Note → Note)
  /-- any in-place change of a list, with the notes at hand -/
  | mutList (l : Nat) (ns : List Nat)
  /-- `l[i]` -/
  | getItem (l i : Nat)
  /-- `s.notes` -/
  | getNotes (s : Nat)
  /-- `s.notes = l` -/
  | setNotes (s l : Nat)
  /-- `s.total_time = v` -/
  | setTotal (s : Nat) (v : ℚ)
  /-- `MidiNoteSequence(l, instrument=MidiInstrumentInfo(...))` -/
  | construct (l : Nat) (x : InstrumentInfo)
  | fromNotes (l : Nat)
  | append (s n : Nat)
  | extend (s l : Nat)
  | addNote (s n : Nat)
  | insert (s n : Nat)
  | asNoteSeq (s : Nat)
  | stretch (s : Nat) (k : ℚ)
  | shiftTimes (s : Nat) (d : ℚ)
  | quantize (s : Nat) (sps : Int) (amount : ℚ)
  | cutInPlace (s : Nat) (k : Int)
  | merge (s o : Nat)
  | truncate (s : Nat) (t : ℚ)
  | clone (s : Nat)
  | slice (s : Nat) (a b : ℚ)
  | cut (s : Nat) (k : Int)

/-- The client takes note of a new sequence object, if there is one. -/
def Client.gotSeq (c : Client) (h h' : Heap) : Client :=
  if h.nS < h'.nS then { c with seqs := c.seqs ++ [h.nS] } else c

/-- One command. A register that does not exist makes the command do nothing. -/
def Cmd.exec (srt : (Nat → Nat → Bool) → List Nat → List Nat) (c : Client) (h : Heap) : Cmd → Client × Heap
  | .newNote n => ({ c with notes := c.notes ++ [h.nN] }, h.allocNotes [n])
  | .newList ns => ({ c with lists := c.lists ++ [h.nL] }, h.allocList (ns.filterMap (fun i => c.notes[i]?)))
  | .mutNote n f => match c.notes[n]? with
    | some r => (c, h.setNote r (f (h.note r)))
    | none => (c, h)
  | .mutList l ns => match c.lists[l]? with
    | some r => (c, h.setList r (ns.filterMap (fun i => c.notes[i]?)))
    | none => (c, h)
  | .getItem l i => match c.lists[l]? with
    | some r => match (h.list r)[i]? with
      | some n => ({ c with notes := c.notes ++ [n] }, h)
      | none => (c, h)
    | none => (c, h)
  | .getNotes s => match c.seqs[s]? with
    | some r => ({ c with lists := c.lists ++ [h.vis r] }, h)
    | none => (c, h)
  | .setNotes s l => match c.seqs[s]?, c.lists[l]? with
    | some r, some m => (c, h.setNotesRef r m)
    | _, _ => (c, h)
  | .setTotal s v => match c.seqs[s]? with
    | some r => (c, h.setTotal r v)
    | none => (c, h)
  | .construct l x => match c.lists[l]? with
    | some r =>
      let h' := (h.allocInstr x).construct (h.list r) h.nI
      (c.gotSeq h h', h')
    | none => (c, h)
  | .fromNotes l => match c.lists[l]? with
    | some r => (c.gotSeq h (h.fromNotes r), h.fromNotes r)
    | none => (c, h)
  | .append s n => match c.seqs[s]?, c.notes[n]? with
    | some r, some m => (c, h.append r [m])
    | _, _ => (c, h)
  | .extend s l => match c.seqs[s]?, c.lists[l]? with
    | some r, some m => (c, h.append r (h.list m))
    | _, _ => (c, h)
  | .addNote s n => match c.seqs[s]?, c.notes[n]? with
    | some r, some m => (c, h.addNote r m)
    | _, _ => (c, h)
  | .insert s n => match c.seqs[s]?, c.notes[n]? with
    | some r, some m => (c, h.insert r m)
    | _, _ => (c, h)
  | .asNoteSeq s => match c.seqs[s]? with
    | some r => (c, h.asNoteSeq r)
    | none => (c, h)
  | .stretch s k => match c.seqs[s]? with
    | some r => (c, h.stretch r k)
    | none => (c, h)
  | .shiftTimes s d => match c.seqs[s]? with
    | some r => (c, h.shiftTimes r d)
    | none => (c, h)
  | .quantize s sps amount => match c.seqs[s]? with
    | some r => (c, h.quantize r sps amount)
    | none => (c, h)
  | .cutInPlace s k => match c.seqs[s]? with
    | some r => (c, h.cutInPlace r k)
    | none => (c, h)
  | .merge s o => match c.seqs[s]?, c.seqs[o]? with
    | some r, some m => (c, h.merge srt r m)
    | _, _ => (c, h)
  | .truncate s t => match c.seqs[s]? with
    | some r => (c.gotSeq h (h.truncate r t), h.truncate r t)
    | none => (c, h)
  | .clone s => match c.seqs[s]? with
    | some r => (c.gotSeq h (h.clone r), h.clone r)
    | none => (c, h)
  | .slice s a b => match c.seqs[s]? with
    | some r => (c.gotSeq h (h.slice r a b), h.slice r a b)
    | none => (c, h)
  | .cut s k => match c.seqs[s]? with
    | some r => (c.gotSeq h (h.cut r k), h.cut r k)
    | none => (c, h)

/-- A whole program of a client. -/
def Client.run (srt : (Nat → Nat → Bool) → List Nat → List Nat) (c : Client) (h : Heap) :
    List Cmd → Client × Heap
  | [] => (c, h)
  | cmd :: rest =>
    let r := cmd.exec srt c h
    Client.run srt r.1 r.2 rest

/-- Two clients taking turns: `true` marks a command of the first. -/
def runTwo (srt : (Nat → Nat → Bool) → List Nat → List Nat) (a b : Client) (h : Heap) :
    List (Bool × Cmd) → Client × Client × Heap
  | [] => (a, b, h)
  | (true, cmd) :: rest => let r := cmd.exec srt a h; runTwo srt r.1 b r.2 rest
  | (false, cmd) :: rest => let r := cmd.exec srt b h; runTwo srt a r.1 r.2 rest

end NGC
