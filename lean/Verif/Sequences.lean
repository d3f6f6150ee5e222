import Verif.Seq
import Verif.SortedDict

/-!
Model of `midi_sequences.py` (`MidiNoteSequences`).

The track table (`Tracks`) is polymorphic in what a track is: with `MSeq` it is the real content,
with a token (`Nat`) it is the identity of the track object, so that "the same track" can be said.
A call that creates a track receives the new track object as an argument.
Signature lists and their memo tables are in `SigTable`.
Left out: type checks of arguments (arguments have the annotated types), printing, `filename`,
`source_info`, `text`, `total_time` (never updated). The `slice_*_signature(s)` generators are in `Writer`.
-/

namespace NGC

/-! ### Tracks -/

/-- The `<` of integer track numbers. -/
def intLt (a b : Int) : Bool := decide (a < b)

/-- `__midi_tracks` and `_track_to_idx` (midi_sequences.py 111-112, 130-145). A `None` track table
is the empty one (`__midi_seqs` getter, 615-622). -/
structure Tracks (V : Type) where
  seqs : SDict Int V
  toIdx : SDict Int Int

namespace Tracks
variable {V : Type}

/-- No track. `_track_to_idx` is a plain `dict`: only lookup and assignment are used. -/
def empty : Tracks V := { seqs := SDict.empty, toIdx := SDict.empty }

/-- `__getitem__` (midi_sequences.py 190-228). `fresh` is the new sequence created on demand.
Returns the track and the new table. -/
def getItem (t : Tracks V) (fresh : V) (i : Int) : Py (V × Tracks V) :=
  if i < 0 ∨ i ≥ 128 then .error .value
  else do
    let t ← if t.toIdx.has i then Except.ok t else do
      let internal : Int := t.seqs.len
      let toIdx ← t.toIdx.setItem intLt i internal
      let seqs ← t.seqs.setItem intLt internal fresh
      Except.ok { seqs := seqs, toIdx := toIdx }
    let internal ← t.toIdx.getItem i
    let v ← t.seqs.getItem internal
    .ok (v, t)

/-- `__setitem__` with a sequence (midi_sequences.py 230-252): the index map is not changed. -/
def setItem (t : Tracks V) (i : Int) (v : V) : Py (Tracks V) :=
  if i < 0 ∨ i ≥ 128 then .error .value
  else do
    let seqs ← t.seqs.setItem intLt i v
    .ok { t with seqs := seqs }

/-- `create_track` (midi_sequences.py 698-746). Only the program number is range checked. -/
def createTrack (t : Tracks V) (fresh : V) (i program : Int) : Py (Int × Tracks V) :=
  if ¬ (0 ≤ program ∧ program < 128) then .error .value
  else match t.toIdx.lookup i with
    | some j => .ok (j, t)
    | none => do
      let seqs ← t.seqs.setItem intLt i fresh
      let toIdx ← t.toIdx.setItem intLt i i
      .ok (i, { seqs := seqs, toIdx := toIdx })

/-- `get_track` (midi_sequences.py 748-771). -/
def getTrack (t : Tracks V) (fresh : V) (i program : Int) : Py (V × Tracks V) :=
  if i < 0 ∨ i ≥ 128 then .error .value
  else do
    let t ← if t.seqs.has i then Except.ok t else do
      let r ← t.createTrack fresh i program
      Except.ok r.2
    let v ← t.seqs.getItem i
    .ok (v, t)

/-- `__iter__` (midi_sequences.py 263-265). -/
def iter (t : Tracks V) : List Int := t.seqs.keys

/-- `__len__` and `num_track` (midi_sequences.py 254-261, 292-298). -/
def len (t : Tracks V) : Nat := t.seqs.len

end Tracks

/-- One public access to the tracks. -/
inductive TrackOp (V : Type) where
  | get (i : Int) (fresh : V)
  | set (i : Int) (v : V)
  | create (i program : Int) (fresh : V)
  | track (i program : Int) (fresh : V)

/-- The table after one access; an exception leaves it as it was. (`get_track` on an index whose
creation is skipped raises without having changed anything.) Second component: the track handed
out, if any. -/
def Tracks.step {V : Type} (t : Tracks V) : TrackOp V → Tracks V × Py (Option V)
  | .get i f => match t.getItem f i with
    | .ok r => (r.2, .ok (some r.1))
    | .error e => (t, .error e)
  | .set i v => match t.setItem i v with
    | .ok r => (r, .ok none)
    | .error e => (t, .error e)
  | .create i p f => match t.createTrack f i p with
    | .ok r => (r.2, .ok none)
    | .error e => (t, .error e)
  | .track i p f => match t.getTrack f i p with
    | .ok r => (r.2, .ok (some r.1))
    | .error e => (t, .error e)

/-- A history of accesses with what was handed out. -/
def Tracks.run {V : Type} : Tracks V → List (TrackOp V) → Tracks V × List (Py (Option V))
  | t, [] => (t, [])
  | t, op :: ops =>
    let r := t.step op
    let r' := Tracks.run r.1 ops
    (r'.1, r.2 :: r'.2)

/-! ### Import of sequences -/

/-- The stored track `j` has been changed in place to `v`. -/
def SDict.replace {V : Type} (d : SDict Int V) (j : Int) (v : V) : SDict Int V :=
  ⟨d.dict.map (fun p => if p.1 = j then (p.1, v) else p), d.keys⟩

/-- `_add_midi_note_sequence` for one sequence (midi_sequences.py 664-671). `merge` mutates the
stored track in place. -/
def Tracks.addSeq (srt : List Note → List Note) (t : Tracks MSeq) (s : MSeq) : Py (Tracks MSeq) :=
  match t.toIdx.lookup s.instr.num with
  | some j => do
    let old ← t.seqs.getItem j
    let new ← old.merge srt s
    .ok ⟨t.seqs.replace j new, t.toIdx⟩
  | none => do
    let seqs ← t.seqs.setItem intLt s.instr.num s
    let toIdx ← t.toIdx.setItem intLt s.instr.num s.instr.num
    .ok { seqs := seqs, toIdx := toIdx }

/-- The `midi_seq` argument of the constructor (midi_sequences.py 130-145). -/
def Tracks.ofSeqs (srt : List Note → List Note) (l : List MSeq) : Py (Tracks MSeq) :=
  l.foldlM (Tracks.addSeq srt) Tracks.empty

/-- All sequences in track order (`__midi_seqs.values()`). -/
def Tracks.allSeqs (t : Tracks MSeq) : Py (List MSeq) := t.seqs.values

/-- `num_instruments` (midi_sequences.py 300-307). -/
def Tracks.numInstruments (t : Tracks MSeq) : Py Nat := do
  let vs ← t.seqs.values
  .ok (vs.map (fun s => s.instr.num)).dedup.length

/-! ### Whole-set operations -/

/-- `is_quantized` (midi_sequences.py 485-489): `n.is_quantized` is the bound method, which is
always true as a condition. -/
def Tracks.isQuantized (t : Tracks MSeq) : Py Bool := do
  let vs ← t.seqs.values
  .ok (vs.all (fun _ => true))

/-- `get_all_sequence_events` (midi_sequences.py 491-505). -/
def Tracks.allEvents (t : Tracks MSeq) : Py (List Note) := do
  let vs ← t.seqs.values
  .ok (sortByKey Note.start (vs.flatMap MSeq.notes))

/-- `trim` (midi_sequences.py 507-515): every slice is computed and thrown away. -/
def Tracks.trim (t : Tracks MSeq) (eventTime : ℚ) (initial : ℚ := 0) : Py (Tracks MSeq) := do
  let vs ← t.seqs.values
  let _ ← vs.mapM (fun s => s.slice initial eventTime)
  .ok t

/-- The scan of `truncate` (midi_sequences.py 537-542). -/
def lastWithin (bound : ℚ) : List Note → Option ℚ → Option ℚ
  | [], acc => acc
  | n :: rest, acc => if n.stop ≤ bound then lastWithin bound rest (some n.stop) else acc

/-- `truncate` (midi_sequences.py 517-548). The tracks iterated over in 545 are the integer keys,
which have no `trim`: AttributeError as soon as there is a track. -/
def Tracks.truncate (t : Tracks MSeq) (initial : ℚ) (fromStart : Option ℚ) :
    Py (Option ℚ × Tracks MSeq) :=
  match fromStart with
  | some b =>
    if b < 0 then .error .value
    else do
      let evs ← t.allEvents
      match lastWithin b evs none with
      | none => .ok (none, t)
      | some x => if t.seqs.keys = [] then .ok (some x, t) else .error .attribute
  | none => do
    let evs ← t.allEvents
    if evs = [] then .error .value
    else do
      let last := maxEnd evs
      let t ← t.trim initial last
      .ok (some last, t)

/-! ### Signatures -/

/-- The common part of time, key and tempo signatures: a time and a sequence number. -/
class Sig (S : Type) where
  time : S → ℚ
  seq : S → Int
  setSeq : S → Int → S
  time_setSeq : ∀ s n, time (setSeq s n) = time s
  seq_setSeq : ∀ s n, seq (setSeq s n) = n
  setSeq_setSeq : ∀ s n m, setSeq (setSeq s n) m = setSeq s m

instance : Sig TimeSig := ⟨TimeSig.time, TimeSig.seq, fun s n => { s with seq := n },
  fun _ _ => rfl, fun _ _ => rfl, fun _ _ _ => rfl⟩
instance : Sig KeySig := ⟨KeySig.time, KeySig.seq, fun s n => { s with seq := n },
  fun _ _ => rfl, fun _ _ => rfl, fun _ _ _ => rfl⟩
instance : Sig TempoSig := ⟨TempoSig.time, TempoSig.seq, fun s n => { s with seq := n },
  fun _ _ => rfl, fun _ _ => rfl, fun _ _ _ => rfl⟩

/-- `__lt__` on signatures, see `sigLt`. -/
def Sig.lt {S : Type} [Sig S] (a b : S) : Bool := sigLt (Sig.time a) (Sig.seq a) (Sig.time b) (Sig.seq b)

/-- `is_close_to_zero` (midi_sequences.py 339-341). -/
def isCloseToZero (a b : ℚ) : Bool := decide (|a - b| < 1/1000000)

/-- `add_time_signatures` / `add_key_signatures` / `add_tempo_signature` (midi_sequences.py
343-415) on the list: the new sequence number is that of the LAST list element plus one (IndexError
on an empty list); a signature close to the first one replaces it. -/
def addSig {S : Type} [Sig S] (l : List S) (v : S) : Py (List S) :=
  match l.getLast?, l with
  | some last, first :: rest =>
    let v := Sig.setSeq v (Sig.seq last + 1)
    if isCloseToZero (Sig.time first) (Sig.time v) then .ok (v :: rest)
    else .ok (insortLeft Sig.lt (first :: rest) v)
  | _, _ => .error .index

/-- The element Python's `l[i - 1]` selects: for `i = 0` the last one. -/
def atPred {S : Type} (l : List S) (i : Nat) : Option S := if i = 0 then l.getLast? else l[i - 1]?

/-- The signature selected by `time_signature` / `tempo_signature` / `key_signature`
(midi_sequences.py 584-585, 601-602, 612-613); `probe` is the default signature at the time. -/
def sigAt {S : Type} [Sig S] (l : List S) (probe : S) : Option S :=
  atPred l (bisectRight Sig.lt l probe)

/-- `time_signature` without its memo table (midi_sequences.py 569-585). -/
def timeSignature (l : List TimeSig) (t : ℚ) : Int × Int :=
  if t < 0 then (480, 120)
  else match sigAt l { time := t, numer := 4, denom := 4 } with
    | none => (4, 4)
    | some s => (s.numer, s.denom)

/-- `tempo_signature` without its memo table (midi_sequences.py 587-602). -/
def tempoSignature (l : List TempoSig) (t : ℚ) : Int × Int :=
  if t < 0 then (480, 120)
  else match sigAt l { time := t, qpm := 120, resolution := 480 } with
    | none => (480, 120)
    | some s => (pyInt s.qpm, s.resolution)

/-- `key_signature` without its memo table (midi_sequences.py 604-613): no test for negative times.
`none` is the result `(0, 0)` for an empty list. -/
def keySignature (l : List KeySig) (t : ℚ) : Option (KeyMode × Int) :=
  (sigAt l { time := t, key := 0, mode := .major }).map (fun s => (s.mode, s.key))

/-- `initial_tempo` without its memo table (midi_sequences.py 309-324). -/
def initialTempo (l : List TempoSig) : ℚ :=
  match l with
  | [] => 480
  | first :: _ => match l.find? (fun s => decide (s.time = 0)) with
    | some s => s.qpm
    | none => first.qpm

/-- A signature list with the memo table (`@functools.cache`) of its lookup method. -/
structure SigTable (S R : Type) where
  sigs : List S
  memo : List (ℚ × R)

namespace SigTable
variable {S R : Type} [Sig S]

/-- Adding a signature clears the memo table (midi_sequences.py 364, 394, 415). -/
def add (t : SigTable S R) (v : S) : Py (SigTable S R) := do
  let l ← addSig t.sigs v
  .ok { sigs := l, memo := [] }

/-- A memoised lookup; `f` is the undecorated method. -/
def find (f : List S → ℚ → R) (t : SigTable S R) (x : ℚ) : R × SigTable S R :=
  match t.memo.find? (fun p => decide (p.1 = x)) with
  | some p => (p.2, t)
  | none => (f t.sigs x, { t with memo := (x, f t.sigs x) :: t.memo })

end SigTable

/-- The tempo list together with the memo of `initial_tempo`, which nothing clears
(midi_sequences.py 309-324, 396-415). -/
structure TempoTable where
  table : SigTable TempoSig (Int × Int)
  initialMemo : Option ℚ

/-- `add_tempo_signature` (midi_sequences.py 396-415). -/
def TempoTable.add (t : TempoTable) (v : TempoSig) : Py TempoTable := do
  let tab ← t.table.add v
  .ok { t with table := tab }

/-- `initial_tempo()` with its memo (midi_sequences.py 309-324). -/
def TempoTable.initialTempo (t : TempoTable) : ℚ × TempoTable :=
  match t.initialMemo with
  | some q => (q, t)
  | none => (NGC.initialTempo t.table.sigs, { t with initialMemo := some (NGC.initialTempo t.table.sigs) })

end NGC
