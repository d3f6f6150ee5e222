import Verif.SeqLemmas

/-! Property theorems C19-C31, C80 about `MidiNoteSequence`. -/

namespace NGC

/-! ## C19 total time bounds every note -/

/-- One public operation on a sequence. `merge` carries the other sequence; the sort used by Python
is a parameter. -/
inductive SeqOp where
  | append (n : Note)
  | extend (l : List Note)
  | addNote (n : Note)
  | insert (n : Note)
  | merge (o : MSeq)
  | setNotes (l : List Note)
  | stretch (k : ℚ)
  | shiftTimes (d : ℚ)
  | cutInPlace (k : Int)
  | quantize (sps : Int) (amount : ℚ)
  | asNoteSeq

/-- What an operation does: the new state or the exception. -/
def SeqOp.run (srt : List Note → List Note) (s : MSeq) : SeqOp → Py MSeq
  | .append n => .ok (s.append n)
  | .extend l => s.extend l
  | .addNote n => s.addNote n
  | .insert n => .ok (s.insert n)
  | .merge o => s.merge srt o
  | .setNotes l => .ok (s.setNotes l)
  | .stretch k => .ok (s.stretch k)
  | .shiftTimes d => s.shiftTimes d
  | .cutInPlace k => .ok (s.cutInPlace k)
  | .quantize sps a => s.quantize sps a
  | .asNoteSeq => .ok s.asNoteSeq.1

/-- A history: an operation that raises leaves the notes and the total time as they were. -/
def SeqOp.after (srt : List Note → List Note) (s : MSeq) (op : SeqOp) : MSeq :=
  match op.run srt s with
  | .ok s' => s'
  | .error _ => s

namespace Spec

/-- The total time covers every visible note and is non-negative. -/
def Covers (s : MSeq) : Prop := 0 ≤ s.total ∧ ∀ n ∈ s.notes, n.stop ≤ s.total

end Spec

theorem covers_of_maxEnd (s : MSeq) (h : s.total = max 0 (maxEnd s.notes)) : Spec.Covers s := by
  unfold Spec.Covers
  rw [h]
  exact ⟨le_max_left _ _, fun n hn => le_trans (maxEnd_ge _ n hn) (le_max_right _ _)⟩

theorem covers_setNotes (s : MSeq) (l : List Note) : Spec.Covers (s.setNotes l) := by
  apply covers_of_maxEnd; simp

theorem covers_append (s : MSeq) (l : List Note) (v : ℚ) (h : Spec.Covers s)
    (hv : ∀ n ∈ l, n.stop ≤ v) :
    Spec.Covers ((s.setVisible (s.notes ++ l)).setTotal (max s.total v)) := by
  refine ⟨le_max_left _ _, ?_⟩
  intro n hn
  simp only [notes_setTotal, notes_setVisible, List.mem_append] at hn
  simp only [total_setTotal]
  rcases hn with hn | hn
  · exact le_trans (h.2 n hn) (le_trans (le_max_left _ _) (le_max_right _ _))
  · exact le_trans (hv n hn) (le_trans (le_max_right _ _) (le_max_right _ _))

theorem SeqOp.covers_run (srt : List Note → List Note) (s s' : MSeq) (op : SeqOp)
    (h : Spec.Covers s) (hr : op.run srt s = .ok s') : Spec.Covers s' := by
  cases op with
  | append n =>
    cases hr
    exact covers_append s [n] n.stop h (by simp)
  | extend l =>
    simp only [SeqOp.run, MSeq.extend] at hr
    split_ifs at hr
    cases hr
    exact covers_append s l _ h (fun n hn => maxEnd_ge l n hn)
  | addNote n =>
    obtain ⟨_, hn, ht, _, _⟩ := addNote_ok s s' n hr
    refine ⟨by rw [ht]; exact le_max_left _ _, ?_⟩
    intro m hm
    rw [ht]
    have : m ∈ s.notes ∨ m = n := by
      rw [hn] at hm
      split_ifs at hm
      · simpa using hm
      · exact Or.inl hm
    rcases this with hm | rfl
    · exact le_trans (h.2 m hm) (le_trans (le_max_left _ _) (le_max_right _ _))
    · exact le_trans (le_max_right _ _) (le_max_right _ _)
  | insert n => cases hr; exact covers_of_maxEnd _ rfl
  | merge o =>
    simp only [SeqOp.run, MSeq.merge] at hr
    split_ifs at hr
    cases hr; exact covers_of_maxEnd _ rfl
  | setNotes l => cases hr; exact covers_setNotes s l
  | stretch k => cases hr; exact covers_of_maxEnd _ rfl
  | shiftTimes d =>
    simp only [SeqOp.run, MSeq.shiftTimes] at hr
    split_ifs at hr
    cases hr
    refine ⟨le_max_left _ _, ?_⟩
    intro m hm
    simp only [notes_setTotal, notes_setVisible, List.mem_map] at hm
    obtain ⟨n, hn, rfl⟩ := hm
    simp only [total_setTotal, Note.shift]
    exact le_trans (by linarith [h.2 n hn]) (le_max_right _ _)
  | cutInPlace k => cases hr; exact covers_of_maxEnd _ rfl
  | quantize sps a =>
    simp only [SeqOp.run, MSeq.quantize] at hr
    split at hr
    · cases hr
    · split at hr
      · cases hr
      · cases hr
        exact covers_setNotes _ _
  | asNoteSeq =>
    cases hr
    refine ⟨by simpa [MSeq.asNoteSeq] using h.1, ?_⟩
    intro n hn
    simp only [MSeq.asNoteSeq, notes_setVisible] at hn
    rw [(sortByKey_perm _ _).mem_iff] at hn
    simpa [MSeq.asNoteSeq] using h.2 n hn

/-- C19: after any finite history of operations (with any arguments, including ones that raise), on
a freshly constructed sequence whose notes do not all end before time 0, the total time is at least
the end of every visible note, and non-negative. -/
theorem C19_total_time_covers (srt : List Note → List Note) (notes : List Note) (i : InstrumentInfo)
    (r : Int) (h0 : notes = [] ∨ ∃ n ∈ notes, 0 ≤ n.stop) (ops : List SeqOp) :
    Spec.Covers (ops.foldl (SeqOp.after srt) (MSeq.mk' notes i r)) := by
  have hstart : Spec.Covers (MSeq.mk' notes i r) := by
    refine ⟨?_, ?_⟩
    · show 0 ≤ maxEnd notes
      rcases h0 with rfl | ⟨n, hn, h⟩
      · exact le_refl _
      · exact le_trans h (maxEnd_ge _ n hn)
    · intro n hn
      rw [notes_mk'] at hn
      exact maxEnd_ge _ n hn
  generalize MSeq.mk' notes i r = s at hstart
  induction ops generalizing s with
  | nil => exact hstart
  | cons op rest ih =>
    rw [List.foldl_cons]
    refine ih _ ?_
    unfold SeqOp.after
    cases hr : op.run srt s with
    | ok s' => exact SeqOp.covers_run srt s s' op hstart hr
    | error e => exact hstart

/-- C19: right after construction, assignment, insertion, merge, stretch and in-place cut, the total
time is exactly the largest end time (or 0). -/
theorem C19_total_time_exact (s : MSeq) (l : List Note) (n : Note) (k : ℚ) (c : Int)
    (i : InstrumentInfo) (r : Int) :
    (MSeq.mk' l i r).total = maxEnd l ∧
    (s.setNotes l).total = max 0 (maxEnd l) ∧
    (s.insert n).total = max 0 (maxEnd (s.insert n).notes) ∧
    (s.stretch k).total = max 0 (maxEnd (s.stretch k).notes) ∧
    (s.cutInPlace c).total = max 0 (maxEnd (s.cutInPlace c).notes) := ⟨rfl, rfl, rfl, rfl, rfl⟩

def exSeq : MSeq := MSeq.mk' [exNote, { exNote with start := 1, stop := 3, pitch := 64 }]
  { num := 0, name := "Piano", isDrum := false }

example : Spec.Covers ([SeqOp.append { exNote with stop := 9 }, SeqOp.extend [], SeqOp.stretch 2,
    SeqOp.cutInPlace (-1)].foldl (SeqOp.after id) exSeq) ∧
    ([SeqOp.append { exNote with stop := 9 }, SeqOp.extend [], SeqOp.stretch 2,
    SeqOp.cutInPlace (-1)].foldl (SeqOp.after id) exSeq).total = 6 :=
  ⟨C19_total_time_covers id _ _ _ (Or.inr ⟨exNote, by simp, by decide +kernel⟩) _, by decide +kernel⟩

/-! ## C20 add_note -/

/-- C20: `add_note` raises exactly on an instrument mismatch, always with ValueError. -/
theorem C20_add_note_raises_iff (s : MSeq) (n : Note) :
    (s.addNote n = .error .value ↔ n.instrument ≠ s.instr.num) ∧
    ((∃ s', s.addNote n = .ok s') ↔ n.instrument = s.instr.num) := by
  unfold MSeq.addNote
  by_cases h : n.instrument = s.instr.num
  · rw [if_neg (not_not.2 h)]; simp [h]
  · rw [if_pos h]; simp [h]

/-- C20: when the drum flags of note and sequence agree, the note is appended at the end and
is visible. Boundary: if the flags disagree the note is not visible (`C20_add_note_hidden`). -/
theorem C20_add_note_appends (s s' : MSeq) (n : Note) (hd : n.isDrum = s.instr.isDrum)
    (h : s.addNote n = .ok s') :
    s'.notes = s.notes ++ [n] ∧ s'.notes.length = s.notes.length + 1 ∧
    s'.total = max 0 (max s.total n.stop) ∧ s'.instr = s.instr := by
  obtain ⟨_, hn, ht, hi, _⟩ := addNote_ok s s' n h
  rw [if_pos hd] at hn
  exact ⟨hn, by rw [hn]; simp, ht, hi⟩

/-- C20 is false when the drum flags disagree: `add_note` succeeds, the total time is raised, but
the note is not among the notes of the sequence and the length does not change. -/
theorem C20_add_note_hidden (s s' : MSeq) (n : Note) (hd : n.isDrum ≠ s.instr.isDrum)
    (h : s.addNote n = .ok s') :
    s'.notes = s.notes ∧ n.stop ≤ s'.total := by
  obtain ⟨_, hn, ht, _, _⟩ := addNote_ok s s' n h
  rw [if_neg hd] at hn
  exact ⟨hn, by rw [ht]; exact le_trans (le_max_right _ _) (le_max_right _ _)⟩

example : ∃ s', exSeq.addNote { exNote with isDrum := true, stop := 50 } = .ok s' ∧
    s'.notes.length = 2 ∧ s'.total = 50 :=
  ⟨_, rfl, by decide +kernel⟩

example : ∃ s', exSeq.addNote { exNote with stop := 50 } = .ok s' ∧ s'.notes.length = 3 :=
  ⟨_, rfl, by decide +kernel⟩

/-! ## C21 merge -/

/-- C21: when merge raises, and that it is always ValueError. -/
theorem C21_merge_raises_iff (srt : List Note → List Note) (s o : MSeq) :
    (s.merge srt o = .error .value ↔
      s.instr ≠ o.instr ∨ s.resolution ≠ o.resolution ∨
      (∃ n ∈ s.notes, n.instrument ≠ s.instr.num) ∨ (∃ n ∈ o.notes, n.instrument ≠ o.instr.num)) ∧
    ((∃ r, s.merge srt o = .ok r) ↔
      s.instr = o.instr ∧ s.resolution = o.resolution ∧
      (∀ n ∈ s.notes, n.instrument = s.instr.num) ∧ (∀ n ∈ o.notes, n.instrument = o.instr.num)) := by
  have hv : ∀ s : MSeq, s.validInstr = true ↔ ∀ n ∈ s.notes, n.instrument = s.instr.num := by
    intro s; simp [MSeq.validInstr, List.all_eq_true]
  unfold MSeq.merge
  by_cases h1 : s.instr = o.instr
  · by_cases h2 : s.resolution = o.resolution
    · rw [if_neg (by simp [h1, h2])]
      by_cases h3 : s.validInstr = true
      · rw [if_neg (not_not.2 h3)]
        by_cases h4 : o.validInstr = true
        · rw [if_neg (not_not.2 h4)]
          rw [hv] at h3 h4
          refine ⟨⟨fun h => (by cases h), ?_⟩, ⟨fun _ => ⟨h1, h2, h3, h4⟩, fun _ => ⟨_, rfl⟩⟩⟩
          rintro (h | h | ⟨n, hn, h⟩ | ⟨n, hn, h⟩)
          · exact absurd h1 h
          · exact absurd h2 h
          · exact absurd (h3 n hn) h
          · exact absurd (h4 n hn) h
        · rw [if_pos h4]
          rw [hv] at h4
          push Not at h4
          refine ⟨⟨fun _ => Or.inr (Or.inr (Or.inr h4)), fun _ => rfl⟩, ⟨fun ⟨r, h⟩ => (by cases h), ?_⟩⟩
          rintro ⟨_, _, _, h⟩
          obtain ⟨n, hn, h'⟩ := h4
          exact absurd (h n hn) h'
      · rw [if_pos h3]
        rw [hv] at h3
        push Not at h3
        refine ⟨⟨fun _ => Or.inr (Or.inr (Or.inl h3)), fun _ => rfl⟩, ⟨fun ⟨r, h⟩ => (by cases h), ?_⟩⟩
        rintro ⟨_, _, h, _⟩
        obtain ⟨n, hn, h'⟩ := h3
        exact absurd (h n hn) h'
    · rw [if_pos (Or.inr h2)]
      simp [h2]
  · rw [if_pos (Or.inl h1)]
    simp [h1]

/-- C21: a successful merge holds exactly the notes of both (as a multiset), and its total time is
the largest end. -/
theorem C21_merge_multiset (srt : List Note → List Note) (hs : IsPySort Note.lt srt) (s o r : MSeq)
    (h : s.merge srt o = .ok r) :
    r.notes.Perm (s.notes ++ o.notes) ∧ r.total = max 0 (maxEnd (s.notes ++ o.notes)) ∧
    r.instr = s.instr := by
  unfold MSeq.merge at h
  split_ifs at h
  cases h
  have hp : ((srt (s.notes ++ o.notes)).foldl (insortLeft Note.lt) []).Perm (s.notes ++ o.notes) := by
    have := foldl_insortLeft_perm Note.lt (srt (s.notes ++ o.notes)) []
    rw [List.append_nil] at this
    exact this.trans (hs.perm _)
  refine ⟨by simpa using hp, ?_, by simp⟩
  simp only [total_adjustTotal, notes_setVisible]
  rw [maxEnd_perm hp]

theorem strictWeak_of_separated (l : List Note) (h : ∀ a ∈ l, ∀ b ∈ l, Spec.Separated a b) :
    StrictWeakOn Note.lt l := by
  refine ⟨fun a _ b _ => (C05_lt_asymm a b).2, ?_⟩
  intro a ha b hb c hc hac
  exact (C05_lt_trans a b c (h a ha b hb) (h b hb c hc) (h a ha c hc)).2 hac

/-- C21: if times are either equal or more than 1e-6 apart, the merged notes are sorted
lexicographically by start, end and pitch. Boundary: times that are closer, where no sorted order
need exist (`C22_insert_unsorted`). -/
theorem C21_merge_sorted (srt : List Note → List Note) (hs : IsPySort Note.lt srt)
    (s o r : MSeq) (hsep : ∀ a ∈ s.notes ++ o.notes, ∀ b ∈ s.notes ++ o.notes, Spec.Separated a b)
    (h : s.merge srt o = .ok r) :
    r.notes.Pairwise (fun a b => ¬ Spec.LexLt b a) := by
  have hperm := (C21_merge_multiset srt hs s o r h).1
  unfold MSeq.merge at h
  split_ifs at h
  cases h
  simp only [notes_adjustTotal, notes_setVisible] at hperm ⊢
  have hw := strictWeak_of_separated _ hsep
  have hsorted : SortedLt Note.lt ((srt (s.notes ++ o.notes)).foldl (insortLeft Note.lt) []) := by
    refine foldl_insortLeft_sorted Note.lt _ _ (hw.mono ?_) List.Pairwise.nil
    intro x hx
    rw [List.append_nil] at hx
    exact (hs.perm _).mem_iff.1 hx
  refine List.Pairwise.imp_of_mem ?_ hsorted
  intro a b ha hb hlt hlex
  rw [hperm.mem_iff] at ha hb
  rw [(C05_lt_lex b a (hsep b hb a ha)).2 hlex] at hlt
  cases hlt

/-- A concrete sorting function meeting the assumption on Python's `sorted`. -/
theorem insertionSort_isPySort : IsPySort Note.lt (fun l => l.foldl (insortLeft Note.lt) []) := by
  constructor
  · intro l
    have := foldl_insortLeft_perm Note.lt l []
    rwa [List.append_nil] at this
  · intro l hw
    exact foldl_insortLeft_sorted Note.lt l [] (by rwa [List.append_nil]) List.Pairwise.nil

example : ∃ r, exSeq.merge (fun l => l.foldl (insortLeft Note.lt) []) exSeq = .ok r ∧
    r.notes.map Note.pitch = [60, 60, 64, 64] :=
  ⟨_, rfl, by decide +kernel⟩

/-! ## C22 insert -/

/-- C22: `insert` always yields a permutation of the notes plus the new one. -/
theorem C22_insert_perm (s : MSeq) (n : Note) :
    (s.insert n).notes.Perm (n :: s.notes) ∧ (s.insert n).notes.length = s.notes.length + 1 := by
  have : (s.insert n).notes.Perm (n :: s.notes) := by
    simp only [MSeq.insert, notes_adjustTotal, notes_setVisible]
    exact insortLeft_perm _ _ _
  exact ⟨this, by rw [this.length_eq]; simp⟩

/-- C22: inserting into a sorted sequence whose times (together with the new note's) are
equal or more than 1e-6 apart keeps it sorted. Boundary: closer times (`C22_insert_unsorted`). -/
theorem C22_insert_sorted (s : MSeq) (n : Note)
    (hsep : ∀ a ∈ n :: s.notes, ∀ b ∈ n :: s.notes, Spec.Separated a b)
    (hs : s.notes.Pairwise (fun a b => ¬ Spec.LexLt b a)) :
    (s.insert n).notes.Pairwise (fun a b => ¬ Spec.LexLt b a) := by
  have hw := strictWeak_of_separated _ hsep
  have hsl : SortedLt Note.lt s.notes := by
    refine List.Pairwise.imp_of_mem ?_ hs
    intro a b ha hb hnl
    by_contra hc
    have hc' : Note.lt b a = true := by simpa using hc
    exact hnl ((C05_lt_lex b a (hsep b (by simp [hb]) a (by simp [ha]))).1 hc')
  have := insortLeft_sorted Note.lt s.notes n hw hsl
  simp only [MSeq.insert, notes_adjustTotal, notes_setVisible]
  refine List.Pairwise.imp_of_mem ?_ this
  intro a b ha hb hlt hlex
  rw [(insortLeft_perm _ _ _).mem_iff] at ha hb
  rw [(C05_lt_lex b a (hsep b hb a ha)).2 hlex] at hlt
  cases hlt

/-- C22 is false for nearly simultaneous notes: inserting into a sorted sequence gives an unsorted
one. -/
theorem C22_insert_unsorted : ∃ (s : MSeq) (n : Note), SortedLt Note.lt s.notes ∧
    (∀ m ∈ n :: s.notes, m.Valid) ∧ ¬ SortedLt Note.lt (s.insert n).notes := by
  refine ⟨MSeq.mk' [{ exNote with start := 16/10000000, pitch := 60 },
    { exNote with start := 8/10000000, pitch := 61 }] { num := 0, name := "Piano", isDrum := false },
    { exNote with start := 0, pitch := 62 }, ?_, ?_, ?_⟩
  · unfold SortedLt; decide +kernel
  · intro m hm
    have hm' : m = { exNote with start := 0, pitch := 62 } ∨
      m = { exNote with start := 16/10000000, pitch := 60 } ∨
      m = { exNote with start := 8/10000000, pitch := 61 } := by simpa using hm
    rcases hm' with rfl | rfl | rfl <;> constructor <;> decide +kernel
  · unfold SortedLt; decide +kernel

/-! ## C23 truncate -/

/-- C23: `truncate` returns exactly the notes ending by the bound, in order. -/
theorem C23_truncate (s : MSeq) (t : ℚ) :
    (s.truncate t).notes = s.notes.filter (fun n => decide (n.stop ≤ t)) ∧
    (s.truncate t).instr = s.instr ∧ (s.truncate t).total = max 0 (min s.total t) ∧
    (∀ n, n ∈ (s.truncate t).notes ↔ n ∈ s.notes ∧ n.stop ≤ t) := by
  have h : (s.truncate t).notes = s.notes.filter (fun n => decide (n.stop ≤ t)) := by
    simp [MSeq.truncate]
  refine ⟨h, by simp [MSeq.truncate], by simp [MSeq.truncate], ?_⟩
  intro n
  rw [h, List.mem_filter]
  simp

/-- C23: truncating twice is truncating at the smaller bound, and the total time still covers every
note. -/
theorem C23_truncate_twice (s : MSeq) (t u : ℚ) (hs : Spec.Covers s) (ht : 0 ≤ t) (hu : 0 ≤ u) :
    (s.truncate t).truncate u = s.truncate (min t u) ∧ Spec.Covers (s.truncate t) := by
  constructor
  · unfold MSeq.truncate
    simp only [notes_setTotal, notes_mk', instr_setTotal, instr_mk', total_setTotal, List.filter_filter]
    have e1 : (s.notes.filter (fun n => decide (n.stop ≤ u) && decide (n.stop ≤ t)))
        = s.notes.filter (fun n => decide (n.stop ≤ min t u)) := by
      apply List.filter_congr
      intro n _
      rw [Bool.eq_iff_iff]
      simp only [Bool.and_eq_true, decide_eq_true_eq, le_min_iff]
      tauto
    have e2 : min (max 0 (min s.total t)) u = min s.total (min t u) := by
      rw [max_eq_right (le_min hs.1 ht), min_assoc]
    rw [e1, e2]
  · refine ⟨le_max_left _ _, ?_⟩
    intro n hn
    have := ((C23_truncate s t).2.2.2 n).1 hn
    rw [(C23_truncate s t).2.2.1]
    exact le_trans (le_min (hs.2 n this.1) this.2) (le_max_right _ _)

example : (exSeq.truncate 2).notes = [exNote] ∧ (exSeq.truncate 2).total = 2 := by decide +kernel

/-- C23 is false about the receiver's other attributes: the truncated sequence has the default
resolution, whatever the receiver's was. -/
theorem C23_truncate_resolution (s : MSeq) (t : ℚ) : (s.truncate t).resolution = 220 := rfl

/-! ## C80 cut -/

/-- C80: `cut_in_place(k)` keeps the first `k` notes (Python slice) and its total time is the
largest end among them. -/
theorem C80_cut_in_place (s : MSeq) (k : Nat) :
    (s.cutInPlace k).notes = s.notes.take k ∧
    (s.cutInPlace k).total = max 0 (maxEnd (s.notes.take k)) := by
  have h : pyTake s.notes (k : Int) = s.notes.take k := by
    unfold pyTake; rw [if_pos (by omega)]; simp
  have hn : (s.cutInPlace k).notes = s.notes.take k := by
    unfold MSeq.cutInPlace; simp [h]
  refine ⟨hn, ?_⟩
  rw [← hn]; rfl

/-- C80: `cut(k)` raises IndexError exactly when nothing remains; otherwise it returns the first `k`
notes, with the total time cut down to the end of the last of them. -/
theorem C80_cut (s : MSeq) (k : Nat) :
    (s.cut k = .error .index ↔ s.notes = [] ∨ k = 0) ∧
    (∀ r, s.cut k = .ok r → r.notes = s.notes.take k ∧ r.instr = s.instr ∧
      ∃ last, (s.notes.take k).getLast? = some last ∧ r.total = max 0 (min s.total last.stop)) := by
  have h : pyTake s.notes (k : Int) = s.notes.take k := by
    unfold pyTake; rw [if_pos (by omega)]; simp
  unfold MSeq.cut
  simp only [h]
  cases hl : (s.notes.take k).getLast? with
  | none =>
    rw [List.getLast?_eq_none_iff] at hl
    simp only [true_iff]
    refine ⟨?_, by simp⟩
    rw [List.take_eq_nil_iff] at hl
    tauto
  | some m =>
    have hne : s.notes.take k ≠ [] := by intro he; rw [he] at hl; simp at hl
    rw [Ne, List.take_eq_nil_iff] at hne
    refine ⟨⟨fun h => (by cases h), fun h => absurd h (by tauto)⟩, ?_⟩
    rintro r ⟨⟩
    simp

/-- C80 is false for the total time of `cut`: it is the end of the LAST kept note, so an earlier
long note may end after the total time. -/
theorem C80_cut_total_too_small : ∃ (s r : MSeq), Spec.Covers s ∧ s.cut 2 = .ok r ∧ ¬ Spec.Covers r := by
  refine ⟨MSeq.mk' [{ exNote with stop := 10 }, { exNote with start := 1, stop := 2 }]
    { num := 0, name := "Piano", isDrum := false }, _, ?_, rfl, ?_⟩
  · have := C19_total_time_covers id [{ exNote with stop := 10 }, { exNote with start := 1, stop := 2 }]
      { num := 0, name := "Piano", isDrum := false } 220
      (Or.inr ⟨{ exNote with stop := 10 }, by simp, by decide +kernel⟩) []
    exact this
  · intro h
    have := h.2 { exNote with stop := 10 } (by decide +kernel)
    exact absurd this (by decide +kernel)

/-! ## C24 slice -/

theorem sliceGo_eq (a b : ℚ) (l : List Note) (acc : MSeq)
    (hv : ∀ n ∈ l, n.start < n.stop ∧ 0 ≤ n.start ∧ n.instrument = acc.instr.num ∧
      n.isDrum = acc.instr.isDrum) :
    ∃ r, sliceGo a b l acc = .ok r ∧
      r.notes = acc.notes ++ l.filter (fun n => decide (a ≤ n.start ∧ n.start < b)) ∧
      r.instr = acc.instr ∧ r.resolution = acc.resolution := by
  induction l generalizing acc with
  | nil => exact ⟨acc, rfl, by simp, rfl, rfl⟩
  | cons n rest ih =>
    obtain ⟨h1, h2, h3, h4⟩ := hv n (by simp)
    rw [sliceGo]
    split_ifs with hc
    · obtain ⟨r, hr, hn, hi, hres⟩ := ih acc (fun m hm => hv m (by simp [hm]))
      refine ⟨r, hr, ?_, hi, hres⟩
      rw [hn, List.filter_cons_of_neg]
      simp only [decide_eq_true_eq, not_and, not_lt]
      rcases hc with hc | hc
      · intro h; linarith
      · intro _; exact hc
    · simp only [not_or, not_lt, ge_iff_le, not_le] at hc
      have hm : n.start < min n.stop b := lt_min h1 hc.2
      rw [(setStop_ok_iff n _ _).2 ⟨by linarith, hm, rfl⟩]
      obtain ⟨acc', hacc⟩ := (C20_add_note_raises_iff acc n).2.2 h3
      obtain ⟨hnn, _, _, hii⟩ := C20_add_note_appends acc acc' n h4 hacc
      have hres' := (addNote_ok acc acc' n hacc).2.2.2.2
      simp only [hacc]
      obtain ⟨r, hr, hn, hi, hres⟩ := ih acc' (fun m hm => by
        rw [hii]; exact hv m (by simp [hm]))
      refine ⟨r, hr, ?_, by rw [hi, hii], by rw [hres, hres']⟩
      rw [hn, hnn, List.filter_cons_of_pos (by simpa using hc)]
      simp

/-- C24: on a sequence whose notes carry its instrument number and drum flag and have
`0 ≤ start < end`, `slice(a, b)` returns, in order, exactly the notes with `a ≤ start < b`, and a
total time of at most `b`. The ends are NOT clipped (`C24_slice_not_clipped`). -/
theorem C24_slice_window (s : MSeq) (a b : ℚ)
    (hv : ∀ n ∈ s.notes, n.start < n.stop ∧ 0 ≤ n.start ∧ n.instrument = s.instr.num ∧
      n.isDrum = s.instr.isDrum) :
    ∃ r, s.slice a b = .ok r ∧
      r.notes = s.notes.filter (fun n => decide (a ≤ n.start ∧ n.start < b)) ∧
      r.instr = s.instr ∧ r.resolution = s.resolution ∧ r.total = max 0 (min s.total b) := by
  obtain ⟨r, hr, hn, hi, hres⟩ := sliceGo_eq a b s.notes s.cloneEmpty hv
  refine ⟨r.setTotal (min s.total b), ?_, ?_, hi, hres, rfl⟩
  · unfold MSeq.slice
    simp [hr]
  · rw [notes_setTotal, hn]
    have : s.cloneEmpty.notes = [] := by
      unfold MSeq.cloneEmpty MSeq.notes MSeq.empty MSeq.mk'
      simp
    rw [this, List.nil_append]

/-- C24 is false about clipping: every note that starts in the window and ends after it is returned
with its original end, and the sequence returned has a total time smaller than that end. -/
theorem C24_slice_not_clipped (s : MSeq) (a b : ℚ) (n : Note)
    (hv : ∀ n ∈ s.notes, n.start < n.stop ∧ 0 ≤ n.start ∧ n.instrument = s.instr.num ∧
      n.isDrum = s.instr.isDrum)
    (hn : n ∈ s.notes) (h1 : a ≤ n.start) (h2 : n.start < b) (h3 : b < n.stop) :
    ∃ r, s.slice a b = .ok r ∧ n ∈ r.notes ∧ b < n.stop ∧ r.total < n.stop := by
  obtain ⟨r, hr, hnn, _, _, ht⟩ := C24_slice_window s a b hv
  refine ⟨r, hr, ?_, h3, ?_⟩
  · rw [hnn, List.mem_filter]
    exact ⟨hn, by simpa using ⟨h1, h2⟩⟩
  · rw [ht]
    have := (hv n hn).2.1
    exact max_lt (by linarith) (lt_of_le_of_lt (min_le_right _ _) h3)

example : (exSeq.slice (1/2) 2).map (fun r => (r.notes, r.total)) =
    .ok ([{ exNote with start := 1, stop := 3, pitch := 64 }], 2) := by decide +kernel

theorem sliceGo_foreign (a b : ℚ) (l : List Note) (acc : MSeq)
    (hv : ∀ n ∈ l, n.start < n.stop ∧ 0 ≤ n.start)
    (hf : ∃ n ∈ l, a ≤ n.start ∧ n.start < b ∧ n.instrument ≠ acc.instr.num) :
    sliceGo a b l acc = .error .value := by
  induction l generalizing acc with
  | nil => obtain ⟨n, hn, _⟩ := hf; simp at hn
  | cons n rest ih =>
    obtain ⟨h1, h2⟩ := hv n (by simp)
    rw [sliceGo]
    split_ifs with hc
    · refine ih acc (fun m hm => hv m (by simp [hm])) ?_
      obtain ⟨m, hm, ha, hb, hi⟩ := hf
      rcases List.mem_cons.1 hm with rfl | hm
      · rcases hc with hc | hc
        · exact absurd ha (not_le.2 hc)
        · exact absurd hb (not_lt.2 hc)
      · exact ⟨m, hm, ha, hb, hi⟩
    · simp only [not_or, not_lt, ge_iff_le, not_le] at hc
      have hm : n.start < min n.stop b := lt_min h1 hc.2
      rw [(setStop_ok_iff n _ _).2 ⟨by linarith, hm, rfl⟩]
      by_cases hi : n.instrument = acc.instr.num
      · obtain ⟨acc', hacc⟩ := (C20_add_note_raises_iff acc n).2.2 hi
        have hii := (addNote_ok acc acc' n hacc).2.2.2.1
        simp only [hacc]
        refine ih acc' (fun m hm => hv m (by simp [hm])) ?_
        obtain ⟨m, hm, ha, hb, hx⟩ := hf
        rcases List.mem_cons.1 hm with rfl | hm
        · exact absurd hi hx
        · exact ⟨m, hm, ha, hb, by rw [hii]; exact hx⟩
      · simp only [(C20_add_note_raises_iff acc n).1.2 hi]

/-- C24, exact raise condition: on notes with `0 ≤ start < end`, `slice(a, b)` raises ValueError if a
note that starts in the window carries another instrument number than the sequence; if none does
(notes outside the window may) it succeeds. -/
theorem C24_slice_raises_iff (s : MSeq) (a b : ℚ)
    (hv : ∀ n ∈ s.notes, n.start < n.stop ∧ 0 ≤ n.start ∧ n.isDrum = s.instr.isDrum) :
    (s.slice a b = .error .value ↔
      ∃ n ∈ s.notes, a ≤ n.start ∧ n.start < b ∧ n.instrument ≠ s.instr.num) ∧
    ((∀ n ∈ s.notes, a ≤ n.start → n.start < b → n.instrument = s.instr.num) →
      ∃ r, s.slice a b = .ok r ∧
        r.notes = s.notes.filter (fun n => decide (a ≤ n.start ∧ n.start < b))) := by
  have key : ∀ (l : List Note) (acc : MSeq), (∀ n ∈ l, n.start < n.stop ∧ 0 ≤ n.start ∧ n.isDrum = acc.instr.isDrum) →
      (∀ n ∈ l, a ≤ n.start → n.start < b → n.instrument = acc.instr.num) →
      ∃ r, sliceGo a b l acc = .ok r ∧
        r.notes = acc.notes ++ l.filter (fun n => decide (a ≤ n.start ∧ n.start < b)) := by
    intro l
    induction l with
    | nil => intro acc _ _; exact ⟨acc, rfl, by simp⟩
    | cons n rest ih =>
      intro acc hv hi
      obtain ⟨h1, h2, h4⟩ := hv n (by simp)
      rw [sliceGo]
      split_ifs with hc
      · obtain ⟨r, hr, hn⟩ := ih acc (fun m hm => hv m (by simp [hm])) (fun m hm => hi m (by simp [hm]))
        refine ⟨r, hr, ?_⟩
        rw [hn, List.filter_cons_of_neg]
        simp only [decide_eq_true_eq, not_and, not_lt]
        rcases hc with hc | hc
        · intro h; linarith
        · intro _; exact hc
      · simp only [not_or, not_lt, ge_iff_le, not_le] at hc
        have hm : n.start < min n.stop b := lt_min h1 hc.2
        rw [(setStop_ok_iff n _ _).2 ⟨by linarith, hm, rfl⟩]
        obtain ⟨acc', hacc⟩ := (C20_add_note_raises_iff acc n).2.2 (hi n (by simp) hc.1 hc.2)
        obtain ⟨hnn, _, _, hii⟩ := C20_add_note_appends acc acc' n h4 hacc
        simp only [hacc]
        obtain ⟨r, hr, hn⟩ := ih acc' (fun m hm => by rw [hii]; exact hv m (by simp [hm]))
          (fun m hm => by rw [hii]; exact hi m (by simp [hm]))
        refine ⟨r, hr, ?_⟩
        rw [hn, hnn, List.filter_cons_of_pos (by simpa using hc)]
        simp
  have hok : (∀ n ∈ s.notes, a ≤ n.start → n.start < b → n.instrument = s.instr.num) →
      ∃ r, s.slice a b = .ok r ∧
        r.notes = s.notes.filter (fun n => decide (a ≤ n.start ∧ n.start < b)) := by
    intro h
    obtain ⟨r, hr, hn⟩ := key s.notes s.cloneEmpty hv h
    refine ⟨r.setTotal (min s.total b), by unfold MSeq.slice; simp [hr], ?_⟩
    rw [notes_setTotal, hn]
    have : s.cloneEmpty.notes = [] := by
      unfold MSeq.cloneEmpty MSeq.notes MSeq.empty MSeq.mk'
      simp
    rw [this, List.nil_append]
  refine ⟨⟨fun h => ?_, fun h => ?_⟩, hok⟩
  · by_contra hc
    push Not at hc
    obtain ⟨r, hr, _⟩ := hok hc
    rw [h] at hr; cases hr
  · unfold MSeq.slice
    simp [sliceGo_foreign a b s.notes s.cloneEmpty (fun n hn => ⟨(hv n hn).1, (hv n hn).2.1⟩) h]

/-- C24: a note of another instrument inside the window makes the whole slice raise. -/
theorem C24_slice_foreign_note : ∃ s : MSeq, s.slice 0 1 = .error .value ∧
    s.notes = [{ exNote with instrument := 7 }] :=
  ⟨MSeq.mk' [{ exNote with instrument := 7 }] { num := 0, name := "Piano", isDrum := false },
    by decide +kernel⟩

/-! ## C25 shift -/

/-- C25: `shift_times` on a sequence that has an unquantized note moves all notes by `d`. -/
theorem C25_shift (s : MSeq) (d : ℚ) (h : ∃ n ∈ s.notes, n.isQuantized = false) :
    ∃ r, s.shiftTimes d = .ok r ∧ r.notes = s.notes.map (fun n => n.shift d) ∧
      r.total = max 0 (s.total + d) ∧ r.instr = s.instr := by
  have hq : s.isQuantized = false := by
    unfold MSeq.isQuantized
    rw [List.all_eq_false]
    obtain ⟨n, hn, hf⟩ := h
    exact ⟨n, hn, by simp [hf]⟩
  unfold MSeq.shiftTimes
  rw [hq]
  exact ⟨_, rfl, by simp, rfl, by simp⟩

/-- C25: the inverse shift restores the sequence, provided the first shift does not push the
total time below 0. Boundary: offsets below `-total_time` (`C25_shift_not_undone`), and empty
sequences (`C25_shift_empty_raises`). -/
theorem C25_shift_undo (s r : MSeq) (d : ℚ) (ht : 0 ≤ s.total) (hd : 0 ≤ s.total + d)
    (h : s.shiftTimes d = .ok r) : r.shiftTimes (-d) = .ok s := by
  unfold MSeq.shiftTimes at h
  split_ifs at h with hq
  cases h
  have e : (s.notes.map (·.shift d)).map (·.shift (-d)) = s.notes := by
    rw [List.map_map]
    conv_rhs => rw [← List.map_id s.notes]
    apply List.map_congr_left
    intro n _
    exact (C10_shift_laws n d 0).2.2.2.1
  unfold MSeq.shiftTimes
  have hq' : (MSeq.setTotal (s.setVisible (s.notes.map (·.shift d))) (s.total + d)).isQuantized = false := by
    unfold MSeq.isQuantized at hq ⊢
    rw [notes_setTotal, notes_setVisible, List.all_map]
    simpa [Function.comp_def, Note.shift, Note.isQuantized] using hq
  rw [hq', notes_setTotal, notes_setVisible, e, total_setTotal, max_eq_right hd]
  simp only [Bool.false_eq_true, if_false]
  congr 1
  unfold MSeq.setTotal MSeq.setVisible
  cases s with
  | mk notes_ drums_ instr total ccs bends resolution totalSteps =>
    simp only [] at ht
    cases hi : instr.isDrum <;> simp [MSeq.notes, hi, max_eq_right ht]

/-- C25 is false for large negative shifts: the total time is clamped at 0 and not restored. -/
theorem C25_shift_not_undone : ∃ r, exSeq.shiftTimes (-5) = .ok r ∧
    (∃ r2, r.shiftTimes 5 = .ok r2 ∧ r2.total = 5) ∧ exSeq.total = 3 :=
  ⟨_, rfl, ⟨_, rfl, by decide +kernel⟩, by decide +kernel⟩

/-- C25: on an empty sequence, and on one whose notes are all quantized, `shift_times` raises. -/
theorem C25_shift_empty_raises (s : MSeq) (d : ℚ) (h : ∀ n ∈ s.notes, n.isQuantized = true) :
    s.shiftTimes d = .error .value := by
  unfold MSeq.shiftTimes MSeq.isQuantized
  rw [if_pos (by simpa [List.all_eq_true] using h)]

example : exSeq.shiftTimes 2 = .ok (MSeq.mk' [{ exNote with start := 2, stop := 3 },
    { exNote with start := 3, stop := 5, pitch := 64 }] { num := 0, name := "Piano", isDrum := false }) := by
  decide +kernel

end NGC
