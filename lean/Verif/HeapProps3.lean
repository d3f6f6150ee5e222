import Verif.HeapProps2

/-!
C119: treating notes as values (`Seq.lean`) is right as long as no note object is shared.
-/

namespace NGC

open Heap

/-! ## Helpers: maps commute with the list operations -/

theorem bisectGo_map {α β : Type} (f : α → β) (a : List α) (g : β → Bool) :
    ∀ fuel lo hi, bisectGo (a.map f) g fuel lo hi = bisectGo a (fun x => g (f x)) fuel lo hi := by
  intro fuel
  induction fuel with
  | zero => intro lo hi; rfl
  | succ n ih =>
    intro lo hi
    unfold bisectGo
    rw [List.getElem?_map]
    cases a[(lo + hi) / 2]? with
    | none => rfl
    | some y => simp only [Option.map_some, ih]

theorem insortLeft_map {α β : Type} (f : α → β) (lt : β → β → Bool) (l : List α) (x : α) :
    (insortLeft (fun a b => lt (f a) (f b)) l x).map f = insortLeft lt (l.map f) (f x) := by
  unfold insortLeft pyInsert bisectLeft
  rw [bisectGo_map, List.length_map]
  simp

theorem insertByKey_map {α β : Type} (f : α → β) (key : β → ℚ) (x : α) (l : List α) :
    (insertByKey (fun a => key (f a)) x l).map f = insertByKey key (f x) (l.map f) := by
  induction l with
  | nil => rfl
  | cons y ys ih =>
    simp only [insertByKey, List.map_cons]
    split
    · rfl
    · rw [List.map_cons, ih]

theorem sortByKey_map {α β : Type} (f : α → β) (key : β → ℚ) (l : List α) :
    (sortByKey (fun a => key (f a)) l).map f = sortByKey key (l.map f) := by
  induction l with
  | nil => rfl
  | cons y ys ih => simp only [sortByKey, List.map_cons, insertByKey_map, ih]

theorem pyTake_map {α β : Type} (f : α → β) (l : List α) (k : Int) : (pyTake l k).map f = pyTake (l.map f) k := by
  unfold pyTake
  split <;> simp [List.map_take]

theorem sortByKey_perm' {α : Type} (key : α → ℚ) (l : List α) : (sortByKey key l).Perm l := by
  have ins : ∀ (x : α) (l : List α), (insertByKey key x l).Perm (x :: l) := by
    intro x l
    induction l with
    | nil => exact List.Perm.refl _
    | cons y ys ih =>
      unfold insertByKey
      split
      · exact List.Perm.refl _
      · exact (ih.cons y).trans (List.Perm.swap x y ys)
  induction l with
  | nil => exact List.Perm.refl _
  | cons x xs ih => exact (ins _ _).trans (ih.cons x)

theorem pyTake_sublist {α : Type} (l : List α) (k : Int) : (pyTake l k).Sublist l := by
  unfold pyTake; split <;> exact List.take_sublist _ _

/-! ## The relation -/

/-- Sequence `s` of the heap looks like the value `m`, and owns its notes: it has two lists, and no note object
occurs in them twice. -/
structure Spec.Shows (h : Heap) (s : Nat) (m : MSeq) : Prop where
  wf : h.WF
  lt : s < h.nS
  two : (h.seq s).notes ≠ (h.seq s).drums
  once : (h.list (h.seq s).notes ++ h.list (h.seq s).drums).Nodup
  notes : (h.list (h.seq s).notes).map h.note = m.notes_
  drums : (h.list (h.seq s).drums).map h.note = m.drums_
  instr : h.info s = m.instr
  total : h.total s = m.total

/-- The operations on the heap; note arguments are new note objects. -/
def Spec.heapOp (h : Heap) (s : Nat) : SeqOp → Heap
  | .append n => (h.allocNotes [n]).append s [h.nN]
  | .extend l => (h.allocNotes l).append s (List.range' h.nN l.length)
  | .addNote n => (h.allocNotes [n]).addNote s h.nN
  | .insert n => (h.allocNotes [n]).insert s h.nN
  | .setNotes l => ((h.allocNotes l).allocList (List.range' h.nN l.length)).setNotesRef s h.nL
  | .stretch k => h.stretch s k
  | .shiftTimes d => h.shiftTimes s d
  | .cutInPlace k => h.cutInPlace s k
  | .quantize sps a => h.quantize s sps a
  | .asNoteSeq => h.asNoteSeq s
  | .merge _ => h

/-- `merge` takes another sequence; see `C118_merge_shares`. -/
def Spec.NotMerge : SeqOp → Prop
  | .merge _ => False
  | _ => True

open Spec (Shows heapOp NotMerge)

section
variable {h : Heap} {s : Nat} {m : MSeq}

theorem Spec.Shows.drum_iff (x : Shows h s m) : (h.info s).isDrum = m.instr.isDrum := by rw [x.instr]

theorem Spec.Shows.view (x : Shows h s m) : h.view s = m.notes := by
  unfold Heap.view Heap.refs Heap.vis MSeq.notes
  rw [x.instr]
  split
  · exact x.drums
  · exact x.notes

theorem Spec.Shows.refs_nodup (x : Shows h s m) : (h.refs s).Nodup := by
  unfold Heap.refs Heap.vis
  split
  · exact (List.nodup_append.1 x.once).2.1
  · exact (List.nodup_append.1 x.once).1

theorem Spec.Shows.refs_lt (x : Shows h s m) : ∀ r ∈ h.refs s, r < h.nN := by
  have w := x.wf.seqs s x.lt
  unfold Heap.refs Heap.vis
  split
  · exact x.wf.lists _ w.2.1
  · exact x.wf.lists _ w.1

/-- New note objects are not visible. -/
theorem Spec.Shows.allocNotes (x : Shows h s m) (l : List Note) : Shows (h.allocNotes l) s m := by
  have w := x.wf.seqs s x.lt
  have e : ∀ l' < h.nL, (h.list l').map (h.allocNotes l).note = (h.list l').map h.note := by
    intro l' hl'
    apply List.map_congr_left
    intro r hr
    have := x.wf.lists l' hl' r hr
    simp [Heap.allocNotes, this]
  refine ⟨⟨x.wf.seqs, fun l' hl' r hr => ?_⟩, x.lt, x.two, x.once, ?_, ?_, x.instr, x.total⟩
  · have := x.wf.lists l' hl' r hr; show r < h.nN + _; omega
  · exact (e _ w.1).trans x.notes
  · exact (e _ w.2.1).trans x.drums

theorem allocNotes_map (h : Heap) (l : List Note) :
    (List.range' h.nN l.length).map (h.allocNotes l).note = l := by
  apply List.ext_getElem
  · simp
  · intro i h1 h2
    simp [Heap.allocNotes, List.getElem?_eq_getElem h2]

/-- Changing the total time. -/
theorem Spec.Shows.setTotal (x : Shows h s m) (v : ℚ) : Shows (h.setTotal s v) s (m.setTotal v) := by
  have es : ∀ y, ((h.setTotal s v).seq y).notes = (h.seq y).notes ∧
      ((h.setTotal s v).seq y).drums = (h.seq y).drums ∧ ((h.setTotal s v).seq y).instr = (h.seq y).instr := by
    intro y
    by_cases e : y = s
    · subst e; simp [Heap.setTotal, Heap.setSeq]
    · simp [Heap.setTotal, Heap.setSeq, e]
  obtain ⟨e1, e2, e3⟩ := es s
  refine ⟨⟨?_, x.wf.lists⟩, x.lt, ?_, ?_, ?_, ?_, ?_, ?_⟩
  · intro y hy; obtain ⟨f1, f2, f3⟩ := es y; rw [f1, f2, f3]; exact x.wf.seqs y hy
  · rw [e1, e2]; exact x.two
  · rw [e1, e2]; exact x.once
  · rw [e1]; exact x.notes
  · rw [e2]; exact x.drums
  · unfold Heap.info; rw [e3]; exact x.instr
  · simp [Heap.total, Heap.setTotal, Heap.setSeq, MSeq.setTotal]

/-- In-place change of the visible list. -/
theorem Spec.Shows.setVis (x : Shows h s m) (rs : List Nat) (hlt : ∀ r ∈ rs, r < h.nN) (hd : rs.Nodup)
    (hdis : ∀ r ∈ rs, r ∈ h.refs s ∨ ∀ l < h.nL, r ∉ h.list l) :
    Shows (h.setList (h.vis s) rs) s (m.setVisible (rs.map h.note)) := by
  have w := x.wf.seqs s x.lt
  have hwf : (h.setList (h.vis s) rs).WF := by
    refine ⟨x.wf.seqs, ?_⟩
    intro l hl r hr
    have hr' : r ∈ (if l = h.vis s then rs else h.list l) := hr
    split at hr'
    · exact hlt r hr'
    · exact x.wf.lists l hl r hr'
  have key : ∀ r ∈ rs, ∀ l < h.nL, l ≠ h.vis s → (l = (h.seq s).notes ∨ l = (h.seq s).drums) → r ∉ h.list l := by
    intro r hr l hl hne hl2 hc
    rcases hdis r hr with h1 | h1
    · unfold Heap.refs at h1
      have := List.nodup_append.1 x.once
      unfold Heap.vis at h1 hne
      split at h1 <;> rename_i d
      · rw [if_pos d] at hne
        rcases hl2 with rfl | rfl
        · exact this.2.2 r hc r h1 rfl
        · exact hne rfl
      · rw [if_neg d] at hne
        rcases hl2 with rfl | rfl
        · exact hne rfl
        · exact this.2.2 r h1 r hc rfl
    · exact h1 l hl hc
  by_cases d : (h.info s).isDrum = true
  · have ev : h.vis s = (h.seq s).drums := by unfold Heap.vis; rw [if_pos d]
    have dm : m.instr.isDrum = true := by rw [← x.drum_iff]; exact d
    rw [ev] at hwf key ⊢
    have e1 : (h.setList (h.seq s).drums rs).list (h.seq s).notes = h.list (h.seq s).notes := if_neg x.two
    have e2 : (h.setList (h.seq s).drums rs).list (h.seq s).drums = rs := if_pos rfl
    refine ⟨hwf, x.lt, x.two, ?_, ?_, ?_, ?_, ?_⟩
    · show ((h.setList (h.seq s).drums rs).list (h.seq s).notes ++
        (h.setList (h.seq s).drums rs).list (h.seq s).drums).Nodup
      rw [e1, e2, List.nodup_append]
      refine ⟨(List.nodup_append.1 x.once).1, hd, ?_⟩
      intro a ha b hb e
      subst e
      exact key a hb _ w.1 x.two (.inl rfl) ha
    · show ((h.setList (h.seq s).drums rs).list (h.seq s).notes).map h.note = _
      rw [e1, x.notes]; simp [MSeq.setVisible, dm]
    · show ((h.setList (h.seq s).drums rs).list (h.seq s).drums).map h.note = _
      rw [e2]; simp [MSeq.setVisible, dm]
    · show h.info s = _
      rw [x.instr]; simp [MSeq.setVisible, dm]
    · show h.total s = _
      rw [x.total]; simp [MSeq.setVisible, dm]
  · have ev : h.vis s = (h.seq s).notes := by unfold Heap.vis; rw [if_neg d]
    have dm : m.instr.isDrum = false := by rw [← x.drum_iff]; simpa using d
    rw [ev] at hwf key ⊢
    have e1 : (h.setList (h.seq s).notes rs).list (h.seq s).drums = h.list (h.seq s).drums := if_neg x.two.symm
    have e2 : (h.setList (h.seq s).notes rs).list (h.seq s).notes = rs := if_pos rfl
    refine ⟨hwf, x.lt, x.two, ?_, ?_, ?_, ?_, ?_⟩
    · show ((h.setList (h.seq s).notes rs).list (h.seq s).notes ++
        (h.setList (h.seq s).notes rs).list (h.seq s).drums).Nodup
      rw [e1, e2, List.nodup_append]
      refine ⟨hd, (List.nodup_append.1 x.once).2.1, ?_⟩
      intro a ha b hb e
      subst e
      exact key a ha _ w.2.1 x.two.symm (.inr rfl) hb
    · show ((h.setList (h.seq s).notes rs).list (h.seq s).notes).map h.note = _
      rw [e2]; simp [MSeq.setVisible, dm]
    · show ((h.setList (h.seq s).notes rs).list (h.seq s).drums).map h.note = _
      rw [e1, x.drums]; simp [MSeq.setVisible, dm]
    · show h.info s = _
      rw [x.instr]; simp [MSeq.setVisible, dm]
    · show h.total s = _
      rw [x.total]; simp [MSeq.setVisible, dm]

/-- A new list object becomes the visible list. -/
theorem Spec.Shows.newVis (x : Shows h s m) (rs : List Nat) (hlt : ∀ r ∈ rs, r < h.nN) (hd : rs.Nodup)
    (hdis : ∀ r ∈ rs, r ∈ h.refs s ∨ ∀ l < h.nL, r ∉ h.list l) :
    Shows ((h.allocList rs).setNotesRef s h.nL) s (m.setNotes (rs.map h.note)) := by
  have w := x.wf.seqs s x.lt
  have hno := List.nodup_append.1 x.once
  have hne1 : (h.seq s).notes ≠ h.nL := by omega
  have hne2 : (h.seq s).drums ≠ h.nL := by omega
  unfold Heap.setNotesRef
  dsimp only
  have ev : ((h.allocList rs).list h.nL).map (h.allocList rs).note = rs.map h.note := by
    simp [Heap.allocList]
  rw [ev]
  unfold MSeq.setNotes
  refine Shows.setTotal ?_ _
  have eo : ∀ l < h.nL, (h.allocList rs).list l = h.list l := by
    intro l hl
    have : l ≠ h.nL := by omega
    simp [Heap.allocList, this]
  have en : (h.allocList rs).list h.nL = rs := by simp [Heap.allocList]
  have hwf : ∀ o : SObj, o.notes < h.nL + 1 → o.drums < h.nL + 1 → o.instr < h.nI →
      ((h.allocList rs).setSeq s o).WF := by
    intro o o1 o2 o3
    refine ⟨?_, ?_⟩
    · intro y hy
      have hy' : y < h.nS := hy
      show (if y = s then o else h.seq y).notes < h.nL + 1 ∧ (if y = s then o else h.seq y).drums < h.nL + 1 ∧
        (if y = s then o else h.seq y).instr < h.nI
      split
      · exact ⟨o1, o2, o3⟩
      · have := x.wf.seqs y hy'; exact ⟨by omega, by omega, this.2.2⟩
    · intro l hl r hr
      have hl' : l < h.nL + 1 := hl
      have hr' : r ∈ (h.allocList rs).list l := hr
      by_cases e : l = h.nL
      · subst e; rw [en] at hr'; exact hlt r hr'
      · rw [eo l (by omega)] at hr'; exact x.wf.lists l (by omega) r hr'
  by_cases d : (h.info s).isDrum = true
  · have d' : ((h.allocList rs).info s).isDrum = true := d
    rw [if_pos d']
    have dm : m.instr.isDrum = true := by rw [← x.drum_iff]; exact d
    have ev : h.refs s = h.list (h.seq s).drums := by unfold Heap.refs Heap.vis; rw [if_pos d]
    have es : ((h.allocList rs).setSeq s { (h.allocList rs).seq s with drums := h.nL }).seq s =
      { h.seq s with drums := h.nL } := by simp [Heap.setSeq, Heap.allocList]
    refine ⟨hwf _ (by show (h.seq s).notes < _; omega) (by show h.nL < _; omega) w.2.2, x.lt, ?_, ?_, ?_, ?_, ?_, ?_⟩
    · rw [es]; exact hne1
    · rw [es]
      show ((h.allocList rs).list (h.seq s).notes ++ (h.allocList rs).list h.nL).Nodup
      rw [eo _ w.1, en, List.nodup_append]
      refine ⟨hno.1, hd, ?_⟩
      intro a ha b hb e
      subst e
      rcases hdis a hb with h1 | h1
      · rw [ev] at h1; exact hno.2.2 a ha a h1 rfl
      · exact h1 _ w.1 ha
    · rw [es]
      show ((h.allocList rs).list (h.seq s).notes).map h.note = _
      rw [eo _ w.1, x.notes]; simp [MSeq.setVisible, dm]
    · rw [es]
      show ((h.allocList rs).list h.nL).map h.note = _
      rw [en]; simp [MSeq.setVisible, dm]
    · unfold Heap.info; rw [es]
      show h.info s = _
      rw [x.instr]; simp [MSeq.setVisible, dm]
    · unfold Heap.total; rw [es]
      show h.total s = _
      rw [x.total]; simp [MSeq.setVisible, dm]
  · have d' : ¬ ((h.allocList rs).info s).isDrum = true := d
    rw [if_neg d']
    have dm : m.instr.isDrum = false := by rw [← x.drum_iff]; simpa using d
    have ev : h.refs s = h.list (h.seq s).notes := by unfold Heap.refs Heap.vis; rw [if_neg d]
    have es : ((h.allocList rs).setSeq s { (h.allocList rs).seq s with notes := h.nL }).seq s =
      { h.seq s with notes := h.nL } := by simp [Heap.setSeq, Heap.allocList]
    refine ⟨hwf _ (by show h.nL < _; omega) (by show (h.seq s).drums < _; omega) w.2.2, x.lt, ?_, ?_, ?_, ?_, ?_, ?_⟩
    · rw [es]; exact hne2.symm
    · rw [es]
      show ((h.allocList rs).list h.nL ++ (h.allocList rs).list (h.seq s).drums).Nodup
      rw [eo _ w.2.1, en, List.nodup_append]
      refine ⟨hd, hno.2.1, ?_⟩
      intro a ha b hb e
      subst e
      rcases hdis a ha with h1 | h1
      · rw [ev] at h1; exact hno.2.2 a h1 a hb rfl
      · exact h1 _ w.2.1 hb
    · rw [es]
      show ((h.allocList rs).list h.nL).map h.note = _
      rw [en]; simp [MSeq.setVisible, dm]
    · rw [es]
      show ((h.allocList rs).list (h.seq s).drums).map h.note = _
      rw [eo _ w.2.1, x.drums]; simp [MSeq.setVisible, dm]
    · unfold Heap.info; rw [es]
      show h.info s = _
      rw [x.instr]; simp [MSeq.setVisible, dm]
    · unfold Heap.total; rw [es]
      show h.total s = _
      rw [x.total]; simp [MSeq.setVisible, dm]

/-- In-place change of every visible note. -/
theorem Spec.Shows.forEach (x : Shows h s m) (f : Note → Note) :
    Shows (Heap.forEach f (h.refs s) h) s (m.setVisible (m.notes.map f)) := by
  have hno := List.nodup_append.1 x.once
  rw [forEach_eq]
  by_cases d : (h.info s).isDrum = true
  · have ev : h.refs s = h.list (h.seq s).drums := by unfold Heap.refs Heap.vis; rw [if_pos d]
    have dm : m.instr.isDrum = true := by rw [← x.drum_iff]; exact d
    have mn : m.notes = m.drums_ := by unfold MSeq.notes; rw [if_pos dm]
    rw [ev, mn]
    refine ⟨⟨x.wf.seqs, x.wf.lists⟩, x.lt, x.two, x.once, ?_, ?_, ?_, ?_⟩
    · show (h.list (h.seq s).notes).map (fun r => f^[(h.list (h.seq s).drums).count r] (h.note r)) = _
      have : (m.setVisible (m.drums_.map f)).notes_ = m.notes_ := by simp [MSeq.setVisible, dm]
      rw [this, ← x.notes]
      apply List.map_congr_left
      intro r hr
      rw [List.count_eq_zero_of_not_mem (fun hc => hno.2.2 r hr r hc rfl)]; rfl
    · show (h.list (h.seq s).drums).map (fun r => f^[(h.list (h.seq s).drums).count r] (h.note r)) = _
      have : (m.setVisible (m.drums_.map f)).drums_ = m.drums_.map f := by simp [MSeq.setVisible, dm]
      rw [this, ← x.drums, List.map_map]
      apply List.map_congr_left
      intro r hr
      rw [List.count_eq_one_of_mem hno.2.1 hr]; rfl
    · show h.info s = _
      rw [x.instr]; simp [MSeq.setVisible, dm]
    · show h.total s = _
      rw [x.total]; simp [MSeq.setVisible, dm]
  · have ev : h.refs s = h.list (h.seq s).notes := by unfold Heap.refs Heap.vis; rw [if_neg d]
    have dm : m.instr.isDrum = false := by rw [← x.drum_iff]; simpa using d
    have mn : m.notes = m.notes_ := by unfold MSeq.notes; rw [if_neg (by simp [dm])]
    rw [ev, mn]
    refine ⟨⟨x.wf.seqs, x.wf.lists⟩, x.lt, x.two, x.once, ?_, ?_, ?_, ?_⟩
    · show (h.list (h.seq s).notes).map (fun r => f^[(h.list (h.seq s).notes).count r] (h.note r)) = _
      have : (m.setVisible (m.notes_.map f)).notes_ = m.notes_.map f := by simp [MSeq.setVisible, dm]
      rw [this, ← x.notes, List.map_map]
      apply List.map_congr_left
      intro r hr
      rw [List.count_eq_one_of_mem hno.1 hr]; rfl
    · show (h.list (h.seq s).drums).map (fun r => f^[(h.list (h.seq s).notes).count r] (h.note r)) = _
      have : (m.setVisible (m.notes_.map f)).drums_ = m.drums_ := by simp [MSeq.setVisible, dm]
      rw [this, ← x.drums]
      apply List.map_congr_left
      intro r hr
      rw [List.count_eq_zero_of_not_mem (fun hc => hno.2.2 r hc r hr rfl)]; rfl
    · show h.info s = _
      rw [x.instr]; simp [MSeq.setVisible, dm]
    · show h.total s = _
      rw [x.total]; simp [MSeq.setVisible, dm]

theorem Spec.Shows.adjustTotal (x : Shows h s m) : Shows (h.adjustTotal s) s m.adjustTotal := by
  unfold Heap.adjustTotal MSeq.adjustTotal
  rw [x.view]
  exact x.setTotal _

end

theorem new_fresh {h : Heap} (w : h.WF) (l : List Note) : ∀ r ∈ List.range' h.nN l.length,
    ∀ l' < (h.allocNotes l).nL, r ∉ (h.allocNotes l).list l' := by
  intro r hr l' hl' hc
  have := w.lists l' hl' r hc
  rw [List.mem_range'_1] at hr
  omega

theorem new_lt {h : Heap} (l : List Note) : ∀ r ∈ List.range' h.nN l.length, r < (h.allocNotes l).nN := by
  intro r hr
  rw [List.mem_range'_1] at hr
  exact hr.2

theorem quantizeGo_eq (sps : Int) (a : ℚ) : ∀ (l : List Note) (st : ℚ),
    match l.mapM (fun n => n.quantize sps a) with
    | .error _ => ∃ e, quantizeGo sps a l st = .error e
    | .ok ms => ∃ st', quantizeGo sps a l st = .ok (ms, st') := by
  intro l
  induction l with
  | nil => intro st; exact ⟨st, rfl⟩
  | cons n l ih =>
    intro st
    rw [List.mapM_cons]
    unfold quantizeGo
    cases hq : n.quantize sps a with
    | error e => exact ⟨e, rfl⟩
    | ok q =>
      have := ih (if n.qe > st then n.qe else st)
      cases hm : l.mapM (fun n => n.quantize sps a) with
      | error e =>
        rw [hm] at this
        obtain ⟨e', he'⟩ := this
        refine ⟨e', ?_⟩
        dsimp only
        rw [he']
      | ok ms =>
        rw [hm] at this
        obtain ⟨st', he'⟩ := this
        refine ⟨st', ?_⟩
        dsimp only
        rw [he']

theorem mapM_length {α β : Type} (f : α → Py β) : ∀ (l : List α) (r : List β), l.mapM f = .ok r → r.length = l.length := by
  intro l
  induction l with
  | nil => intro r h; cases h; rfl
  | cons x xs ih =>
    intro r h
    rw [List.mapM_cons] at h
    cases hx : f x with
    | error e => rw [hx] at h; cases h
    | ok y =>
      cases hm : xs.mapM f with
      | error e => rw [hx, hm] at h; cases h
      | ok ys => rw [hx, hm] at h; cases h; simp [ih ys hm]

/-- One operation. -/
theorem heapOp_shows (srt : List Note → List Note) {h : Heap} {s : Nat} {m : MSeq} (x : Shows h s m)
    (hc : m.ccs = []) (op : SeqOp) (hop : NotMerge op) :
    Shows (heapOp h s op) s (op.after srt m) ∧ (op.after srt m).ccs = [] := by
  have ccs_vis : ∀ (m : MSeq) l, (m.setVisible l).ccs = m.ccs := by
    intro m l; unfold MSeq.setVisible; split <;> rfl
  have app : ∀ l : List Note, l ≠ [] →
      Shows ((h.allocNotes l).append s (List.range' h.nN l.length)) s
        ((m.setVisible (m.notes ++ l)).setTotal (max m.total (maxEnd l))) := by
    intro l hl
    have y := x.allocNotes l
    have hr : List.range' h.nN l.length ≠ [] := by
      intro e; apply hl; simpa using e
    unfold Heap.append
    rw [if_neg hr, y.total, allocNotes_map]
    refine Shows.setTotal ?_ _
    have := y.setVis ((h.allocNotes l).refs s ++ List.range' h.nN l.length) ?_ ?_ ?_
    · rw [List.map_append, allocNotes_map] at this
      have ev : ((h.allocNotes l).refs s).map (h.allocNotes l).note = m.notes := y.view
      rw [ev] at this
      exact this
    · intro r hr
      rcases List.mem_append.1 hr with hr | hr
      · exact y.refs_lt r hr
      · exact new_lt l r hr
    · rw [List.nodup_append]
      refine ⟨y.refs_nodup, List.nodup_range', ?_⟩
      intro a ha b hb e
      subst e
      have := x.refs_lt a ha
      rw [List.mem_range'_1] at hb
      omega
    · intro r hr
      rcases List.mem_append.1 hr with hr | hr
      · exact .inl hr
      · exact .inr (new_fresh x.wf l r hr)
  cases op with
  | merge o => exact absurd hop id
  | append n =>
    refine ⟨?_, ?_⟩
    · have := app [n] (by simp)
      exact this
    · show ((m.setVisible _).setTotal _).ccs = []
      simp [MSeq.setTotal, ccs_vis, hc]
  | extend l =>
    by_cases hl : l = []
    · subst hl
      have : Heap.append (h.allocNotes []) s [] = h.allocNotes [] := by unfold Heap.append; rw [if_pos rfl]
      refine ⟨?_, hc⟩
      show Shows ((h.allocNotes []).append s []) s _
      rw [this]; exact x.allocNotes []
    · have e : SeqOp.after srt m (.extend l) =
          (m.setVisible (m.notes ++ l)).setTotal (max m.total (maxEnd l)) := by
        unfold SeqOp.after SeqOp.run MSeq.extend
        simp only [if_neg hl]
      rw [e]
      refine ⟨app l hl, ?_⟩
      simp [MSeq.setTotal, ccs_vis, hc]
  | addNote n =>
    have y := x.allocNotes [n]
    have en : (h.allocNotes [n]).note h.nN = n := by simp [Heap.allocNotes]
    unfold SeqOp.after SeqOp.run MSeq.addNote
    show Shows ((h.allocNotes [n]).addNote s h.nN) s _ ∧ _
    unfold Heap.addNote
    dsimp only
    rw [en, y.instr]
    by_cases hi : n.instrument ≠ m.instr.num
    · rw [if_pos hi, if_pos hi]; exact ⟨y, hc⟩
    · rw [if_neg hi, if_neg hi]
      dsimp only
      have w := x.wf.seqs s x.lt
      have hno := List.nodup_append.1 x.once
      have fr : ∀ l' < h.nL, h.nN ∉ h.list l' := fun l' hl' hc => by
        have := x.wf.lists l' hl' _ hc; omega
      have ys : (h.allocNotes [n]).seq = h.seq := rfl
      have yl : (h.allocNotes [n]).list = h.list := rfl
      have hwf : ∀ l < h.nL, ((h.allocNotes [n]).setList l (h.list l ++ [h.nN])).WF := by
        intro l hl
        refine ⟨x.wf.seqs, ?_⟩
        intro l' hl' r hr
        have hr' : r ∈ (if l' = l then h.list l ++ [h.nN] else h.list l') := hr
        show r < h.nN + 1
        split at hr'
        · rcases List.mem_append.1 hr' with h1 | h1
          · have := x.wf.lists l hl r h1; omega
          · rw [List.mem_singleton] at h1; omega
        · have := x.wf.lists l' hl' r hr'; omega
      have et : max ((h.allocNotes [n]).total s) n.stop = max m.total n.stop := by rw [y.total]
      rw [et, ys, yl]
      by_cases dr : n.isDrum = true
      · rw [if_pos dr, if_pos dr]
        refine ⟨Shows.setTotal ?_ _, hc⟩
        have e1 : ((h.allocNotes [n]).setList (h.seq s).drums (h.list (h.seq s).drums ++ [h.nN])).list (h.seq s).notes
          = h.list (h.seq s).notes := if_neg x.two
        have e2 : ((h.allocNotes [n]).setList (h.seq s).drums (h.list (h.seq s).drums ++ [h.nN])).list (h.seq s).drums
          = h.list (h.seq s).drums ++ [h.nN] := if_pos rfl
        refine ⟨hwf _ w.2.1, x.lt, x.two, ?_, ?_, ?_, y.instr, y.total⟩
        · show (((h.allocNotes [n]).setList (h.seq s).drums (h.list (h.seq s).drums ++ [h.nN])).list (h.seq s).notes
            ++ ((h.allocNotes [n]).setList (h.seq s).drums (h.list (h.seq s).drums ++ [h.nN])).list
              (h.seq s).drums).Nodup
          rw [e1, e2, ← List.append_assoc, List.nodup_append]
          refine ⟨x.once, by simp, ?_⟩
          intro a ha b hb e
          rw [List.mem_singleton] at hb
          subst e; subst hb
          rcases List.mem_append.1 ha with h1 | h1
          · exact fr _ w.1 h1
          · exact fr _ w.2.1 h1
        · show (((h.allocNotes [n]).setList (h.seq s).drums (h.list (h.seq s).drums ++ [h.nN])).list
            (h.seq s).notes).map (h.allocNotes [n]).note = _
          rw [e1]; exact y.notes
        · show (((h.allocNotes [n]).setList (h.seq s).drums (h.list (h.seq s).drums ++ [h.nN])).list
            (h.seq s).drums).map (h.allocNotes [n]).note = _
          rw [e2, List.map_append]
          show (h.list (h.seq s).drums).map (h.allocNotes [n]).note ++ [(h.allocNotes [n]).note h.nN] = m.drums_ ++ [n]
          rw [en]; congr 1; exact y.drums
      · rw [if_neg dr, if_neg dr]
        refine ⟨Shows.setTotal ?_ _, hc⟩
        have e1 : ((h.allocNotes [n]).setList (h.seq s).notes (h.list (h.seq s).notes ++ [h.nN])).list (h.seq s).drums
          = h.list (h.seq s).drums := if_neg x.two.symm
        have e2 : ((h.allocNotes [n]).setList (h.seq s).notes (h.list (h.seq s).notes ++ [h.nN])).list (h.seq s).notes
          = h.list (h.seq s).notes ++ [h.nN] := if_pos rfl
        refine ⟨hwf _ w.1, x.lt, x.two, ?_, ?_, ?_, y.instr, y.total⟩
        · show (((h.allocNotes [n]).setList (h.seq s).notes (h.list (h.seq s).notes ++ [h.nN])).list (h.seq s).notes
            ++ ((h.allocNotes [n]).setList (h.seq s).notes (h.list (h.seq s).notes ++ [h.nN])).list
              (h.seq s).drums).Nodup
          rw [e1, e2, List.nodup_append]
          refine ⟨?_, hno.2.1, ?_⟩
          · rw [List.nodup_append]
            refine ⟨hno.1, by simp, ?_⟩
            intro a ha b hb e
            rw [List.mem_singleton] at hb
            subst e; subst hb
            exact fr _ w.1 ha
          · intro a ha b hb e
            subst e
            rcases List.mem_append.1 ha with h1 | h1
            · exact hno.2.2 a h1 a hb rfl
            · rw [List.mem_singleton] at h1; subst h1; exact fr _ w.2.1 hb
        · show (((h.allocNotes [n]).setList (h.seq s).notes (h.list (h.seq s).notes ++ [h.nN])).list
            (h.seq s).notes).map (h.allocNotes [n]).note = _
          rw [e2, List.map_append]
          show (h.list (h.seq s).notes).map (h.allocNotes [n]).note ++ [(h.allocNotes [n]).note h.nN] = m.notes_ ++ [n]
          rw [en]; congr 1; exact y.notes
        · show (((h.allocNotes [n]).setList (h.seq s).notes (h.list (h.seq s).notes ++ [h.nN])).list
            (h.seq s).drums).map (h.allocNotes [n]).note = _
          rw [e1]; exact y.drums
  | insert n =>
    have y := x.allocNotes [n]
    have en : (h.allocNotes [n]).note h.nN = n := by simp [Heap.allocNotes]
    have hp := insortLeft_perm (fun a b => ((h.allocNotes [n]).note a).lt ((h.allocNotes [n]).note b))
      ((h.allocNotes [n]).refs s) h.nN
    have fresh : h.nN ∉ (h.allocNotes [n]).refs s := fun hc => by have := x.refs_lt _ hc; omega
    have z := y.setVis (insortLeft (fun a b => ((h.allocNotes [n]).note a).lt ((h.allocNotes [n]).note b))
      ((h.allocNotes [n]).refs s) h.nN) (by
        intro r hr
        rw [hp.mem_iff, List.mem_cons] at hr
        rcases hr with rfl | hr
        · show h.nN < h.nN + 1; omega
        · exact y.refs_lt r hr) (by
        rw [hp.nodup_iff, List.nodup_cons]; exact ⟨fresh, y.refs_nodup⟩) (by
        intro r hr
        rw [hp.mem_iff, List.mem_cons] at hr
        rcases hr with rfl | hr
        · exact .inr (new_fresh x.wf [n] _ (by simp))
        · exact .inl hr)
    rw [insortLeft_map (h.allocNotes [n]).note Note.lt, en] at z
    have ev : ((h.allocNotes [n]).refs s).map (h.allocNotes [n]).note = m.notes := y.view
    rw [ev] at z
    refine ⟨z.adjustTotal, ?_⟩
    show ((m.setVisible _).adjustTotal).ccs = []
    simp [MSeq.adjustTotal, MSeq.setTotal, ccs_vis, hc]
  | setNotes l =>
    have y := x.allocNotes l
    have := y.newVis (List.range' h.nN l.length) (new_lt l) List.nodup_range'
      (fun r hr => .inr (new_fresh x.wf l r hr))
    rw [allocNotes_map] at this
    refine ⟨this, ?_⟩
    show (m.setNotes l).ccs = []
    simp [MSeq.setNotes, MSeq.setTotal, ccs_vis, hc]
  | stretch k =>
    refine ⟨(x.forEach _).adjustTotal, ?_⟩
    show ((m.setVisible _).adjustTotal).ccs = []
    simp [MSeq.adjustTotal, MSeq.setTotal, ccs_vis, hc]
  | shiftTimes d =>
    unfold SeqOp.after SeqOp.run MSeq.shiftTimes MSeq.isQuantized
    show Shows (h.shiftTimes s d) s _ ∧ _
    unfold Heap.shiftTimes
    rw [x.view, x.total]
    split
    · exact ⟨x, hc⟩
    · refine ⟨(x.forEach _).setTotal _, ?_⟩
      simp [MSeq.setTotal, ccs_vis, hc]
  | cutInPlace k =>
    have z := x.newVis (pyTake (h.refs s) k) (fun r hr => x.refs_lt r (mem_pyTake hr))
      (x.refs_nodup.sublist (pyTake_sublist _ _)) (fun r hr => .inl (mem_pyTake hr))
    rw [pyTake_map] at z
    have ev : (h.refs s).map h.note = m.notes := x.view
    rw [ev] at z
    have e : SeqOp.after srt m (.cutInPlace k) = m.setNotes (pyTake m.notes k) := by
      show m.cutInPlace k = _
      unfold MSeq.cutInPlace
      dsimp only
      unfold MSeq.setNotes
      have : ((m.setVisible (pyTake m.notes k)).setTotal (maxEnd (pyTake m.notes k))).notes = pyTake m.notes k := by
        unfold MSeq.setVisible MSeq.setTotal MSeq.notes; split <;> simp [*]
      rw [this]
      rfl
    rw [e]
    refine ⟨z, ?_⟩
    simp [MSeq.setNotes, MSeq.setTotal, ccs_vis, hc]
  | quantize sps a =>
    unfold SeqOp.after SeqOp.run
    dsimp only
    unfold MSeq.quantize
    show Shows (h.quantize s sps a) s _ ∧ _
    unfold Heap.quantize
    have hq := quantizeGo_eq sps a m.notes m.totalSteps
    rw [x.view]
    cases hm : m.notes.mapM (fun n => n.quantize sps a) with
    | error e =>
      rw [hm] at hq
      obtain ⟨e', he'⟩ := hq
      rw [he']
      exact ⟨x, hc⟩
    | ok ms =>
      rw [hm] at hq
      obtain ⟨st, he'⟩ := hq
      rw [he', hc]
      have y := x.allocNotes ms
      have z := y.newVis (List.range' h.nN ms.length) (new_lt ms) List.nodup_range'
        (fun r hr => .inr (new_fresh x.wf ms r hr))
      rw [allocNotes_map] at z
      refine ⟨?_, rfl⟩
      refine ⟨z.wf, z.lt, z.two, z.once, z.notes.trans ?_, z.drums.trans ?_, z.instr.trans ?_, z.total.trans rfl⟩
      all_goals (unfold MSeq.setNotes MSeq.setVisible MSeq.setTotal; dsimp only; split <;> rfl)
  | asNoteSeq =>
    have hp := sortByKey_perm' (fun r => (h.note r).start) (h.refs s)
    have z := x.setVis (sortByKey (fun r => (h.note r).start) (h.refs s))
      (fun r hr => x.refs_lt r (hp.mem_iff.1 hr)) (hp.nodup_iff.2 x.refs_nodup) (fun r hr => .inl (hp.mem_iff.1 hr))
    rw [sortByKey_map h.note Note.start] at z
    have ev : (h.refs s).map h.note = m.notes := x.view
    rw [ev] at z
    refine ⟨z, ?_⟩
    show (m.setVisible _).ccs = []
    rw [ccs_vis, hc]

/-- **C119, notes may be treated as values while they are not shared.** Start from a sequence object that owns its
notes (each note object occurs once in its lists) and run any history of in-place operations, with new note objects as arguments. What the
sequence object then shows — notes, drum notes, total time, instrument — is what the value model of `Seq.lean`
computes for the same history, so C19–C31 hold of the object. -/
theorem C119_values_suffice (srt : List Note → List Note) (h : Heap) (s : Nat) (m : MSeq) (x : Spec.Shows h s m)
    (hc : m.ccs = []) (ops : List SeqOp) (hops : ∀ op ∈ ops, Spec.NotMerge op) :
    Spec.Shows (ops.foldl (fun h op => Spec.heapOp h s op) h) s (ops.foldl (SeqOp.after srt) m) := by
  induction ops generalizing h m with
  | nil => exact x
  | cons op ops ih =>
    obtain ⟨y, hc'⟩ := heapOp_shows srt x hc op (hops op (by simp))
    exact ih _ _ y hc' (fun o ho => hops o (by simp [ho]))

/-- **C119, for callers**: same history, seen through `notes` and `total_time`. -/
theorem C119_same_results (srt : List Note → List Note) (h : Heap) (s : Nat) (m : MSeq) (x : Spec.Shows h s m)
    (hc : m.ccs = []) (ops : List SeqOp) (hops : ∀ op ∈ ops, Spec.NotMerge op) :
    (ops.foldl (fun h op => Spec.heapOp h s op) h).view s = (ops.foldl (SeqOp.after srt) m).notes ∧
    (ops.foldl (fun h op => Spec.heapOp h s op) h).total s = (ops.foldl (SeqOp.after srt) m).total :=
  let y := C119_values_suffice srt h s m x hc ops hops
  ⟨Spec.Shows.view y, y.total⟩

/-- **C119, where it starts**: `MidiNoteSequence([n1, …, nk], instrument=…)` with new note objects. -/
theorem C119_constructed (h : Heap) (w : h.WF) (l : List Note) (i : InstrumentInfo) :
    let h1 := ((h.allocNotes l).allocInstr i)
    Spec.Shows (h1.construct (List.range' h.nN l.length) h.nI) h.nS (MSeq.mk' l i) := by
  intro h1
  have w1 : h1.WF := by
    constructor
    · intro s hs
      have := w.seqs s hs
      exact ⟨this.1, this.2.1, by show (h.seq s).instr < h.nI + 1; have := this.2.2; omega⟩
    · intro l' hl' r hr
      have := w.lists l' hl' r hr
      show r < h.nN + l.length; omega
  have st := Step.construct (c := ⟨List.range' h.nN l.length, [], []⟩) w1
    ⟨fun r hr => new_lt l r hr, by simp, by simp⟩ (List.range' h.nN l.length) h.nI
    (fun r hr => .inl hr) (by show h.nI < h.nI + 1; omega)
  have ei : h1.instr h.nI = i := by show (if h.nI = h.nI then i else _) = i; simp
  have em : (List.range' h.nN l.length).map h1.note = l := allocNotes_map h l
  have hw := st.wf
  unfold Heap.construct at hw ⊢
  rw [ei, em] at hw ⊢
  have nL : h1.nL = h.nL := rfl
  have nS : h1.nS = h.nS := rfl
  by_cases d : i.isDrum = true
  · rw [if_pos d] at hw ⊢
    refine ⟨hw, ?_, ?_, ?_, ?_, ?_, ?_, ?_⟩
    · show h.nS < h.nS + 1; omega
    · simp [Heap.build, Heap.allocSeq, Heap.allocList, nL, nS]
    · simp [Heap.build, Heap.allocSeq, Heap.allocList, nL, nS, List.nodup_range']
    · simp [Heap.build, Heap.allocSeq, Heap.allocList, nL, nS, MSeq.mk', d]
    · simp [Heap.build, Heap.allocSeq, Heap.allocList, nL, nS, MSeq.mk', d, em]
    · simp [Heap.info, Heap.build, Heap.allocSeq, Heap.allocList, nS, MSeq.mk', ei]
    · simp [Heap.total, Heap.build, Heap.allocSeq, Heap.allocList, nS, MSeq.mk']
  · rw [if_neg d] at hw ⊢
    refine ⟨hw, ?_, ?_, ?_, ?_, ?_, ?_, ?_⟩
    · show h.nS < h.nS + 1; omega
    · simp [Heap.build, Heap.allocSeq, Heap.allocList, nL, nS]
    · simp [Heap.build, Heap.allocSeq, Heap.allocList, nL, nS, List.nodup_range']
    · simp [Heap.build, Heap.allocSeq, Heap.allocList, nL, nS, MSeq.mk', d, em]
    · simp [Heap.build, Heap.allocSeq, Heap.allocList, nL, nS, MSeq.mk', d]
    · simp [Heap.info, Heap.build, Heap.allocSeq, Heap.allocList, nS, MSeq.mk', ei]
    · simp [Heap.total, Heap.build, Heap.allocSeq, Heap.allocList, nS, MSeq.mk']

/-- **C119 is false for shared notes**: a sequence that holds the same note object twice (made by
`MidiNoteSequence([n, n])`) has its note stretched by `c * c`; the value model says `c`. -/
theorem C119_not_when_repeated (h : Heap) (w : h.WF) (r i : Nat) (c : ℚ) (hi : (h.instr i).isDrum = false) :
    ((h.construct [r, r] i).stretch h.nS c).view h.nS = [(h.note r).stretch (c * c), (h.note r).stretch (c * c)] ∧
    ((MSeq.mk' [h.note r, h.note r] (h.instr i)).stretch c).notes = [(h.note r).stretch c, (h.note r).stretch c] := by
  obtain ⟨c1, _, c3⟩ := construct_refs h w [r, r] i
  constructor
  · rw [(C118_stretch_seen_everywhere _ _ _ c).1, c1, c3]
    simp [pow_succ]
  · simp [MSeq.stretch, MSeq.mk', MSeq.notes, MSeq.setVisible, MSeq.adjustTotal, MSeq.setTotal, hi]

example : ((exHeap.construct [0, 0] 0).stretch 1 3).view 1 =
    [{ exNote with start := 0, stop := 9 }, { exNote with start := 0, stop := 9 }] :=
  (C119_not_when_repeated exHeap exHeap_wf 0 0 3 rfl).1.trans (by decide +kernel)

example : ([SeqOp.append { exNote with start := 7, stop := 9 }, .stretch 2, .cutInPlace 2].foldl
    (fun h op => Spec.heapOp h 1 op)
    (((exHeap.allocNotes [exNote, exNote]).allocInstr generic).construct (List.range' 3 2) 1)).view 1 =
    [exNote.stretch 2, exNote.stretch 2] :=
  (C119_same_results id _ 1 _ (C119_constructed exHeap exHeap_wf [exNote, exNote] generic) rfl
    [.append { exNote with start := 7, stop := 9 }, .stretch 2, .cutInPlace 2]
    (by intro op ho; simp at ho; rcases ho with rfl | rfl | rfl <;> trivial)).1.trans (by decide +kernel)

end NGC
