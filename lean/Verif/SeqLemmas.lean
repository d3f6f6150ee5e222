import Verif.Seq
import Verif.NoteProps
import Verif.EventsProps

/-! Helper lemmas about the sequence model. -/

namespace NGC

@[simp] theorem notes_setVisible (s : MSeq) (l : List Note) : (s.setVisible l).notes = l := by
  unfold MSeq.setVisible MSeq.notes
  cases h : s.instr.isDrum <;> simp [h]

@[simp] theorem instr_setVisible (s : MSeq) (l : List Note) : (s.setVisible l).instr = s.instr := by
  unfold MSeq.setVisible; split_ifs <;> rfl

@[simp] theorem total_setVisible (s : MSeq) (l : List Note) : (s.setVisible l).total = s.total := by
  unfold MSeq.setVisible; split_ifs <;> rfl

@[simp] theorem resolution_setVisible (s : MSeq) (l : List Note) :
    (s.setVisible l).resolution = s.resolution := by
  unfold MSeq.setVisible; split_ifs <;> rfl

@[simp] theorem ccs_setVisible (s : MSeq) (l : List Note) : (s.setVisible l).ccs = s.ccs := by
  unfold MSeq.setVisible; split_ifs <;> rfl

@[simp] theorem totalSteps_setVisible (s : MSeq) (l : List Note) :
    (s.setVisible l).totalSteps = s.totalSteps := by
  unfold MSeq.setVisible; split_ifs <;> rfl

@[simp] theorem notes_setTotal (s : MSeq) (v : ℚ) : (s.setTotal v).notes = s.notes := rfl
@[simp] theorem total_setTotal (s : MSeq) (v : ℚ) : (s.setTotal v).total = max 0 v := rfl
@[simp] theorem instr_setTotal (s : MSeq) (v : ℚ) : (s.setTotal v).instr = s.instr := rfl
@[simp] theorem resolution_setTotal (s : MSeq) (v : ℚ) : (s.setTotal v).resolution = s.resolution := rfl

@[simp] theorem notes_setNotes (s : MSeq) (l : List Note) : (s.setNotes l).notes = l := by
  simp [MSeq.setNotes]
@[simp] theorem total_setNotes (s : MSeq) (l : List Note) : (s.setNotes l).total = max 0 (maxEnd l) := rfl
@[simp] theorem instr_setNotes (s : MSeq) (l : List Note) : (s.setNotes l).instr = s.instr := by
  simp [MSeq.setNotes]
@[simp] theorem resolution_setNotes (s : MSeq) (l : List Note) :
    (s.setNotes l).resolution = s.resolution := by
  simp [MSeq.setNotes]

@[simp] theorem notes_adjustTotal (s : MSeq) : s.adjustTotal.notes = s.notes := rfl
@[simp] theorem total_adjustTotal (s : MSeq) : s.adjustTotal.total = max 0 (maxEnd s.notes) := rfl
@[simp] theorem instr_adjustTotal (s : MSeq) : s.adjustTotal.instr = s.instr := rfl

@[simp] theorem notes_mk' (l : List Note) (i : InstrumentInfo) (r : Int) :
    (MSeq.mk' l i r).notes = l := by
  unfold MSeq.mk' MSeq.notes
  cases i.isDrum <;> simp

@[simp] theorem instr_mk' (l : List Note) (i : InstrumentInfo) (r : Int) :
    (MSeq.mk' l i r).instr = i := rfl

theorem maxEnd_ge (l : List Note) (n : Note) (h : n ∈ l) : n.stop ≤ maxEnd l :=
  maxDefault_ge 0 _ _ (List.mem_map_of_mem h)

theorem maxEnd_mem (l : List Note) (h : l ≠ []) : ∃ n ∈ l, n.stop = maxEnd l := by
  have := maxDefault_mem 0 (l.map Note.stop) (by simpa using h)
  obtain ⟨n, hn, he⟩ := List.mem_map.1 this
  exact ⟨n, hn, he⟩

theorem maxEnd_perm {l l' : List Note} (h : l.Perm l') : maxEnd l = maxEnd l' :=
  maxDefault_perm 0 (h.map _)

/-- Everything a successful `add_note` does. -/
theorem addNote_ok (s s' : MSeq) (n : Note) (h : s.addNote n = .ok s') :
    n.instrument = s.instr.num ∧
    s'.notes = (if n.isDrum = s.instr.isDrum then s.notes ++ [n] else s.notes) ∧
    s'.total = max 0 (max s.total n.stop) ∧ s'.instr = s.instr ∧ s'.resolution = s.resolution := by
  unfold MSeq.addNote at h
  by_cases h1 : n.instrument = s.instr.num
  · rw [if_neg (not_not.2 h1)] at h
    have h' := (Except.ok.inj h).symm
    refine ⟨h1, ?_, by rw [h']; rfl, ?_, ?_⟩
    · rw [h']
      simp only [notes_setTotal]
      unfold MSeq.notes
      cases hn : n.isDrum <;> cases hi : s.instr.isDrum <;> simp [hi]
    · rw [h']; cases n.isDrum <;> rfl
    · rw [h']; cases n.isDrum <;> rfl
  · rw [if_pos h1] at h; cases h

end NGC
