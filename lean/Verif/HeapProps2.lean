import Verif.HeapProps
import Verif.SeqProps
import Mathlib.Logic.Function.Iterate

/-!
C117 (faithful copies), C118 (what is shared), C119 (when treating notes as values is right).
-/

namespace NGC

open Heap

/-! ## Facts about the loop over the notes -/

/-- A loop that changes notes in place changes a note as often as it is referred to. -/
theorem forEach_eq (f : Note → Note) : ∀ (rs : List Nat) (h : Heap),
    forEach f rs h = { h with note := fun r => f^[rs.count r] (h.note r) } := by
  intro rs
  induction rs with
  | nil => intro h; rfl
  | cons a rs ih =>
    intro h
    unfold forEach
    rw [ih]
    unfold Heap.setNote
    congr 1
    funext r
    by_cases e : r = a
    · subst e; simp [Function.iterate_succ_apply]
    · rw [List.count_cons_of_ne (Ne.symm e)]; simp [e]

theorem stretch_note (h : Heap) (s : Nat) (k : ℚ) (r : Nat) :
    (h.stretch s k).note r = (fun n : Note => n.stretch k)^[(h.refs s).count r] (h.note r) := by
  unfold Heap.stretch; rw [forEach_eq]; rfl

theorem stretch_list (h : Heap) (s : Nat) (k : ℚ) (l : Nat) : (h.stretch s k).list l = h.list l := by
  unfold Heap.stretch; rw [forEach_eq]; rfl

theorem stretch_instr (h : Heap) (s : Nat) (k : ℚ) (l : Nat) : (h.stretch s k).instr l = h.instr l := by
  unfold Heap.stretch; rw [forEach_eq]; rfl

theorem stretch_seq (h : Heap) (s : Nat) (k : ℚ) (x : Nat) (e : x ≠ s) : (h.stretch s k).seq x = h.seq x := by
  unfold Heap.stretch; rw [forEach_eq]; simp [Heap.adjustTotal, Heap.setTotal, Heap.setSeq, e]

theorem stretch_seq_lists (h : Heap) (s : Nat) (k : ℚ) (x : Nat) :
    ((h.stretch s k).seq x).notes = (h.seq x).notes ∧ ((h.stretch s k).seq x).drums = (h.seq x).drums ∧
    ((h.stretch s k).seq x).instr = (h.seq x).instr := by
  by_cases e : x = s
  · subst e
    unfold Heap.stretch; rw [forEach_eq]; simp [Heap.adjustTotal, Heap.setTotal, Heap.setSeq]
  · rw [stretch_seq _ _ _ _ e]; exact ⟨rfl, rfl, rfl⟩

theorem stretch_refs (h : Heap) (s : Nat) (k : ℚ) (x : Nat) : (h.stretch s k).refs x = h.refs x := by
  obtain ⟨e1, e2, e3⟩ := stretch_seq_lists h s k x
  unfold Heap.refs Heap.vis Heap.info
  rw [stretch_list, e1, e2, e3, stretch_instr]

theorem stretch_iterate (k : ℚ) (j : Nat) (n : Note) :
    (fun n : Note => n.stretch k)^[j] n = n.stretch (k ^ j) := by
  induction j generalizing n with
  | zero => simp [Note.stretch]
  | succ j ih =>
    rw [Function.iterate_succ_apply, ih, pow_succ']
    simp [Note.stretch, mul_assoc]

/-! ## C118 -/

/-- **C118, an in-place method acts on note objects.** `s.stretch(k)` multiplies the times of every note object
by `k` as often as `s` refers to it, whoever else refers to it: any sequence `x` of the heap (including `s`)
then shows its own notes, stretched by `k` to the number of times each is in `s`. No other sequence
has its total time updated. -/
theorem C118_stretch_seen_everywhere (h : Heap) (s x : Nat) (k : ℚ) :
    (h.stretch s k).view x = (h.refs x).map (fun r => (h.note r).stretch (k ^ (h.refs s).count r)) ∧
    (x ≠ s → (h.stretch s k).total x = h.total x) := by
  constructor
  · unfold Heap.view
    rw [stretch_refs]
    apply List.map_congr_left
    intro r _
    rw [stretch_note, stretch_iterate]
  · intro e
    unfold Heap.total; rw [stretch_seq _ _ _ _ e]

/-- The heap of the examples: a sequence with three notes. -/
def exHeap : Heap :=
  { note := fun i => { exNote with start := i, stop := i + 1 }
    list := fun i => if i = 0 then [0, 1, 2] else []
    instr := fun _ => generic
    seq := fun _ => ⟨0, 1, 0, 3⟩
    nN := 3, nL := 2, nI := 1, nS := 1 }

theorem exHeap_wf : exHeap.WF := by
  constructor
  · intro s hs; exact ⟨Nat.zero_lt_two, Nat.one_lt_two, Nat.zero_lt_one⟩
  · intro l hl r hr
    unfold exHeap at hr ⊢
    dsimp only at hr ⊢
    split at hr
    · simp at hr; omega
    · cases hr

/-! ### cut -/

theorem construct_refs (h : Heap) (w : h.WF) (rs : List Nat) (i : Nat) :
    (h.construct rs i).refs h.nS = rs ∧
    (∀ x < h.nS, (h.construct rs i).refs x = h.refs x ∧ (h.construct rs i).total x = h.total x ∧
      (h.construct rs i).info x = h.info x) ∧
    (h.construct rs i).note = h.note := by
  unfold Heap.construct
  by_cases d : (h.instr i).isDrum
  · rw [if_pos d]
    refine ⟨?_, ?_, rfl⟩
    · simp [Heap.refs, Heap.vis, Heap.info, Heap.build, Heap.allocSeq, Heap.allocList, d]
    · intro x hx
      have hx' : x ≠ h.nS := by omega
      obtain ⟨w1, w2, _⟩ := w.seqs x hx
      have hv : h.vis x < h.nL := by unfold Heap.vis; split <;> assumption
      have ev : (h.build [] rs i (maxEnd (rs.map h.note))).vis x = h.vis x := by
        simp [Heap.vis, Heap.info, Heap.build, Heap.allocSeq, Heap.allocList, hx']
        congr
      refine ⟨?_, ?_, ?_⟩
      · unfold Heap.refs
        rw [ev]
        have : h.vis x ≠ h.nL ∧ h.vis x ≠ h.nL + 1 := ⟨by omega, by omega⟩
        simp [Heap.build, Heap.allocSeq, Heap.allocList, this]
      · simp [Heap.total, Heap.build, Heap.allocSeq, Heap.allocList, hx']
      · simp [Heap.info, Heap.build, Heap.allocSeq, Heap.allocList, hx']
  · rw [if_neg d]
    refine ⟨?_, ?_, rfl⟩
    · simp [Heap.refs, Heap.vis, Heap.info, Heap.build, Heap.allocSeq, Heap.allocList, d]
    · intro x hx
      have hx' : x ≠ h.nS := by omega
      obtain ⟨w1, w2, _⟩ := w.seqs x hx
      have hv : h.vis x < h.nL := by unfold Heap.vis; split <;> assumption
      have ev : (h.build rs [] i (maxEnd (rs.map h.note))).vis x = h.vis x := by
        simp [Heap.vis, Heap.info, Heap.build, Heap.allocSeq, Heap.allocList, hx']
        congr
      refine ⟨?_, ?_, ?_⟩
      · unfold Heap.refs
        rw [ev]
        have : h.vis x ≠ h.nL ∧ h.vis x ≠ h.nL + 1 := ⟨by omega, by omega⟩
        simp [Heap.build, Heap.allocSeq, Heap.allocList, this]
      · simp [Heap.total, Heap.build, Heap.allocSeq, Heap.allocList, hx']
      · simp [Heap.info, Heap.build, Heap.allocSeq, Heap.allocList, hx']

theorem setTotal_refs (h : Heap) (s : Nat) (v : ℚ) (x : Nat) :
    (h.setTotal s v).refs x = h.refs x ∧ (h.setTotal s v).info x = h.info x ∧
    (x ≠ s → (h.setTotal s v).total x = h.total x) := by
  by_cases e : x = s
  · subst e; simp [Heap.setTotal, Heap.setSeq, Heap.refs, Heap.vis, Heap.info]; congr
  · simp [Heap.setTotal, Heap.setSeq, Heap.refs, Heap.vis, Heap.info, Heap.total, e]; congr

theorem cut_spec (h : Heap) (w : h.WF) (s : Nat) (k : Int) (hne : pyTake (h.refs s) k ≠ []) :
    (h.cut s k).refs h.nS = pyTake (h.refs s) k ∧
    (∀ x < h.nS, (h.cut s k).refs x = h.refs x ∧ (h.cut s k).total x = h.total x) ∧
    (h.cut s k).note = h.note := by
  unfold Heap.cut
  dsimp only
  cases e : (pyTake (h.refs s) k).getLast? with
  | none => exact absurd (List.getLast?_eq_none_iff.1 e) hne
  | some r =>
    obtain ⟨c1, c2, c3⟩ := construct_refs h w (pyTake (h.refs s) k) (h.seq s).instr
    refine ⟨?_, ?_, c3⟩
    · rw [(setTotal_refs _ _ _ _).1, c1]
    · intro x hx
      obtain ⟨t1, _, t3⟩ := setTotal_refs (h.construct (pyTake (h.refs s) k) (h.seq s).instr) h.nS
        (min (h.total s) (h.note r).stop) x
      exact ⟨t1.trans (c2 x hx).1, (t3 (by omega)).trans (c2 x hx).2.1⟩

/-- **C118, `cut` shares its notes.** After `t = s.cut(k)` (`k ≥ 1`, `s` not empty, no note twice in `s`),
`t.stretch(c)` stretches the first `k` notes of `s` as well, and leaves `total_time` of `s` as it was. -/
theorem C118_cut_shares (h : Heap) (w : h.WF) (s : Nat) (hs : s < h.nS) (k : Nat) (hk : 0 < k)
    (hne : h.refs s ≠ []) (hd : (h.refs s).Nodup) (c : ℚ) :
    let h' := (h.cut s k).stretch h.nS c
    h'.view s = ((h.view s).take k).map (·.stretch c) ++ (h.view s).drop k ∧ h'.total s = h.total s := by
  have et : pyTake (h.refs s) k = (h.refs s).take k := by simp [pyTake]
  have hne' : pyTake (h.refs s) k ≠ [] := by
    rw [et]; intro e
    rcases List.take_eq_nil_iff.1 e with e | e
    · omega
    · exact hne e
  obtain ⟨c1, c2, c3⟩ := cut_spec h w s k hne'
  obtain ⟨e1, e2⟩ := C118_stretch_seen_everywhere (h.cut s k) h.nS s c
  refine ⟨?_, (e2 (by omega)).trans (c2 s hs).2⟩
  rw [e1, (c2 s hs).1, c1, et, c3]
  unfold Heap.view
  rw [← List.map_take, ← List.map_drop, List.map_map]
  conv_lhs => rw [← List.take_append_drop k (h.refs s)]
  rw [List.map_append]
  congr 1
  · apply List.map_congr_left
    intro r hr
    rw [List.take_append_drop]
    rw [List.count_eq_one_of_mem (hd.sublist (List.take_sublist _ _)) hr]
    simp
  · apply List.map_congr_left
    intro r hr
    rw [List.take_append_drop]
    have : r ∉ (h.refs s).take k := by
      intro hm
      have := hd
      rw [← List.take_append_drop k (h.refs s), List.nodup_append] at this
      exact this.2.2 r hm r hr rfl
    rw [List.count_eq_zero_of_not_mem this]
    simp [Note.stretch]

example : ((exHeap.cut 0 2).stretch 1 10).view 0 =
    [{ exNote with start := 0, stop := 10 }, { exNote with start := 10, stop := 20 },
     { exNote with start := 2, stop := 3 }] ∧ ((exHeap.cut 0 2).stretch 1 10).total 0 = 3 := by
  have := C118_cut_shares exHeap exHeap_wf 0 (by decide) 2 (by decide) (by decide) (by decide) 10
  refine ⟨this.1.trans (by decide +kernel), this.2.trans rfl⟩

/-- **C118, the total time of the source becomes wrong.** If `total_time` of `s` is the end of its last note
and positive, then stretching a full `cut` of `s` by more than 1 leaves `s` with a note that ends after its total
time: the bound of C19 holds for histories of one sequence only. -/
theorem C118_cut_breaks_total (h : Heap) (w : h.WF) (s : Nat) (hs : s < h.nS)
    (hne : h.refs s ≠ []) (hd : (h.refs s).Nodup) (c : ℚ) (hc : 1 < c)
    (ht : h.total s = maxEnd (h.view s)) (hp : 0 < h.total s) :
    ∃ n ∈ ((h.cut s (h.refs s).length).stretch h.nS c).view s,
      n.stop > ((h.cut s (h.refs s).length).stretch h.nS c).total s := by
  have hlen : 0 < (h.refs s).length := List.length_pos_iff.2 hne
  obtain ⟨e1, e2⟩ := C118_cut_shares h w s hs (h.refs s).length hlen hne hd c
  have hv : h.view s ≠ [] := by unfold Heap.view; simpa using hne
  obtain ⟨n, hn, en⟩ := maxEnd_mem _ hv
  refine ⟨n.stretch c, ?_, ?_⟩
  · rw [e1]
    have : (h.view s).take (h.refs s).length = h.view s := by
      apply List.take_of_length_le; unfold Heap.view; simp
    rw [this]
    exact List.mem_append_left _ (List.mem_map.2 ⟨n, hn, rfl⟩)
  · rw [e2]
    show n.stop * c > h.total s
    rw [en, ← ht]
    nlinarith

example : ∃ n ∈ ((exHeap.cut 0 3).stretch 1 2).view 0, n.stop > ((exHeap.cut 0 3).stretch 1 2).total 0 :=
  C118_cut_breaks_total exHeap exHeap_wf 0 (by decide) (by decide) (by decide) 2 (by norm_num)
    (by decide +kernel) (by decide +kernel)

/-! ### slice -/

theorem sliceLoop_ok (h : Heap) (num : Int) (a b : ℚ) : ∀ (rs ns ds : List Nat) (t : ℚ) (r : List Nat × List Nat × ℚ),
    sliceLoop h num a b rs (ns, ds, t) = .ok r →
    r.1 = ns ++ rs.filter (fun x => decide (a ≤ (h.note x).start ∧ (h.note x).start < b) && !(h.note x).isDrum) ∧
    r.2.1 = ds ++ rs.filter (fun x => decide (a ≤ (h.note x).start ∧ (h.note x).start < b) && (h.note x).isDrum) := by
  intro rs
  induction rs with
  | nil => intro ns ds t r e; cases e; simp
  | cons x xs ih =>
    intro ns ds t r e
    unfold sliceLoop at e
    dsimp only at e
    split at e
    · rename_i hw
      have hf : ¬ (a ≤ (h.note x).start ∧ (h.note x).start < b) := by
        rintro ⟨h1, h2⟩; rcases hw with hw | hw
        · exact absurd hw (not_lt.2 h1)
        · exact absurd h2 (not_lt.2 hw)
      obtain ⟨e1, e2⟩ := ih _ _ _ _ e
      simp only [List.filter_cons, hf, decide_false, Bool.false_and, Bool.false_eq_true, if_false]
      exact ⟨e1, e2⟩
    · rename_i hw
      have hf : (a ≤ (h.note x).start ∧ (h.note x).start < b) := by
        rw [not_or, not_lt, ge_iff_le, not_le] at hw; exact hw
      split at e
      · cases e
      · split at e
        · cases e
        · split at e
          · rename_i hd
            obtain ⟨e1, e2⟩ := ih _ _ _ _ e
            simp only [List.filter_cons, hf, decide_true, Bool.true_and, hd, Bool.not_true, Bool.false_eq_true,
              if_false, if_true]
            exact ⟨e1, by rw [e2]; simp⟩
          · rename_i hd
            have hd' : (h.note x).isDrum = false := by simpa using hd
            obtain ⟨e1, e2⟩ := ih _ _ _ _ e
            simp only [List.filter_cons, hf, decide_true, Bool.true_and, hd', Bool.not_false, Bool.false_eq_true,
              if_false, if_true]
            exact ⟨by rw [e1]; simp, e2⟩

/-- **C118, `slice` shares its notes.** If `t = s.slice(a, b)` does not raise (a new sequence exists), `t` refers to
exactly the note objects of `s` that start in `[a, b)` and have the drum flag of the instrument, and `t.stretch(c)`
stretches them in `s` too. -/
theorem C118_slice_shares (h : Heap) (w : h.WF) (s : Nat) (hs : s < h.nS) (a b c : ℚ) (hd : (h.refs s).Nodup)
    (hok : (h.slice s a b).nS = h.nS + 1) :
    let sel := fun n : Note => decide (a ≤ n.start ∧ n.start < b) && (n.isDrum == (h.info s).isDrum)
    (h.slice s a b).view h.nS = (h.view s).filter sel ∧
    ((h.slice s a b).stretch h.nS c).view s = (h.view s).map (fun n => if sel n then n.stretch c else n) ∧
    ((h.slice s a b).stretch h.nS c).total s = h.total s := by
  intro sel
  unfold Heap.slice at hok ⊢
  split at hok
  · omega
  · rename_i ns ds t e
    obtain ⟨e1, e2⟩ := sliceLoop_ok h _ _ _ _ _ _ _ _ e
    dsimp only at e1 e2
    rw [List.nil_append] at e1 e2
    have hne : s ≠ h.nS := by omega
    obtain ⟨w1, w2, w3⟩ := w.seqs s hs
    have hv : h.vis s < h.nL := by unfold Heap.vis; split <;> assumption
    set h1 := h.build ns ds (h.seq s).instr (max 0 (min (h.total s) b)) with hh
    have en : h1.note = h.note := rfl
    have esq : h1.seq s = h.seq s := by simp [hh, Heap.build, Heap.allocSeq, Heap.allocList, hne]
    have einf : h1.info s = h.info s := by unfold Heap.info; rw [esq]; rfl
    have evis : h1.vis s = h.vis s := by unfold Heap.vis; rw [esq, einf]
    have er : h1.refs s = h.refs s := by
      unfold Heap.refs; rw [evis]
      have : h.vis s ≠ h.nL ∧ h.vis s ≠ h.nL + 1 := ⟨by omega, by omega⟩
      simp [hh, Heap.build, Heap.allocSeq, Heap.allocList, this]
    have ernew : h1.refs h.nS = (h.refs s).filter (fun x => sel (h.note x)) := by
      have i1 : h1.info h.nS = h.info s := by
        simp [hh, Heap.info, Heap.build, Heap.allocSeq, Heap.allocList]
      unfold Heap.refs Heap.vis
      rw [i1]
      by_cases d : (h.info s).isDrum = true
      · rw [if_pos d, if_pos d]
        have : h1.list (h1.seq h.nS).drums = ds := by
          simp [hh, Heap.build, Heap.allocSeq, Heap.allocList]
        rw [this, e2]
        have e3 : h.refs s = h.list (h.seq s).drums := by unfold Heap.refs Heap.vis; rw [if_pos d]
        rw [e3]
        simp [sel, d]
      · rw [if_neg d, if_neg d]
        have d' : (h.info s).isDrum = false := by simpa using d
        have : h1.list (h1.seq h.nS).notes = ns := by
          simp [hh, Heap.build, Heap.allocSeq, Heap.allocList]
        rw [this, e1]
        have e3 : h.refs s = h.list (h.seq s).notes := by unfold Heap.refs Heap.vis; rw [if_neg d]
        rw [e3]
        simp [sel, d']
    obtain ⟨v1, v2⟩ := C118_stretch_seen_everywhere h1 h.nS s c
    refine ⟨?_, ?_, ?_⟩
    · unfold Heap.view
      rw [ernew, en, List.filter_map]; rfl
    · rw [v1, er, ernew, en]
      unfold Heap.view
      rw [List.map_map]
      apply List.map_congr_left
      intro r hr
      show _ = if sel (h.note r) then _ else _
      by_cases hsel : sel (h.note r) = true
      · rw [if_pos hsel, List.count_eq_one_of_mem (hd.filter _) (List.mem_filter.2 ⟨hr, hsel⟩)]
        simp
      · have hnot : r ∉ (h.refs s).filter (fun x => sel (h.note x)) := fun hc => hsel (List.mem_filter.1 hc).2
        rw [if_neg hsel, List.count_eq_zero_of_not_mem hnot]
        simp [Note.stretch]
    · rw [v2 hne]
      unfold Heap.total; rw [esq]

example : ((exHeap.slice 0 1 2).stretch 1 10).view 0 =
    [{ exNote with start := 0, stop := 1 }, { exNote with start := 10, stop := 20 },
     { exNote with start := 2, stop := 3 }] :=
  (C118_slice_shares exHeap exHeap_wf 0 (by decide) 1 2 10 (by decide) (by decide +kernel)).2.1.trans
    (by decide +kernel)

/-! ### The constructor, `from_notes`, `clone`, `merge` -/

/-- **C118, the constructor copies the list but not the notes.** `t = MidiNoteSequence(l, instrument=…)`:
`t` shows the notes of `l`; `t.append(n)` leaves the list `l` as it was; `t.stretch(c)` stretches the note
objects in `l`. -/
theorem C118_constructor (h : Heap) (w : h.WF) (l i r : Nat) (hl : l < h.nL) (hd : (h.list l).Nodup) (c : ℚ) :
    (h.construct (h.list l) i).view h.nS = (h.list l).map h.note ∧
    ((h.construct (h.list l) i).append h.nS [r]).list l = h.list l ∧
    (((h.construct (h.list l) i).stretch h.nS c).list l = h.list l ∧
      ∀ x ∈ h.list l, ((h.construct (h.list l) i).stretch h.nS c).note x = (h.note x).stretch c) := by
  obtain ⟨c1, c2, c3⟩ := construct_refs h w (h.list l) i
  have el : ∀ l' < h.nL, (h.construct (h.list l) i).list l' = h.list l' := by
    intro l' hl'
    have : l' ≠ h.nL ∧ l' ≠ h.nL + 1 := ⟨by omega, by omega⟩
    unfold Heap.construct; split <;> simp [Heap.build, Heap.allocSeq, Heap.allocList, this]
  have ev : (h.construct (h.list l) i).vis h.nS ≠ l := by
    unfold Heap.construct
    split <;> simp [Heap.vis, Heap.info, Heap.build, Heap.allocSeq, Heap.allocList, *] <;> omega
  refine ⟨?_, ?_, ?_, ?_⟩
  · unfold Heap.view; rw [c1, c3]
  · unfold Heap.append
    rw [if_neg (by simp)]
    show (if l = _ then _ else (h.construct (h.list l) i).list l) = _
    rw [if_neg (Ne.symm ev), el l hl]
  · rw [stretch_list, el l hl]
  · intro x hx
    rw [stretch_note, c1, c3, List.count_eq_one_of_mem hd hx]
    rfl

/-- **C118, `from_notes` keeps the list of the caller.** `t = MidiNoteSequence.from_notes(l)`: appending to `t`
appends to the list `l`; changing the list `l` changes the notes of `t` but not its `total_time`. -/
theorem C118_from_notes_shares (h : Heap) (l r : Nat) (hl : l < h.nL) (rs : List Nat) :
    (h.fromNotes l).view h.nS = (h.list l).map h.note ∧
    ((h.fromNotes l).append h.nS [r]).list l = h.list l ++ [r] ∧
    (((h.fromNotes l).setList l rs).view h.nS = rs.map h.note ∧
      ((h.fromNotes l).setList l rs).total h.nS = (h.fromNotes l).total h.nS) := by
  have hl' : l ≠ h.nL := by omega
  refine ⟨?_, ?_, ?_, rfl⟩
  · simp [Heap.fromNotes, Heap.view, Heap.refs, Heap.vis, Heap.info, Heap.allocSeq, Heap.allocList,
      Heap.allocInstr, generic, hl']
  · simp [Heap.append, Heap.setTotal, Heap.setSeq, Heap.setList, Heap.fromNotes, Heap.refs, Heap.vis, Heap.info,
      Heap.allocSeq, Heap.allocList, Heap.allocInstr, generic, hl']
  · simp [Heap.setList, Heap.fromNotes, Heap.view, Heap.refs, Heap.vis, Heap.info,
      Heap.allocSeq, Heap.allocList, Heap.allocInstr, generic]

example : ((exHeap.fromNotes 0).append 1 [2]).list 0 = [0, 1, 2, 2] :=
  (C118_from_notes_shares exHeap 0 2 (by decide) []).2.1

/-- **C118, `merge` shares the notes of the other sequence.** If `s.merge(o)` does not raise, every note object of
`o` is a note object of `s`; so if `o` then stretches, so do these notes of `s`. -/
theorem C118_merge_shares (srt : (Nat → Nat → Bool) → List Nat → List Nat) (hsrt : ∀ lt l, (srt lt l).Perm l)
    (h : Heap) (w : h.WF) (s o : Nat) (hs : s < h.nS) (ho : o < h.nS) (hso : s ≠ o)
    (hi : h.info s = h.info o) (vs : ∀ n ∈ h.view s, n.instrument = (h.info s).num)
    (vo : ∀ n ∈ h.view o, n.instrument = (h.info o).num) (hd : (h.refs o).Nodup) (c : ℚ) :
    ((h.merge srt s o).view s).Perm (h.view s ++ h.view o) ∧
    ∀ r ∈ h.refs o, r ∈ (h.merge srt s o).refs s ∧
      ((h.merge srt s o).stretch o c).note r = (h.note r).stretch c := by
  have em : h.merge srt s o = (h.allocList ((srt (fun a b => (h.note a).lt (h.note b))
      (h.refs s ++ h.refs o)).foldl (insortLeft (fun a b => (h.note a).lt (h.note b))) [])).setNotesRef s h.nL := by
    unfold Heap.merge
    dsimp only
    rw [if_neg (by simpa using hi), if_neg, if_neg]
    · simp only [List.all_eq_true, beq_iff_eq, not_not]; exact vo
    · simp only [List.all_eq_true, beq_iff_eq, not_not]; exact vs
  set L := (srt (fun a b => (h.note a).lt (h.note b))
      (h.refs s ++ h.refs o)).foldl (insortLeft (fun a b => (h.note a).lt (h.note b))) [] with hL
  have hp : L.Perm (h.refs s ++ h.refs o) := by
    refine (foldl_insortLeft_perm _ _ _).trans ?_
    rw [List.append_nil]; exact hsrt _ _
  have e1 : (h.merge srt s o).refs s = L := by
    rw [em]
    unfold Heap.setNotesRef
    dsimp only
    by_cases d : (h.info s).isDrum
    · have d' : ((h.allocList L).info s).isDrum = true := d
      rw [if_pos d', (setTotal_refs _ _ _ _).1]
      have : (h.instr (h.seq s).instr).isDrum = true := d
      simp [Heap.refs, Heap.vis, Heap.info, Heap.setSeq, Heap.allocList, this]
    · have d' : ¬ ((h.allocList L).info s).isDrum = true := d
      rw [if_neg d', (setTotal_refs _ _ _ _).1]
      have : (h.instr (h.seq s).instr).isDrum = false := (by simpa using d : (h.info s).isDrum = false)
      simp [Heap.refs, Heap.vis, Heap.info, Heap.setSeq, Heap.allocList, this]
  have en : (h.merge srt s o).note = h.note := by
    rw [em]; unfold Heap.setNotesRef; dsimp only; rfl
  have eo : (h.merge srt s o).refs o = h.refs o := by
    rw [em]
    unfold Heap.setNotesRef
    dsimp only
    rw [(setTotal_refs _ _ _ _).1]
    have hv : h.vis o ≠ h.nL := by
      have := w.seqs o ho
      unfold Heap.vis; split <;> omega
    have hv' : (if (h.instr (h.seq o).instr).isDrum then (h.seq o).drums else (h.seq o).notes) ≠ h.nL := hv
    simp [Heap.refs, Heap.vis, Heap.info, Heap.setSeq, Heap.allocList, Ne.symm hso, hv']
    congr
  refine ⟨?_, ?_⟩
  · unfold Heap.view
    rw [e1, en, ← List.map_append]
    exact hp.map _
  · intro r hr
    refine ⟨?_, ?_⟩
    · rw [e1, hp.mem_iff]; exact List.mem_append_right _ hr
    · rw [stretch_note, eo, en, List.count_eq_one_of_mem hd hr]; rfl

/-- **C118, merging a sequence with itself** (which does not raise when its notes fit its instrument) makes every note object occur twice: a
later `stretch(c)` stretches every note by `c * c`. -/
theorem C118_self_merge (srt : (Nat → Nat → Bool) → List Nat → List Nat) (hsrt : ∀ lt l, (srt lt l).Perm l)
    (h : Heap) (s : Nat) (vs : ∀ n ∈ h.view s, n.instrument = (h.info s).num)
    (hd : (h.refs s).Nodup) (c : ℚ) :
    (((h.merge srt s s).stretch s c).view s).Perm
      ((h.view s).map (·.stretch (c * c)) ++ (h.view s).map (·.stretch (c * c))) := by
  have em : h.merge srt s s = (h.allocList ((srt (fun a b => (h.note a).lt (h.note b))
      (h.refs s ++ h.refs s)).foldl (insortLeft (fun a b => (h.note a).lt (h.note b))) [])).setNotesRef s h.nL := by
    unfold Heap.merge
    dsimp only
    rw [if_neg (by simp), if_neg, if_neg]
    · simp only [List.all_eq_true, beq_iff_eq, not_not]; exact vs
    · simp only [List.all_eq_true, beq_iff_eq, not_not]; exact vs
  set L := (srt (fun a b => (h.note a).lt (h.note b))
      (h.refs s ++ h.refs s)).foldl (insortLeft (fun a b => (h.note a).lt (h.note b))) [] with hL
  have hp : L.Perm (h.refs s ++ h.refs s) := by
    refine (foldl_insortLeft_perm _ _ _).trans ?_
    rw [List.append_nil]; exact hsrt _ _
  have e1 : (h.merge srt s s).refs s = L := by
    rw [em]
    unfold Heap.setNotesRef
    dsimp only
    by_cases d : (h.info s).isDrum
    · have d' : ((h.allocList L).info s).isDrum = true := d
      rw [if_pos d', (setTotal_refs _ _ _ _).1]
      have : (h.instr (h.seq s).instr).isDrum = true := d
      simp [Heap.refs, Heap.vis, Heap.info, Heap.setSeq, Heap.allocList, this]
    · have d' : ¬ ((h.allocList L).info s).isDrum = true := d
      rw [if_neg d', (setTotal_refs _ _ _ _).1]
      have : (h.instr (h.seq s).instr).isDrum = false := (by simpa using d : (h.info s).isDrum = false)
      simp [Heap.refs, Heap.vis, Heap.info, Heap.setSeq, Heap.allocList, this]
  have en : (h.merge srt s s).note = h.note := by
    rw [em]; unfold Heap.setNotesRef; dsimp only; rfl
  rw [(C118_stretch_seen_everywhere _ s s c).1, e1, en]
  unfold Heap.view
  rw [List.map_map, ← List.map_append]
  refine (hp.map _).trans ?_
  rw [List.map_append, List.map_append]
  have : (h.refs s).map (fun r => (h.note r).stretch (c ^ L.count r)) =
      (h.refs s).map ((fun n : Note => n.stretch (c * c)) ∘ h.note) := by
    apply List.map_congr_left
    intro r hr
    rw [hp.count_eq, List.count_append, List.count_eq_one_of_mem hd hr]
    simp [pow_succ]
  rw [this]

example : (((exHeap.merge (fun _ l => l) 0 0).stretch 0 3).view 0).Perm
    ((exHeap.view 0).map (·.stretch (3 * 3)) ++ (exHeap.view 0).map (·.stretch (3 * 3))) :=
  C118_self_merge (fun _ l => l) (fun _ l => List.Perm.refl l) exHeap 0
    (by intro n hn; unfold Heap.view at hn; simp only [List.mem_map] at hn; obtain ⟨r, _, rfl⟩ := hn; rfl)
    (by decide) 3

example : ∀ r ∈ exHeap.refs 0, r ∈ ((exHeap.construct [] 0).merge (fun _ l => l) 1 0).refs 1 :=
  fun r hr => ((C118_merge_shares (fun _ l => l) (fun _ l => List.Perm.refl l) (exHeap.construct [] 0)
    (Step.construct (c := ⟨[], [], []⟩) exHeap_wf ⟨by simp, by simp, by simp⟩ [] 0 (by simp) (by decide)).wf
    1 0 (by decide) (by decide) (by decide) rfl (by intro n hn; cases hn)
    (by intro n hn; unfold Heap.view at hn; simp only [List.mem_map] at hn; obtain ⟨r, _, rfl⟩ := hn; rfl)
    (by decide) 2).2 r hr).1

/-- **C118, `clone` shares the instrument object**, and so do `truncate`, `cut` and `slice`: an assignment to a field of the
clone's instrument changes the instrument of the source. If it turns the drum flag on, the source shows its drum
list. -/
theorem C118_clone_shares_instrument (h : Heap) (w : h.WF) (s : Nat) (hs : s < h.nS) (x : InstrumentInfo) :
    let i := ((h.clone s).seq h.nS).instr
    ((h.clone s).setInstr i x).info s = x ∧
    (x.isDrum = true → ((h.clone s).setInstr i x).view s = (h.list (h.seq s).drums).map h.note) := by
  have hne : s ≠ h.nS := by omega
  obtain ⟨w1, w2, w3⟩ := w.seqs s hs
  have e : ((h.clone s).seq h.nS).instr = (h.seq s).instr := by
    simp [Heap.clone, Heap.build, Heap.allocSeq, Heap.allocList, Heap.allocNotes]
  have es : ((h.clone s).setInstr ((h.clone s).seq h.nS).instr x).seq s = h.seq s := by
    simp [Heap.setInstr, Heap.clone, Heap.build, Heap.allocSeq, Heap.allocList, Heap.allocNotes, hne]
  have ei : ((h.clone s).setInstr ((h.clone s).seq h.nS).instr x).info s = x := by
    unfold Heap.info; rw [es, e]; simp [Heap.setInstr]
  refine ⟨ei, fun hx => ?_⟩
  unfold Heap.view Heap.refs Heap.vis
  rw [ei, hx, es]
  have hdr : (h.seq s).drums ≠ h.nL ∧ (h.seq s).drums ≠ h.nL + 1 := ⟨by omega, by omega⟩
  have el : ((h.clone s).setInstr ((h.clone s).seq h.nS).instr x).list (h.seq s).drums =
      h.list (h.seq s).drums := by
    simp [Heap.setInstr, Heap.clone, Heap.build, Heap.allocSeq, Heap.allocList, Heap.allocNotes, hdr]
  simp only [if_true]
  rw [el]
  apply List.map_congr_left
  intro r hr
  have : r < h.nN := w.lists _ w2 r hr
  simp [Heap.setInstr, Heap.clone, Heap.build, Heap.allocSeq, Heap.allocList, Heap.allocNotes, this]

example : ((exHeap.clone 0).setInstr ((exHeap.clone 0).seq 1).instr { generic with isDrum := true }).view 0 = [] :=
  (C118_clone_shares_instrument exHeap exHeap_wf 0 (by decide) { generic with isDrum := true }).2 rfl

/-! ## C117: the copy is a copy -/

/-- **C117, what the copy shows.** `clone()` of a melodic sequence shows the same notes, the same total time (if
not negative) and instrument; of a drum sequence, no notes. `truncate(t)` shows the notes that end by `t`. -/
theorem C117_copy_equal (h : Heap) (w : h.WF) (s : Nat) (hs : s < h.nS) (t : ℚ) :
    ((h.info s).isDrum = false → (h.clone s).view h.nS = h.view s) ∧
    ((h.info s).isDrum = true → (h.clone s).view h.nS = []) ∧
    (h.clone s).total h.nS = max 0 (h.total s) ∧ (h.clone s).info h.nS = h.info s ∧
    (h.truncate s t).view h.nS = (h.view s).filter (fun n => decide (n.stop ≤ t)) ∧
    (h.truncate s t).total h.nS = max 0 (min (h.total s) t) := by
  have ei : (h.clone s).info h.nS = h.info s := by
    simp [Heap.info, Heap.clone, Heap.build, Heap.allocSeq, Heap.allocList, Heap.allocNotes]
  refine ⟨?_, ?_, ?_, ei, ?_, ?_⟩
  · intro d
    have hl : (h.clone s).refs h.nS = (h.list (h.seq s).notes).map
        (fun r => h.nN + (h.list (h.seq s).notes).dedup.idxOf r) := by
      unfold Heap.refs Heap.vis
      rw [ei, d]
      simp [Heap.clone, Heap.build, Heap.allocSeq, Heap.allocList, Heap.allocNotes]
    have hr : h.refs s = h.list (h.seq s).notes := by unfold Heap.refs Heap.vis; rw [d]; rfl
    unfold Heap.view
    rw [hl, hr, List.map_map]
    apply List.map_congr_left
    intro r hr
    have hm : r ∈ (h.list (h.seq s).notes).dedup := List.mem_dedup.2 hr
    have hlt := List.idxOf_lt_length_of_mem hm
    show (h.clone s).note _ = _
    simp only [Heap.clone, Heap.build, Heap.allocSeq, Heap.allocList, Heap.allocNotes]
    rw [if_neg (by omega), Nat.add_sub_cancel_left, List.getD_eq_getElem?_getD, List.getElem?_map,
      List.getElem?_eq_getElem hlt, List.getElem_idxOf hlt]
    rfl
  · intro d
    unfold Heap.view Heap.refs Heap.vis
    rw [ei, d]
    simp [Heap.clone, Heap.build, Heap.allocSeq, Heap.allocList, Heap.allocNotes]
  · simp [Heap.total, Heap.clone, Heap.build, Heap.allocSeq, Heap.allocList, Heap.allocNotes]
  · unfold Heap.truncate
    dsimp only
    generalize (h.view s).filter (fun n => decide (n.stop ≤ t)) = ns
    have w1 : (h.allocNotes ns).WF := by
      constructor
      · intro x hx; exact w.seqs x hx
      · intro l hl r hr; have := w.lists l hl r hr; show r < h.nN + _; omega
    obtain ⟨c1, _, c3⟩ := construct_refs (h.allocNotes ns) w1 (List.range' h.nN ns.length) (h.seq s).instr
    have c1' : ((h.allocNotes ns).construct (List.range' h.nN ns.length) (h.seq s).instr).refs h.nS =
      List.range' h.nN ns.length := c1
    unfold Heap.view
    rw [(setTotal_refs _ _ _ _).1, c1']
    show (List.range' h.nN ns.length).map
      ((h.allocNotes ns).construct (List.range' h.nN ns.length) (h.seq s).instr).note = ns
    rw [c3]
    apply List.ext_getElem
    · simp
    · intro i h1 h2
      simp [Heap.allocNotes, List.getElem?_eq_getElem h2]
  · unfold Heap.truncate
    dsimp only
    simp [Heap.total, Heap.setTotal, Heap.setSeq]

/-- **C117, the hypothesis is met by every state calling code can reach**: from the empty heap, any program of any
client leads to a heap without dangling references and to registers that hold existing objects. -/
theorem C117_reachable (srt : (Nat → Nat → Bool) → List Nat → List Nat) (hsrt : ∀ lt l, (srt lt l).Perm l)
    (h0 : Heap) (e : h0.nN = 0 ∧ h0.nL = 0 ∧ h0.nI = 0 ∧ h0.nS = 0) (prog : List Cmd) :
    let r := Client.run srt ⟨[], [], []⟩ h0 prog
    r.2.WF ∧ r.1.Ok r.2 := by
  have gen : ∀ (prog : List Cmd) (c : Client) (h : Heap), h.WF → c.Ok h →
      (Client.run srt c h prog).2.WF ∧ (Client.run srt c h prog).1.Ok (Client.run srt c h prog).2 := by
    intro prog
    induction prog with
    | nil => intro c h w o; exact ⟨w, o⟩
    | cons cmd rest ih =>
      intro c h w o
      have st := Cmd.step srt hsrt c h w o cmd
      exact ih _ _ st.wf st.ok
  apply gen
  · constructor
    · intro s hs; omega
    · intro l hl; omega
  · exact ⟨by simp, by simp, by simp⟩

example : ((exHeap.clone 0).stretch 1 5).view 0 = exHeap.view 0 ∧
    ((exHeap.clone 0).stretch 1 5).view 1 ≠ exHeap.view 0 := by
  constructor
  · exact (C117_copy_isolated (fun _ l => l) (fun _ l => List.Perm.refl l) exHeap exHeap_wf 0 (by decide) 0
      [.stretch 0 5] 0 (by decide)).1.1
  · decide +kernel

end NGC
