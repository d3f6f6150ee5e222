import Verif.SeqProps

/-! Property theorems C26-C31 about `MidiNoteSequence`. -/

namespace NGC

/-! ## C26 extract -/

theorem setStart_error (n : Note) (v : ℚ) (e : Err) (h : n.setStart v = .error e) : e = .value := by
  unfold Note.setStart at h
  split_ifs at h <;> cases h <;> rfl

theorem setStop_error (n : Note) (v : ℚ) (e : Err) (h : n.setStop v = .error e) : e = .value := by
  unfold Note.setStop at h
  split_ifs at h <;> cases h <;> rfl

/-- Placing a note in a fresh sub-sequence always raises ValueError. -/
theorem extractPlace_fresh (l : List Note) (n : Note) (a b : ℚ) :
    extractPlace (l, 0) n a b = .error .value := by
  unfold extractPlace
  cases h1 : n.setStart (n.start - a) with
  | error e => rw [setStart_error _ _ _ h1]; rfl
  | ok m1 =>
    show (do let m ← m1.setStop (min n.stop b - a); _) = _
    cases h2 : m1.setStop (min n.stop b - a) with
    | error e => rw [setStop_error _ _ _ h2]; rfl
    | ok m2 =>
      show (do let m ← m2.setStop (min m2.stop (0 + m2.start)); _) = _
      have : m2.setStop (min m2.stop (0 + m2.start)) = .error .value := by
        cases h3 : m2.setStop (min m2.stop (0 + m2.start)) with
        | error e => rw [setStop_error _ _ _ h3]
        | ok m3 =>
          have := ((setStop_ok_iff _ _ _).1 h3).2.1
          have h4 : min m2.stop (0 + m2.start) ≤ 0 + m2.start := min_le_right _ _
          linarith
      rw [this]
      rfl

theorem findWindow_some (t : ℚ) (l : List ℚ) (i : Nat) (hl : 2 ≤ l.length)
    (h0 : l.headD 0 ≤ t) (h1 : t < l.getLastD 0) : ∃ j a b, findWindow t l i = some (j, a, b) := by
  induction l generalizing i with
  | nil => simp at hl
  | cons a rest ih =>
    cases rest with
    | nil => simp at hl
    | cons b rest =>
      rw [findWindow]
      split_ifs with hc
      · exact ⟨_, _, _, rfl⟩
      · simp only [List.headD_cons] at h0
        have hb : b ≤ t := by
          by_contra hb; exact hc ⟨h0, not_le.1 hb⟩
        cases rest with
        | nil =>
          simp only [List.getLastD_cons] at h1
          exact absurd h1 (not_lt.2 hb)
        | cons c rest =>
          exact ih (i + 1) (by simp) hb (by simpa using h1)

theorem findWindow_none (t : ℚ) (l : List ℚ) (i : Nat) (h : ∀ x ∈ l, x ≤ t) :
    findWindow t l i = none := by
  induction l generalizing i with
  | nil => rfl
  | cons a rest ih =>
    cases rest with
    | nil => rfl
    | cons b rest =>
      rw [findWindow, if_neg]
      · exact ih (i + 1) (fun x hx => h x (List.mem_cons_of_mem _ hx))
      · rintro ⟨_, hb⟩
        exact absurd (h b (by simp)) (not_le.2 hb)

/-- C26 is false whenever a note starts in the covered range: `extract` raises ValueError (the end
of the first note placed in a sub-sequence is cut down to its start). -/
theorem C26_extract_raises (s : MSeq) (splits : List ℚ) (n : Note)
    (hq : s.isQuantized = false) (hl : 2 ≤ splits.length)
    (hsorted : splits.Pairwise (· ≤ ·)) (htot : ∀ t ∈ splits.dropLast, t < s.total)
    (hn : n ∈ s.notes) (h0 : splits.headD 0 ≤ n.start) (h1 : n.start < splits.getLastD 0) :
    s.extract splits = .error .value := by
  have hz : (splits.zip splits.tail).all (fun p => decide (p.1 ≤ p.2)) = true := by
    rw [List.all_eq_true]
    intro p hp
    obtain ⟨i, hi, rfl⟩ := List.getElem_of_mem hp
    simp only [List.length_zip, List.length_tail] at hi
    simp only [List.getElem_zip, List.getElem_tail, decide_eq_true_eq]
    exact List.pairwise_iff_getElem.1 hsorted i (i + 1) (by omega) (by omega) (by omega)
  have hd : splits.dropLast.any (fun t => decide (t ≥ s.total)) = false := by
    rw [List.any_eq_false]
    intro t ht
    simpa using htot t ht
  unfold MSeq.extract
  rw [hq, if_neg (by simp), if_neg (by omega), if_neg (by simp [hz]), hd, if_neg (by simp)]
  have key : ∀ l : List Note, l.Pairwise (fun a b => a.start ≤ b.start) → n ∈ l →
      ∀ subs : List (List Note × ℚ), (∀ i, (subs.getD i ([], 0)).2 = 0) →
      extractGo splits l subs = .error .value := by
    intro l
    induction l with
    | nil => intro _ h; simp at h
    | cons m rest ih =>
      intro hs hmem subs hsub
      rw [List.pairwise_cons] at hs
      rw [extractGo]
      split_ifs with hlt
      · refine ih hs.2 ?_ subs hsub
        rcases List.mem_cons.1 hmem with rfl | h
        · exact absurd h0 (not_le.2 hlt)
        · exact h
      · have hm1 : m.start ≤ n.start := by
          rcases List.mem_cons.1 hmem with rfl | h
          · exact le_refl _
          · exact hs.1 n h
        obtain ⟨j, a, b, hw⟩ := findWindow_some m.start splits 0 hl (not_lt.1 hlt) (by linarith)
        rw [hw]
        have : subs.getD j ([], 0) = ((subs.getD j ([], 0)).1, 0) := Prod.ext rfl (hsub j)
        simp only []
        rw [this, extractPlace_fresh]
  refine key _ (sortByKey_sorted _ _) ((sortByKey_perm _ _).mem_iff.2 hn) _ ?_
  intro i
  rw [List.getD_eq_getElem?_getD, List.getElem?_replicate]
  split_ifs <;> rfl

/-- C26: if no note starts in the covered range, `extract` returns as many empty
sub-sequences as there are windows (all other inputs: `C26_extract_raises`, `C26_arguments`). -/
theorem C26_extract_empty (s : MSeq) (splits : List ℚ)
    (hq : s.isQuantized = false) (hl : 2 ≤ splits.length)
    (hsorted : splits.Pairwise (· ≤ ·)) (htot : ∀ t ∈ splits.dropLast, t < s.total)
    (hn : ∀ n ∈ s.notes, n.start < splits.headD 0 ∨ splits.getLastD 0 ≤ n.start) :
    s.extract splits = .ok (List.replicate (splits.length - 1) ([], 0)) := by
  have hz : (splits.zip splits.tail).all (fun p => decide (p.1 ≤ p.2)) = true := by
    rw [List.all_eq_true]
    intro p hp
    obtain ⟨i, hi, rfl⟩ := List.getElem_of_mem hp
    simp only [List.length_zip, List.length_tail] at hi
    simp only [List.getElem_zip, List.getElem_tail, decide_eq_true_eq]
    exact List.pairwise_iff_getElem.1 hsorted i (i + 1) (by omega) (by omega) (by omega)
  have hd : splits.dropLast.any (fun t => decide (t ≥ s.total)) = false := by
    rw [List.any_eq_false]
    intro t ht
    simpa using htot t ht
  unfold MSeq.extract
  rw [hq, if_neg (by simp), if_neg (by omega), if_neg (by simp [hz]), hd, if_neg (by simp)]
  have hlast : ∀ x ∈ splits, x ≤ splits.getLastD 0 := by
    intro x hx
    have hne : splits ≠ [] := by intro h; rw [h] at hl; simp at hl
    have e : splits.getLastD 0 = splits.getLast hne := by
      rw [List.getLastD_eq_getLast?, List.getLast?_eq_getLast_of_ne_nil hne]; rfl
    rw [e]
    obtain ⟨i, hi, rfl⟩ := List.getElem_of_mem hx
    rw [List.getLast_eq_getElem]
    rcases Nat.lt_or_ge i (splits.length - 1) with h | h
    · exact List.pairwise_iff_getElem.1 hsorted i _ hi (by omega) h
    · have : i = splits.length - 1 := by omega
      subst this; exact le_refl _
  have key : ∀ l : List Note, (∀ m ∈ l, m.start < splits.headD 0 ∨ splits.getLastD 0 ≤ m.start) →
      ∀ subs, extractGo splits l subs = .ok subs := by
    intro l
    induction l with
    | nil => intro _ subs; rfl
    | cons m rest ih =>
      intro hm subs
      rw [extractGo]
      split_ifs with hlt
      · exact ih (fun x hx => hm x (List.mem_cons_of_mem _ hx)) subs
      · rcases hm m (by simp) with h | h
        · exact absurd h hlt
        · rw [findWindow_none m.start splits 0 (fun x hx => le_trans (hlast x hx) h)]
  exact key _ (fun m hm => hn m ((sortByKey_perm _ _).mem_iff.1 hm)) _

/-- C26, refused arguments: a quantized sequence, fewer than two split points, split points that are
not in order, and (otherwise) a split point other than the last that is not before the total time. -/
theorem C26_arguments (s : MSeq) (splits : List ℚ) :
    (s.isQuantized = true → s.extract splits = .error .value) ∧
    (s.isQuantized = false → splits.length < 2 → s.extract splits = .error .type) ∧
    (s.isQuantized = false → 2 ≤ splits.length → ¬ splits.Pairwise (· ≤ ·) →
      s.extract splits = .error .assertion) ∧
    (s.isQuantized = false → 2 ≤ splits.length → splits.Pairwise (· ≤ ·) →
      (∃ t ∈ splits.dropLast, s.total ≤ t) → s.extract splits = .error .type) := by
  have hz : (splits.zip splits.tail).all (fun p => decide (p.1 ≤ p.2)) = true ↔
      splits.Pairwise (· ≤ ·) := by
    rw [← List.isChain_iff_pairwise]
    induction splits with
    | nil => simp
    | cons a rest ih =>
      cases rest with
      | nil => simp
      | cons b rest =>
        simp only [List.tail_cons, List.zip_cons_cons, List.all_cons, Bool.and_eq_true, decide_eq_true_eq,
          List.isChain_cons_cons] at ih ⊢
        rw [ih]
  unfold MSeq.extract
  refine ⟨fun h => by simp [h], fun h hl => by simp [h, hl], fun h hl hs => ?_, fun h hl hs ht => ?_⟩
  · rw [h, if_neg (by simp), if_neg (by omega), if_pos (by rw [hz]; exact hs)]
  · have : splits.dropLast.any (fun t => decide (t ≥ s.total)) = true := by
      rw [List.any_eq_true]
      obtain ⟨t, h1, h2⟩ := ht
      exact ⟨t, h1, by simpa using h2⟩
    rw [h, if_neg (by simp), if_neg (by omega), if_neg (by rw [hz]; simpa using hs), if_pos this]

example : exSeq.isQuantized = false ∧ exSeq.extract [0, 1, 2] = .error .value ∧
    exSeq.extract [2, 5/2] = .ok [([], 0)] := by decide +kernel

/-! ## C27 clone -/

/-- C27: the clone of a melodic sequence has the same visible notes, instrument, resolution,
control changes, pitch bends and (non-negative) total time. Boundary: drum sequences
(`C27_clone_drum_empty`). -/
theorem C27_clone (s : MSeq) (hm : s.instr.isDrum = false) (ht : 0 ≤ s.total) :
    s.clone.notes = s.notes ∧ s.clone.instr = s.instr ∧ s.clone.resolution = s.resolution ∧
    s.clone.total = s.total ∧ s.clone.ccs = s.ccs ∧ s.clone.bends = s.bends ∧
    s.clone.totalSteps = s.totalSteps := by
  refine ⟨?_, rfl, rfl, max_eq_right ht, rfl, rfl, rfl⟩
  simp [MSeq.clone, MSeq.notes, hm]

/-- C27 is false for drum sequences: the clone has no notes at all. -/
theorem C27_clone_drum_empty (s : MSeq) (hm : s.instr.isDrum = true) : s.clone.notes = [] := by
  simp [MSeq.clone, MSeq.notes, hm, MSeq.empty, MSeq.mk']

example : (MSeq.mk' [{ exNote with isDrum := true }] { num := 0, name := "Kit", isDrum := true }).notes.length = 1 ∧
    (MSeq.mk' [{ exNote with isDrum := true }] { num := 0, name := "Kit", isDrum := true }).clone.notes.length = 0 ∧
    exSeq.clone = exSeq := by decide +kernel

/-- C27: the empty clone keeps everything but the events. -/
theorem C27_clone_empty (s : MSeq) (ht : 0 ≤ s.total) :
    s.cloneEmpty.notes = [] ∧ s.cloneEmpty.ccs = [] ∧ s.cloneEmpty.bends = [] ∧
    s.cloneEmpty.instr = s.instr ∧ s.cloneEmpty.resolution = s.resolution ∧
    s.cloneEmpty.total = s.total := by
  refine ⟨?_, rfl, rfl, rfl, rfl, max_eq_right ht⟩
  simp [MSeq.cloneEmpty, MSeq.notes, MSeq.empty, MSeq.mk']

/-! ## C28 addition -/

/-- C28 is false: adding two sequences succeeds exactly when the instruments are equal and both are
empty; otherwise it raises ValueError. -/
theorem C28_add_only_empty (a b : MSeq) :
    ((∃ r, a.add b = .ok r) ↔ a.instr = b.instr ∧ a.notes = [] ∧ b.notes = []) ∧
    (∀ r, a.add b = .ok r → r.notes = a.notes ++ b.notes ∧ r.instr = a.instr) ∧
    (∀ e, a.add b = .error e → e = .value) := by
  unfold MSeq.add
  by_cases h1 : a.instr = b.instr
  · rw [if_neg (not_not.2 h1)]
    by_cases h2 : a.notes ≠ [] ∨ b.notes ≠ []
    · rw [if_pos h2]
      refine ⟨⟨fun ⟨r, h⟩ => (by cases h), fun h => absurd h2 (by tauto)⟩, by simp, by rintro e ⟨⟩; rfl⟩
    · rw [if_neg h2]
      push Not at h2
      refine ⟨⟨fun _ => ⟨h1, h2⟩, fun _ => ⟨_, rfl⟩⟩, ?_, by simp⟩
      rintro r ⟨⟩; simp
  · rw [if_pos h1]
    exact ⟨⟨fun ⟨r, h⟩ => (by cases h), fun h => absurd h.1 h1⟩, by simp, by rintro e ⟨⟩; rfl⟩

example : exSeq.add exSeq = .error .value ∧ ∀ n ∈ exSeq.notes, n.instrument = exSeq.instr.num := by
  decide +kernel

/-! ## C29 quantize -/

theorem quantizeGo_ok (sps : Int) (amount : ℚ) (l : List Note) (st : ℚ) (hs : 1 ≤ sps)
    (ha : 0 < amount) (ha1 : amount ≤ 1)
    (hl : ∀ n ∈ l, n.Valid ∧ 0 ≤ n.start ∧ (∃ k : Nat, n.denom = 2 ^ k)) :
    ∃ ms, quantizeGo sps amount l st = .ok (ms, l.foldl (fun a n => max a n.qe) st) ∧
      ms.length = l.length ∧
      List.Forall₂ (fun n m => n.quantizeInPlace sps amount = .ok m) l ms := by
  induction l generalizing st with
  | nil => exact ⟨[], rfl, rfl, List.Forall₂.nil⟩
  | cons n rest ih =>
    obtain ⟨hv, h0, hd⟩ := hl n (by simp)
    have hcopy := makeCopy_of_valid n hv ((denomOk_iff _).2 hd)
    obtain ⟨m, hm⟩ : ∃ m, n.quantizeInPlace sps amount = .ok m :=
      ⟨_, quantizeInPlace_eq n sps amount h0 hv.times hs ha ha1⟩
    have hq : n.quantize sps amount = .ok m := by
      unfold Note.quantize
      rw [hcopy]; exact hm
    obtain ⟨ms, hms, hlen, hf⟩ := ih (max st n.qe) (fun x hx => hl x (List.mem_cons_of_mem _ hx))
    have emax : (if n.qe > st then n.qe else st) = max st n.qe := by
      split_ifs with h
      · exact (max_eq_right (le_of_lt h)).symm
      · exact (max_eq_left (not_lt.1 h)).symm
    refine ⟨m :: ms, ?_, by simp [hlen], List.Forall₂.cons hm hf⟩
    rw [quantizeGo, hq]
    simp only [emax, hms, List.foldl_cons]

/-- C29: quantizing a sequence without control changes whose notes are well formed and do not start
before 0 succeeds; the notes are quantized one by one in the same order, all of them end up
quantized, and `is_quantized()` holds. -/
theorem C29_quantize (s : MSeq) (sps : Int) (amount : ℚ) (hs : 1 ≤ sps)
    (ha : 0 < amount) (ha1 : amount ≤ 1) (hcc : s.ccs = [])
    (hl : ∀ n ∈ s.notes, n.Valid ∧ 0 ≤ n.start ∧ (∃ k : Nat, n.denom = 2 ^ k)) :
    ∃ r, s.quantize sps amount = .ok r ∧ r.notes.length = s.notes.length ∧
      List.Forall₂ (fun n m => n.quantizeInPlace sps amount = .ok m) s.notes r.notes ∧
      (∀ m ∈ r.notes, m.isQuantized = true ∧ m.start < m.stop) ∧ r.isQuantized = true ∧
      r.instr = s.instr ∧ Spec.Covers r := by
  obtain ⟨ms, hms, hlen, hf⟩ := quantizeGo_ok sps amount s.notes s.totalSteps hs ha ha1 hl
  have hall : ∀ m ∈ ms, m.isQuantized = true ∧ m.start < m.stop := by
    clear hms hlen
    generalize s.notes = l at hl hf
    induction hf with
    | nil => simp
    | @cons n m l' ms' h _ ih =>
      intro x hx
      rcases List.mem_cons.1 hx with rfl | hx
      · obtain ⟨hv, h0, _⟩ := hl n (by simp)
        have hsp : (0 : ℚ) < sps := by exact_mod_cast (by omega : 0 < sps)
        have hss : n.start * sps < n.stop * sps := by nlinarith [hv.times]
        rw [quantizeInPlace_eq n sps amount h0 hv.times hs ha ha1] at h
        have h' := (Except.ok.inj h).symm
        have hF0 : (0 : ℚ) ≤ (⌊n.start * sps + (1 - amount)⌋ : ℚ) := by
          exact_mod_cast Int.floor_nonneg.2 (by nlinarith)
        have hF1 := Int.floor_le (n.start * sps + (1 - amount))
        have hC1 := Int.le_ceil (n.stop * sps + (1 - amount))
        have hpos : 0 < ((⌈n.stop * sps + (1 - amount)⌉ : ℚ) -
            (⌊n.start * sps + (1 - amount)⌋ : ℚ)) / sps := div_pos (by linarith) hsp
        have hp : 0 < n.stop := lt_of_le_of_lt h0 hv.times
        constructor
        · rw [h']
          unfold Note.isQuantized
          simp only [ge_iff_le, Bool.and_eq_true, decide_eq_true_eq]
          refine ⟨hF0, ?_⟩
          split_ifs <;> linarith
        · rw [h']
          simp only []
          have hlt' : max 0 (min (around2 ((⌊n.start * sps + (1 - amount)⌋ : ℚ) / sps)) (n.stop - 1/1000))
              < n.stop := by
            apply max_lt hp
            exact lt_of_le_of_lt (min_le_right _ _) (by linarith)
          split_ifs with hb
          · linarith [hv.times]
          · linarith
      · exact ih (fun y hy => hl y (List.mem_cons_of_mem _ hy)) x hx
  refine ⟨{ (({ s with totalSteps := s.notes.foldl (fun a n => max a n.qe) s.totalSteps } : MSeq).setNotes ms)
    with ccs := [] }, ?_, ?_⟩
  · unfold MSeq.quantize
    simp only [hms, hcc]
    rfl
  · have hn : ({ (({ s with totalSteps := s.notes.foldl (fun a n => max a n.qe) s.totalSteps } : MSeq).setNotes ms)
        with ccs := [] } : MSeq).notes = ms := by
      have := notes_setNotes ({ s with totalSteps := s.notes.foldl (fun a n => max a n.qe) s.totalSteps } : MSeq) ms
      unfold MSeq.notes at this ⊢
      exact this
    rw [hn]
    refine ⟨hlen, hf, hall, ?_, ?_, ?_⟩
    · unfold MSeq.isQuantized
      rw [hn, List.all_eq_true]
      exact fun m hm => (hall m hm).1
    · exact instr_setNotes _ _
    · unfold Spec.Covers
      rw [hn]
      exact ⟨le_max_left _ _, fun n hn => le_trans (maxEnd_ge _ n hn) (le_max_right _ _)⟩

/-- C29 is false about `total_quantized_steps`: it looks at the notes before quantization, so on
fresh notes (end step -1) it does not change, although the new notes have positive end steps. -/
theorem C29_total_steps_stale (s r : MSeq) (sps : Int) (amount : ℚ) (h0 : 0 ≤ s.totalSteps)
    (hfresh : ∀ n ∈ s.notes, n.qe = -1) (hr : s.quantize sps amount = .ok r) :
    r.totalSteps = s.totalSteps := by
  have key : ∀ (l : List Note) (st : ℚ), 0 ≤ st → (∀ n ∈ l, n.qe = -1) → ∀ ms st',
      quantizeGo sps amount l st = .ok (ms, st') → st' = st := by
    intro l
    induction l with
    | nil => intro st _ _ ms st' h; cases h; rfl
    | cons n rest ih =>
      intro st hst hl ms st' h
      rw [quantizeGo] at h
      split at h
      · cases h
      · have hqe : ¬ n.qe > st := by rw [hl n (by simp)]; linarith
        rw [if_neg hqe] at h
        split at h
        · cases h
        · rename_i ms2 st2 heq
          cases h
          exact ih st hst (fun x hx => hl x (List.mem_cons_of_mem _ hx)) _ _ heq
  unfold MSeq.quantize at hr
  split at hr
  · cases hr
  · rename_i ms st heq
    split at hr
    · cases hr
    · cases hr
      show (MSeq.setVisible _ _).totalSteps = _
      rw [totalSteps_setVisible]
      exact key _ _ h0 hfresh _ _ heq

example : (exSeq.quantize 4 (1/2)).map (fun r => (r.notes.map Note.qe, r.totalSteps)) =
    .ok ([5, 13], 0) := by decide +kernel

/-- C29: any control change in the sequence makes quantization fail (see C18). -/
theorem C29_control_change_raises (s : MSeq) (sps : Int) (amount : ℚ) (h : s.ccs ≠ []) :
    raises (s.quantize sps amount) := by
  unfold MSeq.quantize raises
  split
  · exact ⟨_, rfl⟩
  · cases hc : s.ccs with
    | nil => exact absurd hc h
    | cons c rest =>
      rw [List.mapM_cons, (C18_quantize_always_raises c sps amount).2]
      exact ⟨.value, rfl⟩

/-! ## C30 intervals and split -/

theorem consumeNotes_spec (p : ℚ) (skip : Bool) (l span : List Note) :
    (∀ x ∈ (consumeNotes p skip l span).2.2, x = p) ∧
    (skip = false → (consumeNotes p skip l span).2.2 =
      List.replicate (l.takeWhile (fun n => decide (n.start < p))).length p) ∧
    (consumeNotes p skip l span).1 = l.dropWhile (fun n => decide (n.start < p)) := by
  induction l generalizing span with
  | nil => exact ⟨by simp [consumeNotes], fun _ => rfl, rfl⟩
  | cons n rest ih =>
    by_cases h : n.start < p
    · rw [consumeNotes, if_pos h]
      generalize (if n.stop > p then span ++ [n] else span) = sp
      obtain ⟨h1, h2, h3⟩ := ih sp
      refine ⟨?_, ?_, ?_⟩
      · intro x hx
        simp only [] at hx
        split_ifs at hx with hc <;>
        first
        | exact h1 x hx
        | (rcases List.mem_cons.1 hx with rfl | hx
           · rfl
           · exact h1 x hx)
      · intro hs
        have := h2 hs
        subst hs
        simp only [Bool.false_and, Bool.not_false, if_true]
        rw [this, List.takeWhile_cons_of_pos (by simpa using h), List.length_cons,
          List.replicate_succ]
      · simp only []
        rw [h3, List.dropWhile_cons_of_pos (by simpa using h)]
    · rw [consumeNotes, if_neg h]
      refine ⟨by simp, fun _ => ?_, ?_⟩
      · rw [List.takeWhile_cons_of_neg (by simpa using h)]; rfl
      · rw [List.dropWhile_cons_of_neg (by simpa using h)]

theorem intervalsGo_mem (skip : Bool) (ps : List ℚ) (notes span : List Note) :
    ∀ x ∈ intervalsGo skip ps notes span, x ∈ ps := by
  induction ps generalizing notes span with
  | nil => simp [intervalsGo]
  | cons p ps ih =>
    intro x hx
    rw [intervalsGo] at hx
    simp only [List.mem_append] at hx
    rcases hx with hx | hx
    · rw [(consumeNotes_spec _ _ _ _).1 x hx]; simp
    · exact List.mem_cons_of_mem _ (ih _ _ x hx)

theorem intervalsGo_sorted (skip : Bool) (ps : List ℚ) (notes span : List Note)
    (hs : ps.Pairwise (· ≤ ·)) : (intervalsGo skip ps notes span).Pairwise (· ≤ ·) := by
  induction ps generalizing notes span with
  | nil => simp [intervalsGo]
  | cons p ps ih =>
    rw [List.pairwise_cons] at hs
    rw [intervalsGo]
    rw [List.pairwise_append]
    refine ⟨?_, ih _ _ hs.2, ?_⟩
    · rw [List.pairwise_iff_forall_sublist]
      intro a b hab
      have ha := (consumeNotes_spec p skip notes (span.dropWhile (fun n => decide (n.stop ≤ p)))).1 a
        (hab.subset (by simp))
      have hb := (consumeNotes_spec p skip notes (span.dropWhile (fun n => decide (n.stop ≤ p)))).1 b
        (hab.subset (by simp))
      rw [ha, hb]
    · intro a ha b hb
      rw [(consumeNotes_spec _ _ _ _).1 a ha]
      exact hs.1 b (intervalsGo_mem _ _ _ _ b hb)

/-- C30: the boundaries start at 0, are requested split points and, for sorted non-negative
split points, are sorted. Boundary: uniqueness (`C30_duplicates`), and pieces
(`C30_split_no_pieces`). -/
theorem C30_intervals (notes : List Note) (splits : List ℚ) (skip : Bool) :
    (computeIntervals notes splits skip).head? = some 0 ∧
    (∀ x ∈ (computeIntervals notes splits skip).tail, x ∈ splits) ∧
    (splits.Pairwise (· ≤ ·) → (∀ x ∈ splits, 0 ≤ x) →
      (computeIntervals notes splits skip).Pairwise (· ≤ ·)) := by
  unfold computeIntervals
  refine ⟨rfl, fun x hx => intervalsGo_mem _ _ _ _ x hx, fun hs h0 => ?_⟩
  rw [List.pairwise_cons]
  exact ⟨fun b hb => h0 b (intervalsGo_mem _ _ _ _ b hb), intervalsGo_sorted _ _ _ _ hs⟩

theorem takeWhile_length_sorted (l : List Note) (p : ℚ) (hs : l.Pairwise (fun a b => a.start ≤ b.start)) :
    (l.takeWhile (fun n => decide (n.start < p))).length = l.countP (fun n => decide (n.start < p)) ∧
    l.dropWhile (fun n => decide (n.start < p)) = l.filter (fun n => decide (p ≤ n.start)) := by
  induction l with
  | nil => exact ⟨rfl, rfl⟩
  | cons n rest ih =>
    rw [List.pairwise_cons] at hs
    by_cases h : n.start < p
    · rw [List.takeWhile_cons_of_pos (by simpa using h), List.dropWhile_cons_of_pos (by simpa using h),
        List.countP_cons_of_pos (by simpa using h), List.filter_cons_of_neg (by simpa using h),
        List.length_cons, (ih hs.2).1, (ih hs.2).2]
      exact ⟨rfl, rfl⟩
    · rw [List.takeWhile_cons_of_neg (by simpa using h), List.dropWhile_cons_of_neg (by simpa using h),
        List.countP_cons_of_neg (by simpa using h), List.filter_cons_of_pos (by simpa using h)]
      have hrest : ∀ m ∈ rest, p ≤ m.start := fun m hm => le_trans (not_lt.1 h) (hs.1 m hm)
      refine ⟨?_, ?_⟩
      · symm
        rw [List.length_nil, List.countP_eq_zero]
        intro m hm
        simpa using hrest m hm
      · congr 1
        symm
        rw [List.filter_eq_self]
        intro m hm
        simpa using hrest m hm

/-- C30: exact multiplicity. For notes sorted by start, strictly increasing split points and no
boundary skipping, a split point occurs once for every note that starts before it and not before
the previous split point. -/
theorem C30_multiplicity (notes : List Note) (p : ℚ) (ps : List ℚ)
    (hs : notes.Pairwise (fun a b => a.start ≤ b.start)) (hp : (p :: ps).Pairwise (· < ·)) :
    (computeIntervals notes (p :: ps) false).tail =
      List.replicate (notes.countP (fun n => decide (n.start < p))) p ++
      (computeIntervals (notes.filter (fun n => decide (p ≤ n.start))) ps false).tail := by
  have span_irrel : ∀ (ps : List ℚ) (l s1 s2 : List Note),
      intervalsGo false ps l s1 = intervalsGo false ps l s2 := by
    intro ps
    induction ps with
    | nil => intros; rfl
    | cons q qs ih =>
      intro l s1 s2
      rw [intervalsGo, intervalsGo]
      rw [(consumeNotes_spec q false l _).2.1 rfl, (consumeNotes_spec q false l _).2.1 rfl,
        (consumeNotes_spec q false l _).2.2, (consumeNotes_spec q false l _).2.2]
      congr 1
      exact ih _ _ _
  unfold computeIntervals
  simp only [List.tail_cons]
  rw [intervalsGo]
  rw [(consumeNotes_spec p false notes _).2.1 rfl, (consumeNotes_spec p false notes _).2.2,
    (takeWhile_length_sorted notes p hs).1, (takeWhile_length_sorted notes p hs).2]
  congr 1
  exact span_irrel _ _ _ _

/-- C30 is false about uniqueness: two notes before one split point give the boundary twice; and a
split point with no note before it is dropped. -/
theorem C30_duplicates :
    computeIntervals [exNote, { exNote with start := 1/2 }] [2] false = [0, 2, 2] ∧
    computeIntervals [exNote] [2, 3] false = [0, 2] := by decide +kernel

/-- C30 is false about `split`: on any sequence of positive total time it raises AttributeError, and
it never returns a piece. -/
theorem C30_split_no_pieces (s : MSeq) (splits : List ℚ) (skip : Bool) :
    (0 < s.total → s.split splits skip = .error .attribute) ∧
    (∀ r, s.split splits skip = .ok r → r = []) := by
  constructor
  · intro ht
    unfold MSeq.split
    simp only []
    rw [if_neg]
    have key : ∀ L : List ℚ, ¬ (if s.total > (0 :: L).getLastD 0 then (0 :: L) ++ [s.total]
        else 0 :: L).length ≤ 1 := by
      intro L
      cases L with
      | nil =>
        rw [if_pos]
        · simp
        · simpa using ht
      | cons a l => split_ifs <;> simp
    exact key _
  · intro r hr
    unfold MSeq.split at hr
    simp only [] at hr
    split_ifs at hr <;> cases hr <;> rfl

example : 0 < exSeq.total ∧ exSeq.split [1, 2] false = .error .attribute := by decide +kernel

/-! ## C31 minimum step -/

namespace Spec

/-- Consecutive disjoint notes of a list. -/
def ConsecDisjoint (l : List Note) (a b : Note) : Prop :=
  (∃ pre post, l = pre ++ a :: b :: post) ∧ a.stop < b.start

end Spec

theorem stepGaps_mem (l : List Note) (q : ℚ) :
    q ∈ stepGaps l ↔ ∃ a b, Spec.ConsecDisjoint l a b ∧ q = b.start - a.start := by
  induction l with
  | nil =>
    simp only [stepGaps, List.not_mem_nil, false_iff]
    rintro ⟨a, b, ⟨⟨pre, post, h⟩, _⟩, _⟩
    cases pre <;> simp at h
  | cons x rest ih =>
    cases rest with
    | nil =>
      simp only [stepGaps, List.not_mem_nil, false_iff]
      rintro ⟨a, b, ⟨⟨pre, post, h⟩, _⟩, _⟩
      cases pre with
      | nil => simp at h
      | cons _ pre => cases pre <;> simp at h
    | cons y rest =>
      have split : (∃ a b, Spec.ConsecDisjoint (x :: y :: rest) a b ∧ q = b.start - a.start) ↔
          (x.stop < y.start ∧ q = y.start - x.start) ∨
          ∃ a b, Spec.ConsecDisjoint (y :: rest) a b ∧ q = b.start - a.start := by
        constructor
        · rintro ⟨a, b, ⟨⟨pre, post, h⟩, hd⟩, hq⟩
          cases pre with
          | nil =>
            simp only [List.nil_append, List.cons.injEq] at h
            obtain ⟨rfl, rfl, _⟩ := h
            exact Or.inl ⟨hd, hq⟩
          | cons z pre =>
            simp only [List.cons_append, List.cons.injEq] at h
            exact Or.inr ⟨a, b, ⟨⟨pre, post, h.2⟩, hd⟩, hq⟩
        · rintro (⟨hd, hq⟩ | ⟨a, b, ⟨⟨pre, post, h⟩, hd⟩, hq⟩)
          · exact ⟨x, y, ⟨⟨[], rest, rfl⟩, hd⟩, hq⟩
          · exact ⟨a, b, ⟨⟨x :: pre, post, by simp [h]⟩, hd⟩, hq⟩
      rw [split, ← ih, stepGaps]
      split_ifs with hc
      · simp only [List.mem_cons]; tauto
      · simp only [hc, false_and, false_or]

theorem foldl_min_le (l : List ℚ) (x : ℚ) : l.foldl min x ≤ x ∧ ∀ y ∈ l, l.foldl min x ≤ y := by
  induction l generalizing x with
  | nil => simp
  | cons z zs ih =>
    obtain ⟨h1, h2⟩ := ih (min x z)
    simp only [List.foldl_cons, List.mem_cons]
    refine ⟨le_trans h1 (min_le_left _ _), ?_⟩
    rintro y (rfl | hy)
    · exact le_trans h1 (min_le_right _ _)
    · exact h2 y hy

theorem foldl_min_mem (l : List ℚ) (x : ℚ) : l.foldl min x = x ∨ l.foldl min x ∈ l := by
  induction l generalizing x with
  | nil => simp
  | cons z zs ih =>
    simp only [List.foldl_cons, List.mem_cons]
    rcases ih (min x z) with h | h
    · rw [h]; rcases min_choice x z with h' | h' <;> rw [h'] <;> simp
    · exact Or.inr (Or.inr h)

theorem minDefault0_spec (l : List ℚ) :
    (l = [] → minDefault0 l = 0) ∧ (l ≠ [] → minDefault0 l ∈ l ∧ ∀ y ∈ l, minDefault0 l ≤ y) := by
  cases l with
  | nil => simp [minDefault0]
  | cons x xs =>
    refine ⟨by simp, fun _ => ⟨?_, ?_⟩⟩
    · rcases foldl_min_mem xs x with h | h
      · show xs.foldl min x ∈ _
        rw [h]; simp
      · exact List.mem_cons_of_mem _ h
    · intro y hy
      have := foldl_min_le xs x
      rcases List.mem_cons.1 hy with rfl | hy
      · exact this.1
      · exact this.2 y hy

theorem stepGaps_short (l : List Note) (hl : l.length < 2) : stepGaps l = [] := by
  cases l with
  | nil => rw [stepGaps]; simp
  | cons x xs =>
    cases xs with
    | nil => rw [stepGaps]; simp
    | cons y ys => simp at hl; omega

/-- C31: the minimum step is the least start distance of consecutive disjoint notes in start order,
0 if there are none, and never negative for notes with start before end. -/
theorem C31_min_step (s : MSeq) (hv : ∀ n ∈ s.notes, n.start < n.stop) :
    let l := sortByKey Note.start s.notes
    ((∀ a b, ¬ Spec.ConsecDisjoint l a b) → s.minStep = 0) ∧
    ((∃ a b, Spec.ConsecDisjoint l a b) →
      (∃ a b, Spec.ConsecDisjoint l a b ∧ s.minStep = b.start - a.start) ∧
      (∀ a b, Spec.ConsecDisjoint l a b → s.minStep ≤ b.start - a.start) ∧ 0 < s.minStep) ∧
    0 ≤ s.minStep := by
  intro l
  have hperm : l.Perm s.notes := sortByKey_perm _ _
  have hdef : s.minStep = minDefault0 (stepGaps l) := by
    have hd : s.minStep = if s.notes.length < 2 then 0 else minDefault0 (stepGaps l) := rfl
    rw [hd]
    clear_value l
    split_ifs with h
    · have hl : l.length < 2 := by rw [hperm.length_eq]; exact h
      rw [stepGaps_short l hl, minDefault0]
    · rfl
  clear_value l
  have hnone : (∀ a b, ¬ Spec.ConsecDisjoint l a b) → s.minStep = 0 := by
    intro hno
    rw [hdef]
    apply (minDefault0_spec _).1
    rw [List.eq_nil_iff_forall_not_mem]
    intro q hq
    obtain ⟨a, b, hab, _⟩ := (stepGaps_mem l q).1 hq
    exact hno a b hab
  have hsome : (∃ a b, Spec.ConsecDisjoint l a b) →
      (∃ a b, Spec.ConsecDisjoint l a b ∧ s.minStep = b.start - a.start) ∧
      (∀ a b, Spec.ConsecDisjoint l a b → s.minStep ≤ b.start - a.start) ∧ 0 < s.minStep := by
    rintro ⟨a, b, hab⟩
    have hne : stepGaps l ≠ [] := by
      intro he
      have := (stepGaps_mem l (b.start - a.start)).2 ⟨a, b, hab, rfl⟩
      rw [he] at this; simp at this
    obtain ⟨h1, h2⟩ := (minDefault0_spec (stepGaps l)).2 hne
    rw [← hdef] at h1 h2
    obtain ⟨a', b', hab', hq⟩ := (stepGaps_mem l _).1 h1
    refine ⟨⟨a', b', hab', hq⟩, ?_, ?_⟩
    · intro x y hxy
      exact h2 _ ((stepGaps_mem l _).2 ⟨x, y, hxy, rfl⟩)
    · rw [hq]
      obtain ⟨⟨pre, post, he⟩, hd⟩ := hab'
      have hm : a' ∈ s.notes := by
        rw [← hperm.mem_iff, he]; simp
      linarith [hv a' hm]
  refine ⟨hnone, hsome, ?_⟩
  by_cases h : ∃ a b, Spec.ConsecDisjoint l a b
  · exact le_of_lt (hsome h).2.2
  · push Not at h
    rw [hnone h]

example : (MSeq.mk' [{ exNote with start := 5, stop := 6 }, exNote, { exNote with start := 2, stop := 4 }]
    { num := 0, name := "Piano", isDrum := false }).minStep = 2 ∧ exSeq.minStep = 0 := by decide +kernel

end NGC
