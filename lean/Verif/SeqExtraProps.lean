import Verif.SeqExtra
import Verif.SequencesProps

/-! Properties C146, C147. -/

namespace NGC

/-! ### C146: remembered answers, resolution, order -/

theorem initialTempo_keeps (c : CachedSeq) (ops : List CachedOp) (r : Option ℚ) (h : c.tempoMemo = some r) :
    (c.run ops).initialTempo.1 = r := by
  induction ops generalizing c with
  | nil =>
    unfold CachedSeq.run CachedSeq.initialTempo
    rw [List.foldl_nil, h]
  | cons op ops ih =>
    rw [CachedSeq.run, List.foldl_cons]
    refine ih _ ?_
    cases op with
    | change f => exact h
    | tempos l => exact h
    | initialTempo =>
      simp only [CachedSeq.step, CachedSeq.initialTempo]
      rw [h]
      exact h
    | lastEvent o =>
      simp only [CachedSeq.step, CachedSeq.lastEvent]
      split <;> exact h

theorem lastEvent_keeps (c : CachedSeq) (ops : List CachedOp) (o r : Option ℚ)
    (h : (c.endMemo.find? (fun p => decide (p.1 = o))).map (·.2) = some r) : ((c.run ops).lastEvent o).1 = r := by
  induction ops generalizing c with
  | nil =>
    unfold CachedSeq.run CachedSeq.lastEvent
    rw [List.foldl_nil]
    cases hf : c.endMemo.find? (fun p => decide (p.1 = o)) with
    | none => rw [hf] at h; cases h
    | some p => rw [hf] at h; exact Option.some.inj h
  | cons op ops ih =>
    rw [CachedSeq.run, List.foldl_cons]
    refine ih _ ?_
    cases op with
    | change f => exact h
    | tempos l => exact h
    | initialTempo =>
      simp only [CachedSeq.step, CachedSeq.initialTempo]
      split <;> exact h
    | lastEvent o' =>
      simp only [CachedSeq.step, CachedSeq.lastEvent]
      cases hf : c.endMemo.find? (fun p => decide (p.1 = o')) with
      | some p => exact h
      | none =>
        have hne : o' ≠ o := by
          rintro rfl
          rw [hf] at h
          cases h
        simp only
        rw [List.find?_cons_of_neg (by simpa using hne)]
        exact h

namespace Spec

/-- The list of tempo signatures that was set last. -/
def lastTempos : List CachedOp → List TempoSig
  | [] => []
  | ops => (ops.filterMap (fun op => match op with | .tempos l => some l | _ => none)).getLastD []

/-- The sequence after all changes, in order. -/
def changed (s : MSeq) (ops : List CachedOp) : MSeq :=
  (ops.filterMap (fun op => match op with | .change f => some f | _ => none)).foldl (fun s f => f s) s

end Spec

theorem cachedRun_state (s : MSeq) (ops : List CachedOp) :
    ((CachedSeq.new s).run ops).tempos = Spec.lastTempos ops ∧ ((CachedSeq.new s).run ops).seq = Spec.changed s ops := by
  have gen : ∀ (ops : List CachedOp) (c : CachedSeq),
      (c.run ops).tempos = (ops.filterMap (fun op => match op with | .tempos l => some l | _ => none)).getLastD c.tempos ∧
      (c.run ops).seq = (ops.filterMap (fun op => match op with | .change f => some f | _ => none)).foldl (fun s f => f s) c.seq := by
    intro ops
    induction ops with
    | nil => intro c; exact ⟨rfl, rfl⟩
    | cons op ops ih =>
      intro c
      have h := ih (c.step op).1
      have e : c.run (op :: ops) = ((c.step op).1).run ops := rfl
      rw [e, h.1, h.2]
      cases op with
      | change f => exact ⟨rfl, rfl⟩
      | tempos l =>
        refine ⟨?_, rfl⟩
        rw [List.filterMap_cons]
        simp only [List.getLastD_cons]
        rfl
      | initialTempo =>
        have : (c.step .initialTempo).1.tempos = c.tempos ∧ (c.step .initialTempo).1.seq = c.seq := by
          simp only [CachedSeq.step, CachedSeq.initialTempo]
          split <;> exact ⟨rfl, rfl⟩
        rw [this.1, this.2]
        exact ⟨rfl, rfl⟩
      | lastEvent o =>
        have : (c.step (.lastEvent o)).1.tempos = c.tempos ∧ (c.step (.lastEvent o)).1.seq = c.seq := by
          simp only [CachedSeq.step, CachedSeq.lastEvent]
          split <;> exact ⟨rfl, rfl⟩
        rw [this.1, this.2]
        exact ⟨rfl, rfl⟩
  have h := gen ops (CachedSeq.new s)
  refine ⟨?_, h.2⟩
  rw [h.1]
  cases ops with
  | nil => rfl
  | cons a l => rfl

/-- **C146, the tempo of a sequence.** Whatever happens to a new sequence before and after, every call of `initial_tempo()` gives the answer of the first one, which is 480 if there is no tempo
signature then, 0 if there is one at time 0, and `None` if there are only later ones: never a tempo of a signature. -/
theorem C146_initial_tempo (s : MSeq) (before after : List CachedOp) (hb : ∀ op ∈ before, op ≠ .initialTempo) :
    let c := (CachedSeq.new s).run before
    c.initialTempo.1 = (if Spec.lastTempos before = [] then some 480 else if ∃ t ∈ Spec.lastTempos before, t.time = 0 then some 0 else none) ∧
    (c.initialTempo.2.run after).initialTempo.1 = c.initialTempo.1 := by
  intro c
  rw [← (cachedRun_state s before).1]
  have hnone : c.tempoMemo = none := by
    have gen : ∀ (ops : List CachedOp) (c : CachedSeq), (∀ op ∈ ops, op ≠ .initialTempo) → c.tempoMemo = none → (c.run ops).tempoMemo = none := by
      intro ops
      induction ops with
      | nil => intro c _ h; exact h
      | cons op ops ih =>
        intro c hops h
        rw [CachedSeq.run, List.foldl_cons]
        refine ih _ (fun o ho => hops o (List.mem_cons_of_mem _ ho)) ?_
        cases op with
        | change f => exact h
        | tempos l => exact h
        | initialTempo => exact absurd rfl (hops _ List.mem_cons_self)
        | lastEvent o =>
          simp only [CachedSeq.step, CachedSeq.lastEvent]
          split <;> exact h
    exact gen before _ hb rfl
  have hfirst : c.initialTempo = (seqInitialTempo c.tempos, { c with tempoMemo := some (seqInitialTempo c.tempos) }) := by
    unfold CachedSeq.initialTempo
    rw [hnone]
  rw [hfirst]
  refine ⟨?_, initialTempo_keeps _ after _ rfl⟩
  simp only
  unfold seqInitialTempo
  by_cases h0 : c.tempos = []
  · rw [if_pos h0, if_pos (by rw [h0]; rfl)]
  · rw [if_neg h0, if_neg (fun h => h0 (List.length_eq_zero_iff.1 h))]
    by_cases h1 : ∃ t ∈ c.tempos, t.time = 0
    · rw [if_pos h1]
      cases hf : c.tempos.find? (fun s => decide (s.time = 0)) with
      | none =>
        obtain ⟨t, ht, h2⟩ := h1
        exact absurd h2 (by simpa using List.find?_eq_none.1 hf t ht)
      | some t =>
        have := List.find?_some hf
        simp only [decide_eq_true_eq] at this
        simp [this]
    · rw [if_neg h1]
      have : c.tempos.find? (fun s => decide (s.time = 0)) = none := by
        rw [List.find?_eq_none]
        intro t ht h2
        exact h1 ⟨t, ht, by simpa using h2⟩
      rw [this]
      rfl

/-- **C146, the end of a sequence.** The first call of `truncate_to_last_event(o)` gives the latest end of the notes at that moment plus `o`; every later call with the same `o` gives the same
answer, whatever has happened to the notes. -/
theorem C146_last_event (s : MSeq) (before after : List CachedOp) (o : ℚ) (hb : ∀ op ∈ before, op ≠ .lastEvent (some o)) :
    let c := (CachedSeq.new s).run before
    (c.lastEvent (some o)).1 = some (maxDefault 0 ((Spec.changed s before).notes.map Note.stop) + o) ∧
    ((c.lastEvent (some o)).2.run after |>.lastEvent (some o)).1 = (c.lastEvent (some o)).1 := by
  intro c
  rw [← (cachedRun_state s before).2]
  have hnone : c.endMemo.find? (fun p => decide (p.1 = some o)) = none := by
    have gen : ∀ (ops : List CachedOp) (c : CachedSeq), (∀ op ∈ ops, op ≠ .lastEvent (some o)) →
        c.endMemo.find? (fun p => decide (p.1 = some o)) = none → (c.run ops).endMemo.find? (fun p => decide (p.1 = some o)) = none := by
      intro ops
      induction ops with
      | nil => intro c _ h; exact h
      | cons op ops ih =>
        intro c hops h
        rw [CachedSeq.run, List.foldl_cons]
        refine ih _ (fun o ho => hops o (List.mem_cons_of_mem _ ho)) ?_
        cases op with
        | change f => exact h
        | tempos l => exact h
        | initialTempo =>
          simp only [CachedSeq.step, CachedSeq.initialTempo]
          split <;> exact h
        | lastEvent o' =>
          simp only [CachedSeq.step, CachedSeq.lastEvent]
          split
          · exact h
          · have hne : o' ≠ some o := fun he => hops _ List.mem_cons_self (by rw [he])
            simp only
            rw [List.find?_cons_of_neg (by simpa using hne)]
            exact h
    exact gen before _ hb rfl
  have hfirst : c.lastEvent (some o) = (c.seq.truncateToLastEvent (some o), { c with endMemo := (some o, c.seq.truncateToLastEvent (some o)) :: c.endMemo }) := by
    unfold CachedSeq.lastEvent
    rw [hnone]
  rw [hfirst]
  refine ⟨rfl, lastEvent_keeps _ after _ _ ?_⟩
  rw [List.find?_cons_of_pos (by simp)]
  rfl

/-- A sequence whose answers are wrong after a note is added: the end stays at 3 although a note ends at 9; the tempo stays 480. -/
example : (((CachedSeq.new (MSeq.mk' [⟨60, 0, 2, 0, 0, 90, -1, -1, 0, 4, 4, false⟩] ⟨0, "x", false⟩)).run
    [.lastEvent (some 1), .change (fun s => s.append ⟨60, 8, 9, 0, 0, 90, -1, -1, 0, 4, 4, false⟩)]).lastEvent (some 1)).1 = some 3 := by
  decide +kernel

/-- **C146, resolution.** Setting the resolution to an integer stores it and changes nothing else: notes are never rescaled, and 0 and negative numbers are accepted; anything else raises
TypeError. -/
theorem C146_resolution (s : MSeq) (v : Int) :
    s.setResolution (.int v) = .ok { s with resolution := v } ∧ s.setResolution .other = .error .type := by
  refine ⟨?_, rfl⟩
  unfold MSeq.setResolution
  simp

/-- **C146, order of sequences.** `<` between sequence objects (objects with one `id` are one object) is a strict total order in which a smaller instrument number comes first. -/
theorem C146_order (a b c : SeqObj) :
    a.lt a = false ∧ (a.lt b = true → b.lt c = true → a.lt c = true) ∧ (a.lt b = true ∨ b.lt a = true ∨ a = b) ∧ (a.lt b = true → b.lt a = false) ∧
    (a.num < b.num → a.lt b = true) := by
  obtain ⟨an, ai⟩ := a
  obtain ⟨bn, bi⟩ := b
  obtain ⟨cn, ci⟩ := c
  simp only [SeqObj.lt, SeqObj.mk.injEq]
  refine ⟨by simp, ?_, ?_, ?_, ?_⟩
  · split_ifs <;> simp only [decide_eq_true_eq] <;> omega
  · split_ifs <;> simp only [decide_eq_true_eq] <;> omega
  · split_ifs <;> simp only [decide_eq_true_eq, decide_eq_false_iff_not] <;> omega
  · split_ifs <;> simp only [decide_eq_true_eq] <;> omega

/-- **C146, sorted lists.** `is_sorted(l, key)` is true exactly if no element has a smaller key than an earlier one. -/
theorem C146_is_sorted {α : Type} (l : List α) (key : α → ℚ) : isSorted l key = true ↔ l.Pairwise (fun a b => key a ≤ key b) := by
  have go : ∀ (k i : Nat), i + k + 1 = l.length → (isSortedGo key l i k = true ↔ (l.drop i).Pairwise (fun a b => key a ≤ key b)) := by
    intro k
    induction k with
    | zero =>
      intro i hi
      rw [isSortedGo]
      have hlen : (l.drop i).length = 1 := by rw [List.length_drop]; omega
      obtain ⟨x, hx⟩ := List.length_eq_one_iff.1 hlen
      rw [hx]
      simp
    | succ k ih =>
      intro i hi
      have h1 : l[i]? = some l[i] := List.getElem?_eq_getElem (by omega)
      have h2 : l[i + 1]? = some l[i + 1] := List.getElem?_eq_getElem (by omega)
      rw [isSortedGo, h1, h2]
      have hd : l.drop i = l[i] :: l.drop (i + 1) := List.drop_eq_getElem_cons (by omega)
      have hd2 : l.drop (i + 1) = l[i + 1] :: l.drop (i + 1 + 1) := List.drop_eq_getElem_cons (by omega)
      simp only
      have ih' := ih (i + 1) (by omega)
      rw [hd, List.pairwise_cons, ← ih']
      split_ifs with hgt
      · simp only [Bool.false_eq_true, false_iff, not_and]
        intro hall
        have := hall l[i + 1] (by rw [hd2]; exact List.mem_cons_self)
        linarith
      · constructor
        · intro hs
          refine ⟨?_, hs⟩
          have hp := ih'.1 hs
          intro y hy
          rw [hd2] at hy hp
          rcases List.mem_cons.1 hy with rfl | hy
          · linarith
          · have := (List.pairwise_cons.1 hp).1 y hy
            linarith
        · exact fun h => h.2
  unfold isSorted
  cases l with
  | nil => simp [isSortedGo]
  | cons x l =>
    have := go l.length 0 (by simp)
    rw [List.drop_zero] at this
    rw [show (x :: l).length - 1 = l.length by simp]
    exact this

/-! ### C147: sets of sequences -/

section
variable {V : Type}

theorem Tracks.setSequence_ok (t : Tracks V) (h : t.Inv) (i : Int) (v : V) :
    ∃ t', t.setSequence i (.seq v) = .ok t' ∧ t'.Inv ∧ t'.toIdx = t.toIdx ∧ ∀ x, t'.seqs.lookup x = if x = i then some v else t.seqs.lookup x := by
  obtain ⟨d, h1, h2, _, h3⟩ := SDict.setItem_spec intLt_total' t.seqs h.1 i v
  refine ⟨⟨d, t.toIdx⟩, ?_, ⟨h2, h.2⟩, rfl, h3⟩
  unfold Tracks.setSequence
  simp only
  rw [h1]
  rfl

theorem setRun_inv (ops : List (SeqSetOp V)) (t : Tracks V) (h : t.Inv) : (ops.foldl Tracks.setStep t).Inv := by
  induction ops generalizing t with
  | nil => exact h
  | cons op ops ih =>
    rw [List.foldl_cons]
    refine ih _ ?_
    cases op with
    | op o => exact Tracks.step_inv t h o
    | setSequence i v =>
      obtain ⟨t', h1, h2, _⟩ := Tracks.setSequence_ok t h i v
      simp only [Tracks.setStep, h1]
      exact h2

/-- **C147, setting a track.** After any history, `set_sequence(i, s)` succeeds for every integer `i`, also outside 0..127; iteration then lists `i` and the tracks listed before, in strictly
ascending order; other tracks are unchanged; `get_track(i)` gives `s` for 0 <= i < 128 and raises ValueError for other `i`, as does `[]`. -/
theorem C147_set_sequence (ops : List (SeqSetOp V)) (i p : Int) (s f : V) :
    let t := ops.foldl Tracks.setStep Tracks.empty
    ∃ t', t.setSequence i (.seq s) = .ok t' ∧ t'.iter.Pairwise (· < ·) ∧ (∀ k, k ∈ t'.iter ↔ k = i ∨ k ∈ t.iter) ∧
      (∀ k, k ≠ i → t'.seqs.lookup k = t.seqs.lookup k) ∧
      (0 ≤ i ∧ i < 128 → t'.getTrack f i p = .ok (s, t')) ∧
      (¬ (0 ≤ i ∧ i < 128) → t'.getTrack f i p = .error .value ∧ t'.getItem f i = .error .value) := by
  intro t
  have hinv : t.Inv := setRun_inv ops _ Tracks.empty_inv
  obtain ⟨t', h1, h2, h3, h4⟩ := Tracks.setSequence_ok t hinv i s
  have hkeys : ∀ (u : Tracks V), u.Inv → ∀ k, k ∈ u.iter ↔ u.seqs.lookup k ≠ none := by
    intro u hu k
    unfold Tracks.iter
    rw [hu.1.same, ← SDict.has_iff, Ne, SDict.lookup_none_iff, Bool.not_eq_false]
  refine ⟨t', h1, ?_, ?_, ?_, ?_, ?_⟩
  · exact h2.1.sorted.imp (fun h => by simpa [intLt] using h)
  · intro k
    rw [hkeys t' h2, hkeys t hinv, h4]
    split_ifs with hk
    · simp [hk]
    · simp [hk]
  · intro k hk
    rw [h4, if_neg hk]
  · intro hi
    have hl : t'.seqs.lookup i = some s := by rw [h4, if_pos rfl]
    have hh : t'.seqs.has i = true := by
      by_contra hc
      rw [(SDict.lookup_none_iff _ _).2 (by simpa using hc)] at hl; cases hl
    unfold Tracks.getTrack
    rw [if_neg (by omega)]
    have : t'.seqs.getItem i = .ok s := (SDict.getItem_ok_iff _ _ _).2 hl
    simp only [hh, if_true, bind, Except.bind, this]
  · intro hi
    constructor
    · unfold Tracks.getTrack
      rw [if_pos (by omega)]
    · unfold Tracks.getItem
      rw [if_pos (by omega)]

/-- **C147, defects.** `set_sequence` with a list of notes always raises AttributeError, although its signature allows it; and on a set whose index map does not know `i`, `seqs[i]` does not give
the sequence that was set but a new one. -/
theorem C147_set_sequence_defects (t : Tracks V) (i : Int) (s f : V) :
    t.setSequence i .notes = .error .attribute ∧
    (t.Inv → 0 ≤ i ∧ i < 128 → t.toIdx.lookup i = none → ∃ t' t'', t.setSequence i (.seq s) = .ok t' ∧ t'.getItem f i = .ok (f, t'')) := by
  refine ⟨rfl, ?_⟩
  intro h hi hl
  obtain ⟨t', h1, h2, h3, _⟩ := Tracks.setSequence_ok t h i s
  rcases Tracks.getItem_ok t' h2 f i hi with ⟨j, hj, _⟩ | ⟨_, t'', _, he, _⟩
  · rw [h3, hl] at hj; cases hj
  · exact ⟨t', t'', h1, he⟩

end

/-- The invariant holds in every reachable set, for instance the empty one. -/
example : (Tracks.empty : Tracks Nat).Inv ∧ (Tracks.empty : Tracks Nat).toIdx.lookup 7 = none := ⟨Tracks.empty_inv, rfl⟩

/-- **C147, listing.** After any history, `instruments` lists the instruments of the tracks in ascending order of track number, one per track, and `instrument_midi_seq_len(i)` is the number of
notes of track `i`, 0 if there is none. -/
theorem C147_listing (ops : List (SeqSetOp MSeq)) (i : Int) :
    let t := ops.foldl Tracks.setStep (Tracks.empty : Tracks MSeq)
    (∃ is, t.instruments = .ok is ∧ is.map some = t.iter.map (fun k => (t.seqs.lookup k).map (fun s => s.instr))) ∧ t.iter.Pairwise (· < ·) ∧
    t.seqLen i = .ok (match t.seqs.lookup i with | some s => s.notes.length | none => 0) := by
  intro t
  have hinv : t.Inv := setRun_inv ops _ Tracks.empty_inv
  obtain ⟨vs, h1, h2⟩ := SDict.values_spec t.seqs hinv.1
  refine ⟨⟨vs.map (fun s => s.instr), ?_, ?_⟩, ?_, ?_⟩
  · unfold Tracks.instruments
    rw [h1]
    rfl
  · have := congrArg (List.map (Option.map (fun s : MSeq => s.instr))) h2
    rw [List.map_map, List.map_map] at this
    rw [List.map_map]
    exact this
  · exact hinv.1.sorted.imp (fun h => by simpa [intLt] using h)
  · unfold Tracks.seqLen
    cases hl : t.seqs.lookup i with
    | none =>
      rw [if_neg (by rw [(SDict.lookup_none_iff _ _).1 hl]; decide)]
    | some s =>
      have hh : t.seqs.has i = true := by
        by_contra hc
        rw [(SDict.lookup_none_iff _ _).2 (by simpa using hc)] at hl; cases hl
      rw [if_pos hh, (SDict.getItem_ok_iff _ _ _).2 hl]
      rfl

/-- **C147, from a file.** `MidiNoteSequences.from_file` turns every exception of the reader into ValueError, makes the tracks of C36 from a sequence or list of sequences, and raises TypeError for a
reader that returns a `MidiNoteSequences`: the project's only reader, `MidiReader`, does, so with it `from_file` never succeeds. -/
theorem C147_from_file (srt : List Note → List Note) :
    (∀ e, seqsFromFile srt (.raises e) = .error .value) ∧ seqsFromFile srt .songs = .error .type ∧
    (∀ l, seqsFromFile srt (.many l) = Tracks.ofSeqs srt l) ∧
    (∀ s, ∃ t, seqsFromFile srt (.one s) = .ok t ∧ t.iter = [s.instr.num] ∧ t.seqs.lookup s.instr.num = some s) := by
  refine ⟨fun _ => rfl, rfl, fun _ => rfl, ?_⟩
  intro s
  refine ⟨⟨⟨[(s.instr.num, s)], [s.instr.num]⟩, ⟨[(s.instr.num, s.instr.num)], [s.instr.num]⟩⟩, ?_, rfl, ?_⟩
  · unfold seqsFromFile Tracks.ofSeqs
    dsimp only
    rw [List.foldlM_cons]
    unfold Tracks.addSeq
    rfl
  · simp [SDict.lookup]

end NGC
