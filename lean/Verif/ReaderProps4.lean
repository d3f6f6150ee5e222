import Verif.ReaderProps3

/-! C102: reading a whole file, from the messages of its tracks to the notes of the song. -/

namespace NGC

namespace Spec

/-- A message with the value ranges of the MIDI standard that matter for notes. -/
def MidiRange (e : Msg) : Prop :=
  match e.body with
  | .noteOn _ n v => n ≤ 127 ∧ v ≤ 127
  | .programChange _ p => p ≤ 127
  | _ => True

end Spec

/-- A finished note within the MIDI ranges that does not end before it starts. -/
def EmitOk (x : Emit) : Prop :=
  x.program ≤ 127 ∧ x.pitch ≤ 127 ∧ x.velocity ≤ 127 ∧ 0 ≤ x.start ∧ x.start ≤ x.stop

/-- The state of a track whose events so far are within the ranges and not after `T`. -/
structure StOk (T : Int) (st : TrackSt) : Prop where
  opens : ∀ p ∈ st.opens, p.1.2 ≤ 127 ∧ ∀ q ∈ p.2, q.2 ≤ 127 ∧ 0 ≤ q.1 ∧ q.1 ≤ T
  prog : ∀ p ∈ st.prog, p.2 ≤ 127

theorem StOk.program {T : Int} {st : TrackSt} (h : StOk T st) (ch : Nat) : st.program ch ≤ 127 := by
  unfold TrackSt.program
  cases hd : dget st.prog ch with
  | none => simp
  | some v => exact h.prog _ (dget_mem _ _ _ hd)

theorem StOk.mono {T T' : Int} {st : TrackSt} (h : StOk T st) (hT : T ≤ T') : StOk T' st :=
  ⟨fun p hp => ⟨(h.opens p hp).1, fun q hq => by
    obtain ⟨h1, h2, h3⟩ := (h.opens p hp).2 q hq
    exact ⟨h1, h2, by omega⟩⟩, h.prog⟩

theorem finishEmits_mem (st : TrackSt) (tick : Int) (eos : Bool) : ∀ (l : List ((Nat × Nat) × List (Int × Nat)))
    (acts : List Act), finishEmits st tick eos l = .ok acts → ∀ x ∈ actNotes acts,
    x.stop = tick ∧ x.program = st.program x.channel ∧ ∃ p ∈ l, ∃ q ∈ p.2, x.pitch = p.1.2 ∧ x.velocity = q.2 ∧ x.start = q.1 := by
  intro l
  induction l with
  | nil =>
    intro acts h x hx
    simp only [finishEmits, Except.ok.injEq] at h
    subst h
    simp [actNotes] at hx
  | cons p l ih =>
    intro acts h x hx
    obtain ⟨k, v⟩ := p
    cases v with
    | nil => simp [finishEmits] at h
    | cons q v =>
      obtain ⟨s, vel⟩ := q
      rw [finishEmits] at h
      cases hm : finishEmits st tick eos l with
      | error e => simp only [hm, bind, Except.bind] at h; simp at h
      | ok more =>
        simp only [hm, bind, Except.bind] at h
        have old : ∀ x ∈ actNotes more, _ := ih more hm
        split at h
        · rw [Except.ok.injEq] at h
          subst h
          rw [show (Act.note _ :: more) = [Act.note _] ++ more from rfl, actNotes_append] at hx
          rcases List.mem_append.1 hx with hx | hx
          · simp only [actNotes, actNote, List.filterMap_cons, List.filterMap_nil, List.mem_singleton] at hx
            subst hx
            exact ⟨rfl, rfl, (k, (s, vel) :: v), by simp, (s, vel), by simp, rfl, rfl, rfl⟩
          · obtain ⟨h1, h2, p, hp, h3⟩ := old x hx
            exact ⟨h1, h2, p, by simp [hp], h3⟩
        · rw [Except.ok.injEq] at h
          subst h
          obtain ⟨h1, h2, p, hp, h3⟩ := old x hx
          exact ⟨h1, h2, p, by simp [hp], h3⟩

theorem finishNotes_ok {T : Int} {st st' : TrackSt} {acts : List Act} (h : StOk T st) (t : Int) (ht : T ≤ t) (eos : Bool)
    (hf : finishNotes st t eos = .ok (st', acts)) :
    StOk t st' ∧ ∀ x ∈ actNotes acts, x.stop = t ∧ EmitOk x := by
  unfold finishNotes at hf
  cases hm : finishEmits st t eos st.opens with
  | error e => simp only [hm, bind, Except.bind] at hf; simp at hf
  | ok as =>
    simp only [hm, bind, Except.bind, Except.ok.injEq, Prod.mk.injEq] at hf
    obtain ⟨h1, h2⟩ := hf
    subst h1; subst h2
    refine ⟨?_, ?_⟩
    · refine ⟨fun p hp => (h.mono ht).opens p (List.mem_of_mem_filter hp), h.prog⟩
    · intro x hx
      obtain ⟨g1, g2, p, hp, q, hq, g3, g4, g5⟩ := finishEmits_mem st t eos _ _ hm x hx
      obtain ⟨o1, o2⟩ := h.opens p hp
      obtain ⟨o3, o4, o5⟩ := o2 q hq
      refine ⟨g1, ?_, ?_, ?_, ?_, ?_⟩
      · rw [g2]; exact h.program _
      · rw [g3]; exact o1
      · rw [g4]; exact o3
      · rw [g5]; exact o4
      · rw [g5, g1]; omega

theorem noteOff_ok {T : Int} {st : TrackSt} (h : StOk T st) (t : Int) (ht : T ≤ t) (ch n : Nat) :
    StOk t (noteOff st t ch n).1 ∧ ∀ x ∈ actNotes (noteOff st t ch n).2, x.stop = t ∧ EmitOk x := by
  unfold noteOff
  cases hd : dget st.opens (ch, n) with
  | none => exact ⟨h.mono ht, by simp [actNotes]⟩
  | some notes =>
    have hmem := dget_mem _ _ _ hd
    obtain ⟨o1, o2⟩ := h.opens _ hmem
    simp only
    have hacts : ∀ x ∈ actNotes ((notes.filter (fun p => decide (p.1 ≠ t))).map
        (fun p => Act.note ⟨st.program ch, ch, n, p.2, p.1, t⟩)), x.stop = t ∧ EmitOk x := by
      intro x hx
      unfold actNotes at hx
      obtain ⟨a, ha, hax⟩ := List.mem_filterMap.1 hx
      obtain ⟨q, hq, rfl⟩ := List.mem_map.1 ha
      simp only [actNote, Option.some.injEq] at hax
      subst hax
      obtain ⟨o3, o4, o5⟩ := o2 q (List.mem_of_mem_filter hq)
      exact ⟨rfl, h.program _, o1, o3, o4, by show q.1 ≤ t; omega⟩
    split
    · refine ⟨⟨?_, h.prog⟩, hacts⟩
      intro p hp
      rcases mem_dset hp with hp | hp
      · subst hp
        refine ⟨o1, fun q hq => ?_⟩
        obtain ⟨o3, o4, o5⟩ := o2 q (List.mem_of_mem_filter hq)
        exact ⟨o3, o4, by omega⟩
      · exact (h.mono ht).opens p hp
    · exact ⟨⟨fun p hp => (h.mono ht).opens p (List.mem_of_mem_filter hp), h.prog⟩, hacts⟩

theorem loadStep_okay {T : Int} {st st' : TrackSt} {acts : List Act} (h : StOk T st) (e : Msg) (ht : T ≤ e.time)
    (h0 : 0 ≤ e.time) (hr : Spec.MidiRange e) (hs : loadStep st e = .ok (st', acts)) :
    StOk e.time st' ∧ ∀ x ∈ actNotes acts, x.stop = e.time ∧ EmitOk x := by
  obtain ⟨t, body⟩ := e
  simp only at ht h0
  have triv : ∀ (as : List Act), actNotes as = [] → loadStep st ⟨t, body⟩ = .ok (st, as) →
      StOk t st' ∧ ∀ x ∈ actNotes acts, x.stop = t ∧ EmitOk x := by
    intro as has hq
    rw [hq] at hs
    simp only [Except.ok.injEq, Prod.mk.injEq] at hs
    obtain ⟨h1, h2⟩ := hs
    subst h1; subst h2
    exact ⟨h.mono ht, by rw [has]; simp⟩
  cases body with
  | trackName s => exact triv _ rfl rfl
  | setTempo _ => exact triv _ rfl rfl
  | timeSig _ _ => exact triv _ rfl rfl
  | keySig _ => exact triv _ rfl rfl
  | lyrics _ => exact triv _ rfl rfl
  | other _ => exact triv _ rfl rfl
  | pitchwheel _ _ => exact triv _ rfl rfl
  | controlChange _ _ _ => exact triv _ rfl rfl
  | programChange ch p =>
    simp only [loadStep, Except.ok.injEq, Prod.mk.injEq] at hs
    obtain ⟨h1, h2⟩ := hs
    subst h1; subst h2
    refine ⟨⟨(h.mono ht).opens, ?_⟩, by simp [actNotes]⟩
    intro q hq
    rcases mem_dset hq with hq | hq
    · rw [hq]; exact hr
    · exact h.prog q hq
  | noteOff ch n v =>
    simp only [loadStep, Except.ok.injEq] at hs
    have := noteOff_ok h t ht ch n
    rw [hs] at this
    exact this
  | endOfTrack =>
    simp only [loadStep] at hs
    exact finishNotes_ok h t ht true hs
  | noteOn ch n v =>
    simp only [loadStep] at hs
    split at hs
    · cases hf : finishNotes st t false with
      | error e => simp only [hf, bind, Except.bind] at hs; simp at hs
      | ok r =>
        obtain ⟨s1, as⟩ := r
        simp only [hf, bind, Except.bind, Except.ok.injEq, Prod.mk.injEq] at hs
        obtain ⟨h1, h2⟩ := hs
        subst h1; subst h2
        obtain ⟨g1, g2⟩ := finishNotes_ok h t ht false hf
        refine ⟨⟨?_, g1.prog⟩, g2⟩
        intro p hp
        rcases mem_dset hp with hp | hp
        · subst hp
          refine ⟨hr.1, fun q hq => ?_⟩
          rcases List.mem_append.1 hq with hq | hq
          · cases hd : dget s1.opens (ch, n) with
            | none => rw [hd] at hq; simp at hq
            | some old =>
              rw [hd] at hq
              exact (g1.opens _ (dget_mem _ _ _ hd)).2 q hq
          · rw [List.mem_singleton] at hq
            subst hq
            exact ⟨hr.2, h0, le_refl _⟩
        · exact g1.opens p hp
    · rw [Except.ok.injEq] at hs
      have := noteOff_ok h t ht ch n
      rw [hs] at this
      exact this

/-- The notes of one track, in the order in which they are finished: they end in order, at events of
the track, and are within the ranges. -/
theorem loadGo_ends : ∀ (es : List Msg) (T : Int) (st : TrackSt) (acts : List Act), StOk T st →
    es.Pairwise (fun a b => a.time ≤ b.time) → (∀ e ∈ es, T ≤ e.time ∧ 0 ≤ e.time ∧ Spec.MidiRange e) →
    loadGo st es = .ok acts →
    (actNotes acts).Pairwise (fun a b => a.stop ≤ b.stop) ∧
    ∀ x ∈ actNotes acts, EmitOk x ∧ T ≤ x.stop ∧ ∃ e ∈ es, e.time = x.stop := by
  intro es
  induction es with
  | nil =>
    intro T st acts _ _ _ h
    simp only [loadGo, Except.ok.injEq] at h
    subst h
    simp [actNotes]
  | cons e es ih =>
    intro T st acts hst hs he h
    rw [List.pairwise_cons] at hs
    obtain ⟨e1, e2, e3⟩ := he e (by simp)
    rw [loadGo] at h
    cases hl : loadStep st e with
    | error x => simp only [hl, bind, Except.bind] at h; simp at h
    | ok r =>
      obtain ⟨st', as⟩ := r
      simp only [hl, bind, Except.bind] at h
      cases hm : loadGo st' es with
      | error x => rw [hm] at h; simp at h
      | ok more =>
        rw [hm] at h
        simp only [Except.ok.injEq] at h
        subst h
        obtain ⟨g1, g2⟩ := loadStep_okay hst e e1 e2 e3 hl
        obtain ⟨i1, i2⟩ := ih e.time st' more g1 hs.2
          (fun x hx => ⟨hs.1 x hx, (he x (by simp [hx])).2⟩) hm
        rw [actNotes_append]
        refine ⟨?_, ?_⟩
        · rw [List.pairwise_append]
          refine ⟨?_, i1, ?_⟩
          · rw [List.pairwise_iff_forall_sublist]
            intro a b hab
            have ha := (g2 a (hab.subset (by simp))).1
            have hb := (g2 b (hab.subset (by simp))).1
            omega
          · intro a ha b hb
            rw [(g2 a ha).1]
            exact (i2 b hb).2.1
        · intro x hx
          rcases List.mem_append.1 hx with hx | hx
          · obtain ⟨q1, q2⟩ := g2 x hx
            exact ⟨q2, by omega, e, by simp, q1.symm⟩
          · obtain ⟨q1, q2, f, hf, q3⟩ := i2 x hx
            exact ⟨q1, by omega, f, by simp [hf], q3⟩

/-! ### Which notes go into which instrument -/

/-- The notes of the instrument with this key. -/
def notesAt (st : LoadSt) (key : Nat × Nat × Nat) : List PNote :=
  ((dget st.insts key).map (fun i => i.notes)).getD []

/-- The note in seconds. -/
def Emit.toP (tt : Int → ℚ) (e : Emit) : PNote := ⟨e.velocity, e.pitch, tt e.start, tt e.stop⟩

theorem addNote_notesAt (drum k : Nat) (st : LoadSt) (p ch : Nat) (n : PNote) (key : Nat × Nat × Nat) :
    notesAt (st.addNote drum k p ch n) key = notesAt st key ++ (if (p, ch, k) = key then [n] else []) := by
  unfold LoadSt.addNote
  cases hd : dget st.insts (p, ch, k) with
  | some i =>
    simp only [notesAt, dget_dset]
    by_cases hk : (p, ch, k) = key
    · rw [if_pos hk, if_pos hk, ← hk, hd]; rfl
    · rw [if_neg hk, if_neg hk]; simp
  | none =>
    have gen : ∀ (x : LInst), x.notes = [n] → ∀ (hp : List (List (Int × ℚ) × List (Nat × Nat × ℚ))),
        notesAt { st with insts := dset st.insts (p, ch, k) x, heap := hp } key
          = notesAt st key ++ (if (p, ch, k) = key then [n] else []) := by
      intro x hx hp
      simp only [notesAt, dget_dset]
      by_cases hk : (p, ch, k) = key
      · rw [if_pos hk, if_pos hk, ← hk, hd]; simp [hx]
      · rw [if_neg hk, if_neg hk]; simp
    cases dget st.strag (ch, k) with
    | some r => exact gen _ rfl st.heap
    | none => exact gen _ rfl _

theorem act_notesAt (drum k : Nat) (tt : Int → ℚ) (st : LoadSt) (a : Act) (key : Nat × Nat × Nat) :
    notesAt (st.act drum k tt a) key = notesAt st key ++
      ((actNotes [a]).filter (fun e => decide ((e.program, e.channel, k) = key))).map (Emit.toP tt) := by
  have href : ∀ p ch, (st.eventRef k p ch).1.insts = st.insts := by
    intro p ch
    unfold LoadSt.eventRef
    split
    · rfl
    · split <;> rfl
  cases a with
  | note e =>
    simp only [LoadSt.act, addNote_notesAt, actNotes, actNote, List.filterMap_cons, List.filterMap_nil]
    by_cases hk : (e.program, e.channel, k) = key
    · rw [if_pos hk, List.filter_cons_of_pos (by simpa using hk)]; rfl
    · rw [if_neg hk, List.filter_cons_of_neg (by simpa using hk)]; rfl
  | bend p ch pitch tick =>
    simp only [LoadSt.act, notesAt, actNotes, actNote, List.filterMap_cons, List.filterMap_nil]
    rw [href]; simp
  | control p ch num value tick =>
    simp only [LoadSt.act, notesAt, actNotes, actNote, List.filterMap_cons, List.filterMap_nil]
    rw [href]; simp
  | name s => simp [LoadSt.act, notesAt, actNotes, actNote]

theorem acts_notesAt (drum k : Nat) (tt : Int → ℚ) (key : Nat × Nat × Nat) : ∀ (acts : List Act) (st : LoadSt),
    notesAt (acts.foldl (fun st a => st.act drum k tt a) st) key = notesAt st key ++
      ((actNotes acts).filter (fun e => decide ((e.program, e.channel, k) = key))).map (Emit.toP tt) := by
  intro acts
  induction acts with
  | nil => intro st; simp [actNotes]
  | cons a acts ih =>
    intro st
    rw [List.foldl_cons, ih, act_notesAt, show a :: acts = [a] ++ acts from rfl, actNotes_append,
      List.filter_append, List.map_append, List.append_assoc]

/-- The notes of instrument `(p, ch, k)` after loading all tracks: those of track `k` with this program
and channel, in the order in which they end. -/
theorem loadTracks_notesAt (drum : Nat) (tt : Int → ℚ) (p ch j : Nat) : ∀ (ts : List (List Msg)) (k : Nat)
    (st st' : LoadSt), loadTracks drum tt k st ts = .ok st' →
    (j < k → notesAt st' (p, ch, j) = notesAt st (p, ch, j)) ∧
    ∀ t, k ≤ j → ts[j - k]? = some t → ∃ acts, loadTrack t = .ok acts ∧
      notesAt st' (p, ch, j) = notesAt st (p, ch, j) ++
        ((actNotes acts).filter (fun e => decide (e.program = p ∧ e.channel = ch))).map (Emit.toP tt) := by
  intro ts
  induction ts with
  | nil =>
    intro k st st' h
    simp only [loadTracks, Except.ok.injEq] at h
    subst h
    exact ⟨fun _ => rfl, fun t _ ht => by simp at ht⟩
  | cons t0 ts ih =>
    intro k st st' h
    rw [loadTracks] at h
    cases hl : loadTrack t0 with
    | error e => simp only [hl, bind, Except.bind] at h; simp at h
    | ok acts =>
      simp only [hl, bind, Except.bind] at h
      obtain ⟨i1, i2⟩ := ih (k + 1) _ st' h
      have hn := acts_notesAt drum k tt (p, ch, j) acts st
      refine ⟨?_, ?_⟩
      · intro hj
        rw [i1 (by omega), hn]
        have : (actNotes acts).filter (fun e => decide ((e.program, e.channel, k) = (p, ch, j))) = [] := by
          rw [List.filter_eq_nil_iff]
          intro x _
          simp; omega
        rw [this]; simp
      · intro t hj ht
        by_cases hkj : k = j
        · subst hkj
          simp only [Nat.sub_self, List.getElem?_cons_zero, Option.some.injEq] at ht
          subst ht
          refine ⟨acts, hl, ?_⟩
          rw [i1 (by omega), hn]
          congr 3
          funext e
          simp
        · have hidx : j - k = (j - (k + 1)) + 1 := by omega
          rw [hidx, List.getElem?_cons_succ] at ht
          obtain ⟨as, h1, h2⟩ := i2 t (by omega) ht
          refine ⟨as, h1, ?_⟩
          rw [h2, hn]
          have : (actNotes acts).filter (fun e => decide ((e.program, e.channel, k) = (p, ch, j))) = [] := by
            rw [List.filter_eq_nil_iff]
            intro x _
            simp; omega
          rw [this]; simp

theorem act_keys (drum k : Nat) (tt : Int → ℚ) (st : LoadSt) (a : Act) (key : Nat × Nat × Nat)
    (h : key ∈ dkeys (st.act drum k tt a).insts) : key ∈ dkeys st.insts ∨ key.2.2 = k := by
  have href : ∀ p ch, (st.eventRef k p ch).1.insts = st.insts := by
    intro p ch
    unfold LoadSt.eventRef
    split
    · rfl
    · split <;> rfl
  cases a with
  | note e =>
    have gen : ∀ x : LInst, key ∈ dkeys (dset st.insts (e.program, e.channel, k) x) →
        key ∈ dkeys st.insts ∨ key.2.2 = k := by
      intro x hx
      rcases (mem_dkeys_dset _ _ _ _).1 hx with h | h
      · first | exact Or.inl h | (right; rw [h])
      · first | exact Or.inl h | (right; rw [h])
    simp only [LoadSt.act, LoadSt.addNote] at h
    split at h
    · exact gen _ h
    · split at h
      · exact gen _ h
      · exact gen _ h
  | bend p ch pitch tick => simp only [LoadSt.act] at h; rw [href] at h; exact Or.inl h
  | control p ch num value tick => simp only [LoadSt.act] at h; rw [href] at h; exact Or.inl h
  | name s => exact Or.inl h

theorem acts_keys (drum k : Nat) (tt : Int → ℚ) (key : Nat × Nat × Nat) : ∀ (acts : List Act) (st : LoadSt),
    key ∈ dkeys (acts.foldl (fun st a => st.act drum k tt a) st).insts → key ∈ dkeys st.insts ∨ key.2.2 = k := by
  intro acts
  induction acts with
  | nil => intro st h; exact Or.inl h
  | cons a acts ih =>
    intro st h
    rw [List.foldl_cons] at h
    rcases ih _ h with h | h
    · exact act_keys drum k tt st a key h
    · exact Or.inr h

theorem loadTracks_keys (drum : Nat) (tt : Int → ℚ) (key : Nat × Nat × Nat) : ∀ (ts : List (List Msg)) (k : Nat)
    (st st' : LoadSt), loadTracks drum tt k st ts = .ok st' → key ∈ dkeys st'.insts →
    key ∈ dkeys st.insts ∨ (k ≤ key.2.2 ∧ key.2.2 < k + ts.length) := by
  intro ts
  induction ts with
  | nil =>
    intro k st st' h hk
    simp only [loadTracks, Except.ok.injEq] at h
    subst h
    exact Or.inl hk
  | cons t ts ih =>
    intro k st st' h hk
    rw [loadTracks] at h
    cases hl : loadTrack t with
    | error e => simp only [hl, bind, Except.bind] at h; simp at h
    | ok acts =>
      simp only [hl, bind, Except.bind] at h
      rcases ih (k + 1) _ st' h hk with h | h
      · rcases acts_keys drum k tt key acts st h with h | h
        · exact Or.inl h
        · right; simp only [List.length_cons]; omega
      · right; simp only [List.length_cons]; omega

theorem loadTracks_instInv (drum : Nat) (tt : Int → ℚ) : ∀ (ts : List (List Msg)) (k : Nat)
    (st st' : LoadSt), InstInv drum st → loadTracks drum tt k st ts = .ok st' → InstInv drum st' := by
  intro ts
  induction ts with
  | nil =>
    intro k st st' h hl
    simp only [loadTracks, Except.ok.injEq] at hl
    subst hl; exact h
  | cons t ts ih =>
    intro k st st' h hl
    rw [loadTracks] at hl
    cases ht : loadTrack t with
    | error e => simp only [ht, bind, Except.bind] at hl; simp at hl
    | ok acts =>
      simp only [ht, bind, Except.bind] at hl
      exact ih (k + 1) _ st' (acts_inv drum k tt acts st h).1 hl

/-- **C102, one instrument.** Every instrument of a loaded file belongs to one track and one channel; its
notes are those of the track finished on that channel while the instrument's program was set, in the
order in which they ended. -/
theorem loadInstruments_each (drum : Nat) (tt : Int → ℚ) (tracks : List (List Msg)) (insts : List PInst)
    (h : loadInstruments drum tt tracks = .ok insts) (i : PInst) (hi : i ∈ insts) :
    ∃ ch t acts, t ∈ tracks ∧ loadTrack t = .ok acts ∧ i.isDrum = decide (ch = drum) ∧
      i.notes = ((actNotes acts).filter (fun e => decide (e.program = i.program ∧ e.channel = ch))).map (Emit.toP tt) := by
  unfold loadInstruments at h
  cases hl : loadTracks drum tt 0 ⟨[], [], [], []⟩ tracks with
  | error e => simp only [hl, bind, Except.bind] at h; simp at h
  | ok st =>
    simp only [hl, bind, Except.bind, Except.ok.injEq] at h
    subst h
    obtain ⟨q, hq, rfl⟩ := List.mem_map.1 hi
    obtain ⟨⟨p, ch, j⟩, li⟩ := q
    have hinv := loadTracks_instInv drum tt tracks 0 ⟨[], [], [], []⟩ st ⟨by simp [dkeys], by simp⟩ hl
    have hkey : (p, ch, j) ∈ dkeys st.insts := List.mem_map_of_mem hq
    have hj := loadTracks_keys drum tt (p, ch, j) tracks 0 _ st hl hkey
    simp only [dkeys, List.map_nil, List.not_mem_nil, false_or, Nat.zero_le, true_and, Nat.zero_add] at hj
    obtain ⟨acts, h1, h2⟩ := (loadTracks_notesAt drum tt p ch j tracks 0 _ st hl).2 tracks[j] (Nat.zero_le _)
      (by simp [hj])
    have hd := dget_of_mem _ hinv.nodup _ _ hq
    obtain ⟨g1, g2⟩ := hinv.prog _ hq
    simp only at g1 g2
    refine ⟨ch, tracks[j], acts, List.getElem_mem hj, h1, g2, ?_⟩
    have e1 : notesAt st (p, ch, j) = li.notes := by simp [notesAt, hd]
    have e2 : notesAt (⟨[], [], [], []⟩ : LoadSt) (p, ch, j) = [] := rfl
    rw [e1, e2, List.nil_append] at h2
    show li.notes = _
    rw [h2]
    show _ = ((actNotes acts).filter (fun e => decide (e.program = li.program ∧ e.channel = ch))).map (Emit.toP tt)
    rw [g1]

/-! ### Pitch bends -/

/-- Every stored pitch bend can be read. -/
def HeapOk (st : LoadSt) : Prop := ∀ l ∈ st.heap, ∀ b ∈ l.1, Spec.GoodBend b

/-- The pitch bend is not the lowest one. -/
def ActBendOk : Act → Prop
  | .bend _ _ pitch _ => -8191 ≤ pitch ∧ pitch ≤ 8191
  | _ => True

theorem mem_modify {α : Type} (f : α → α) : ∀ (l : List α) (r : Nat) (x : α), x ∈ l.modify r f →
    x ∈ l ∨ ∃ y ∈ l, x = f y := by
  intro l
  induction l with
  | nil => intro r x hx; simp at hx
  | cons a l ih =>
    intro r x hx
    cases r with
    | zero =>
      rw [List.modify_zero_cons] at hx
      rcases List.mem_cons.1 hx with hx | hx
      · right; exact ⟨a, by simp, hx⟩
      · left; simp [hx]
    | succ r =>
      rw [List.modify_succ_cons] at hx
      rcases List.mem_cons.1 hx with hx | hx
      · left; simp [hx]
      · rcases ih r x hx with h | ⟨y, hy, h⟩
        · left; simp [h]
        · right; exact ⟨y, by simp [hy], h⟩

theorem act_heap (drum k : Nat) (tt : Int → ℚ) (ht : ∀ t, 0 ≤ tt t) (st : LoadSt) (h : HeapOk st) (a : Act)
    (ha : ActBendOk a) : HeapOk (st.act drum k tt a) := by
  have hpush : ∀ hp : List (List (Int × ℚ) × List (Nat × Nat × ℚ)), (∀ l ∈ hp, ∀ b ∈ l.1, Spec.GoodBend b) →
      ∀ l ∈ hp ++ [([], [])], ∀ b ∈ l.1, Spec.GoodBend b := by
    intro hp hh l hl b hb
    rcases List.mem_append.1 hl with hl | hl
    · exact hh l hl b hb
    · rw [List.mem_singleton] at hl; subst hl; simp at hb
  have href : ∀ p ch, ∀ l ∈ (st.eventRef k p ch).1.heap, ∀ b ∈ l.1, Spec.GoodBend b := by
    intro p ch
    unfold LoadSt.eventRef
    split
    · exact h
    · split
      · exact h
      · exact hpush _ h
  cases a with
  | note e =>
    unfold HeapOk
    simp only [LoadSt.act, LoadSt.addNote]
    split
    · exact h
    · split
      · exact h
      · exact hpush _ h
  | bend p ch pitch tick =>
    unfold HeapOk
    simp only [LoadSt.act]
    intro l hl b hb
    rcases mem_modify _ _ _ _ hl with hl | ⟨y, hy, rfl⟩
    · exact href p ch l hl b hb
    · rcases List.mem_append.1 hb with hb | hb
      · exact href p ch y hy b hb
      · rw [List.mem_singleton] at hb
        subst hb
        exact ⟨ha.1, ha.2, ht _⟩
  | control p ch num value tick =>
    unfold HeapOk
    simp only [LoadSt.act]
    intro l hl b hb
    rcases mem_modify _ _ _ _ hl with hl | ⟨y, hy, rfl⟩
    · exact href p ch l hl b hb
    · exact href p ch y hy b hb
  | name s => exact h

theorem loadGo_bends : ∀ (es : List Msg) (st : TrackSt) (acts : List Act),
    (∀ e ∈ es, ∀ ch p, e.body = .pitchwheel ch p → -8191 ≤ p ∧ p ≤ 8191) → loadGo st es = .ok acts →
    ∀ a ∈ acts, ActBendOk a := by
  intro es
  induction es with
  | nil =>
    intro st acts _ h
    simp only [loadGo, Except.ok.injEq] at h
    subst h
    simp
  | cons e es ih =>
    intro st acts he h
    rw [loadGo] at h
    cases hl : loadStep st e with
    | error x => simp only [hl, bind, Except.bind] at h; simp at h
    | ok r =>
      obtain ⟨st', as⟩ := r
      simp only [hl, bind, Except.bind] at h
      cases hm : loadGo st' es with
      | error x => rw [hm] at h; simp at h
      | ok more =>
        rw [hm] at h
        simp only [Except.ok.injEq] at h
        subst h
        intro a ha
        rcases List.mem_append.1 ha with ha | ha
        · have hfin : ∀ (eos : Bool) (tick : Int) s1 as1, finishNotes st tick eos = .ok (s1, as1) → ∀ a ∈ as1, ActBendOk a := by
            intro eos tick s1 as1 hf a ha
            unfold finishNotes at hf
            cases hm : finishEmits st tick eos st.opens with
            | error e => simp only [hm, bind, Except.bind] at hf; simp at hf
            | ok as2 =>
              simp only [hm, bind, Except.bind, Except.ok.injEq, Prod.mk.injEq] at hf
              obtain ⟨_, h2⟩ := hf
              subst h2
              have gen : ∀ (l : List ((Nat × Nat) × List (Int × Nat))) (as : List Act),
                  finishEmits st tick eos l = .ok as → ∀ a ∈ as, ActBendOk a := by
                intro l
                induction l with
                | nil =>
                  intro as h
                  simp only [finishEmits, Except.ok.injEq] at h
                  subst h; simp
                | cons p l ih2 =>
                  intro as h
                  obtain ⟨k, v⟩ := p
                  cases v with
                  | nil => simp [finishEmits] at h
                  | cons q v =>
                    obtain ⟨s, vel⟩ := q
                    rw [finishEmits] at h
                    cases hq : finishEmits st tick eos l with
                    | error e => simp only [hq, bind, Except.bind] at h; simp at h
                    | ok mm =>
                      simp only [hq, bind, Except.bind] at h
                      split at h
                      · rw [Except.ok.injEq] at h
                        subst h
                        intro a ha
                        rcases List.mem_cons.1 ha with rfl | ha
                        · trivial
                        · exact ih2 mm hq a ha
                      · rw [Except.ok.injEq] at h
                        subst h
                        exact ih2 mm hq
              exact gen _ _ hm a ha
          have hoff : ∀ (tick : Int) (ch n : Nat), ∀ a ∈ (noteOff st tick ch n).2, ActBendOk a := by
            intro tick ch n a ha
            unfold noteOff at ha
            cases hd : dget st.opens (ch, n) with
            | none => rw [hd] at ha; simp at ha
            | some notes =>
              rw [hd] at ha
              simp only at ha
              have : a ∈ (notes.filter (fun p => decide (p.1 ≠ tick))).map
                  (fun p => Act.note ⟨st.program ch, ch, n, p.2, p.1, tick⟩) := by
                split at ha <;> exact ha
              obtain ⟨q, _, rfl⟩ := List.mem_map.1 this
              trivial
          have hee := he e (by simp)
          obtain ⟨t, body⟩ := e
          cases body with
          | pitchwheel ch p =>
            simp only [loadStep, Except.ok.injEq, Prod.mk.injEq] at hl
            rw [← hl.2, List.mem_singleton] at ha
            subst ha
            exact hee ch p rfl
          | noteOn ch n v =>
            simp only [loadStep] at hl
            split at hl
            · cases hf : finishNotes st t false with
              | error e => simp only [hf, bind, Except.bind] at hl; simp at hl
              | ok r =>
                obtain ⟨s1, as1⟩ := r
                simp only [hf, bind, Except.bind, Except.ok.injEq, Prod.mk.injEq] at hl
                rw [← hl.2] at ha
                exact hfin false t s1 as1 hf a ha
            · rw [Except.ok.injEq] at hl
              have := hoff t ch n
              rw [hl] at this
              exact this a ha
          | noteOff ch n v =>
            simp only [loadStep, Except.ok.injEq] at hl
            have := hoff t ch n
            rw [hl] at this
            exact this a ha
          | endOfTrack =>
            simp only [loadStep] at hl
            exact hfin true t _ _ hl a ha
          | _ =>
            simp only [loadStep, Except.ok.injEq, Prod.mk.injEq] at hl
            rw [← hl.2] at ha
            simp at ha
            try (subst ha; trivial)
        · exact ih st' more (fun x hx => he x (by simp [hx])) hm a ha

theorem loadTracks_heap (drum : Nat) (tt : Int → ℚ) (ht : ∀ t, 0 ≤ tt t) : ∀ (ts : List (List Msg)) (k : Nat)
    (st st' : LoadSt), HeapOk st → (∀ t ∈ ts, ∀ e ∈ t, ∀ ch p, e.body = .pitchwheel ch p → -8191 ≤ p ∧ p ≤ 8191) →
    loadTracks drum tt k st ts = .ok st' → HeapOk st' := by
  intro ts
  induction ts with
  | nil =>
    intro k st st' h _ hl
    simp only [loadTracks, Except.ok.injEq] at hl
    subst hl; exact h
  | cons t ts ih =>
    intro k st st' h hb hl
    rw [loadTracks] at hl
    cases hlt : loadTrack t with
    | error e => simp only [hlt, bind, Except.bind] at hl; simp at hl
    | ok acts =>
      simp only [hlt, bind, Except.bind] at hl
      refine ih (k + 1) _ st' ?_ (fun x hx => hb x (by simp [hx])) hl
      have hacts := loadGo_bends t ⟨[], []⟩ acts (hb t (by simp)) hlt
      have gen : ∀ (acts : List Act) (st : LoadSt), HeapOk st → (∀ a ∈ acts, ActBendOk a) →
          HeapOk (acts.foldl (fun st a => st.act drum k tt a) st) := by
        intro acts
        induction acts with
        | nil => intro st h _; exact h
        | cons a acts ih2 =>
          intro st h ha
          exact ih2 _ (act_heap drum k tt ht st h a (ha a (by simp))) (fun x hx => ha x (by simp [hx]))
      exact gen acts st h hacts

theorem loadInstruments_bends (drum : Nat) (tt : Int → ℚ) (ht : ∀ t, 0 ≤ tt t) (tracks : List (List Msg)) (insts : List PInst)
    (hb : ∀ t ∈ tracks, ∀ e ∈ t, ∀ ch p, e.body = .pitchwheel ch p → -8191 ≤ p ∧ p ≤ 8191)
    (h : loadInstruments drum tt tracks = .ok insts) : ∀ i ∈ insts, ∀ b ∈ i.bends, Spec.GoodBend b := by
  unfold loadInstruments at h
  cases hl : loadTracks drum tt 0 ⟨[], [], [], []⟩ tracks with
  | error e => simp only [hl, bind, Except.bind] at h; simp at h
  | ok st =>
    simp only [hl, bind, Except.bind, Except.ok.injEq] at h
    subst h
    intro i hi b hbm
    obtain ⟨q, hq, rfl⟩ := List.mem_map.1 hi
    have hh := loadTracks_heap drum tt ht tracks 0 _ st (by intro l hl; simp at hl) hb hl
    have hbm' : b ∈ (st.heap.getD q.2.ref ([], [])).1 := hbm
    rw [List.getD_eq_getElem?_getD] at hbm'
    cases hg : st.heap[q.2.ref]? with
    | none => rw [hg] at hbm'; simp at hbm'
    | some l =>
      rw [hg] at hbm'
      exact hh l (List.mem_of_getElem? hg) b hbm'

/-! ### The whole file -/

namespace Spec

/-- A MIDI file that respects the value ranges: notes, velocities and programs up to 127, the 24 keys,
time signatures with a positive numerator and a power of two as denominator, and no pitch bend of
-8192. -/
structure MidiFile (tracks : List (List Msg)) : Prop extends GoodFile tracks where
  range : ∀ t ∈ tracks, ∀ e ∈ t, MidiRange e
  bends : ∀ t ∈ tracks, ∀ e ∈ t, ∀ ch p, e.body = .pitchwheel ch p → -8191 ≤ p ∧ p ≤ 8191
  keys : ∀ t, tracks.head? = some t → ∀ e ∈ t, ∀ k, e.body = .keySig k → k < 24
  times : ∀ t, tracks.head? = some t → ∀ e ∈ t, ∀ n d, e.body = .timeSig n d → 0 < n ∧ denomOk d = true

/-- The time in seconds of a tick of the file: every tick before it lasts as long as the tempo events
of track 0 (in absolute ticks) say. -/
def fileSeconds (res : Nat) (track0 : List Msg) (tick : Int) : ℚ :=
  ((List.range tick.toNat).map (fun k => tempoInForce res track0 k)).sum

/-- The notes of a file, in seconds, with program and drum flag (channel 9): for each track the notes of
`trackNotes`. -/
def fileNotes (res : Nat) (tracks : List (List Msg)) : List (Nat × Bool × PNote) :=
  ((tracks.map toAbs).flatMap trackNotes).map (fun e =>
    (e.program, decide (e.channel = 9),
      ⟨e.velocity, e.pitch, fileSeconds res ((tracks.map toAbs).headD []) e.start,
        fileSeconds res ((tracks.map toAbs).headD []) e.stop⟩))

end Spec

theorem toAbs_mem_body {t : List Msg} {e : Msg} (he : e ∈ toAbs t) : ∃ x ∈ t, x.body = e.body := by
  have hm : e.body ∈ (toAbs t).map (fun e => e.body) := List.mem_map_of_mem he
  rw [toAbs_body] at hm
  obtain ⟨x, hx, hxe⟩ := List.mem_map.1 hm
  exact ⟨x, hx, hxe⟩

theorem MidiRange_body {a b : Msg} (h : a.body = b.body) (ha : Spec.MidiRange a) : Spec.MidiRange b := by
  unfold Spec.MidiRange at *
  rw [← h]; exact ha

theorem table_getD (c : Clock) (h : ClockOk c) (k : Nat) :
    (k < c.times.length → c.times.getD k 0 = Spec.seconds c.scales k) ∧ 0 ≤ c.times.getD k 0 := by
  obtain ⟨_, hm, M, _, hT⟩ := h
  have hnn : ∀ k, 0 ≤ Spec.seconds c.scales k := by
    intro k
    cases k with
    | zero => rw [seconds_zero]
    | succ k =>
      have := seconds_strictMono c.scales hm (Nat.succ_pos k)
      rw [seconds_zero] at this
      exact le_of_lt this
  have e : k < c.times.length → c.times.getD k 0 = Spec.seconds c.scales k := by
    intro hk
    rw [hT] at hk ⊢
    simp only [List.length_map, List.length_range] at hk
    simp [List.getD_eq_getElem?_getD, List.getElem?_map, List.getElem?_range hk]
  refine ⟨e, ?_⟩
  by_cases hk : k < c.times.length
  · rw [e hk]; exact hnn k
  · rw [List.getD_eq_getElem?_getD, List.getElem?_eq_none (by omega)]
    exact le_refl (0 : ℚ)

theorem seconds_mono (scales : List (Nat × ℚ)) (h : Spec.TempoMap scales) {i j : Nat} (hij : i ≤ j) :
    Spec.seconds scales i ≤ Spec.seconds scales j := by
  rcases Nat.lt_or_eq_of_le hij with h1 | h1
  · exact le_of_lt (seconds_strictMono scales h h1)
  · rw [h1]

theorem act_full (drum k : Nat) (tt : Int → ℚ) (st : LoadSt) (h : ∀ p ∈ st.insts, p.2.notes ≠ []) (a : Act) :
    ∀ p ∈ (st.act drum k tt a).insts, p.2.notes ≠ [] := by
  have href : ∀ p ch, (st.eventRef k p ch).1.insts = st.insts := by
    intro p ch
    unfold LoadSt.eventRef
    split
    · rfl
    · split <;> rfl
  cases a with
  | note e =>
    have gen : ∀ (key : Nat × Nat × Nat) (x : LInst), x.notes ≠ [] → ∀ p ∈ dset st.insts key x, p.2.notes ≠ [] := by
      intro key x hx p hp
      rcases mem_dset hp with hp | hp
      · rw [hp]; exact hx
      · exact h p hp
    simp only [LoadSt.act, LoadSt.addNote]
    split
    · exact gen _ _ (by simp)
    · split
      · exact gen _ _ (by simp)
      · exact gen _ _ (by simp)
  | bend p ch pitch tick => simp only [LoadSt.act]; rw [href]; exact h
  | control p ch num value tick => simp only [LoadSt.act]; rw [href]; exact h
  | name s => exact h

theorem loadTracks_full (drum : Nat) (tt : Int → ℚ) : ∀ (ts : List (List Msg)) (k : Nat)
    (st st' : LoadSt), (∀ p ∈ st.insts, p.2.notes ≠ []) → loadTracks drum tt k st ts = .ok st' →
    ∀ p ∈ st'.insts, p.2.notes ≠ [] := by
  intro ts
  induction ts with
  | nil =>
    intro k st st' h hl
    simp only [loadTracks, Except.ok.injEq] at hl
    subst hl; exact h
  | cons t ts ih =>
    intro k st st' h hl
    rw [loadTracks] at hl
    cases hlt : loadTrack t with
    | error e => simp only [hlt, bind, Except.bind] at hl; simp at hl
    | ok acts =>
      simp only [hlt, bind, Except.bind] at hl
      refine ih (k + 1) _ st' ?_ hl
      have gen : ∀ (acts : List Act) (st : LoadSt), (∀ p ∈ st.insts, p.2.notes ≠ []) →
          ∀ p ∈ (acts.foldl (fun st a => st.act drum k tt a) st).insts, p.2.notes ≠ [] := by
        intro acts
        induction acts with
        | nil => intro st h; exact h
        | cons a acts ih2 => intro st h; exact ih2 _ (act_full drum k tt st h a)
      exact gen acts st h

theorem loadInstruments_full (drum : Nat) (tt : Int → ℚ) (tracks : List (List Msg)) (insts : List PInst)
    (h : loadInstruments drum tt tracks = .ok insts) : ∀ i ∈ insts, i.notes ≠ [] := by
  unfold loadInstruments at h
  cases hl : loadTracks drum tt 0 ⟨[], [], [], []⟩ tracks with
  | error e => simp only [hl, bind, Except.bind] at h; simp at h
  | ok st =>
    simp only [hl, bind, Except.bind, Except.ok.injEq] at h
    subst h
    intro i hi
    obtain ⟨q, hq, rfl⟩ := List.mem_map.1 hi
    exact loadTracks_full drum tt tracks 0 _ st (by simp) hl q hq

theorem fromFile_scales (res drum : Nat) (tracks : List (List Msg)) (pm : PM) (t0 : List Msg)
    (h : PM.fromFile res tracks drum = .ok pm) (h0 : tracks.head? = some t0) :
    loadTempo res (toAbs t0) = .ok pm.clock.scales := by
  cases tracks with
  | nil => simp at h0
  | cons a rest =>
    simp only [List.head?_cons, Option.some.injEq] at h0
    subst h0
    unfold PM.fromFile at h
    simp only [List.map_cons] at h
    cases h1 : loadTempo res (toAbs a) with
    | error e => simp only [h1, bind, Except.bind] at h; simp at h
    | ok sc =>
      simp only [h1, bind, Except.bind] at h
      cases h2 : maxTick (toAbs a :: rest.map toAbs) with
      | error e => simp only [h2] at h; simp at h
      | ok mt =>
        simp only [h2] at h
        split at h
        · simp at h
        · split at h
          · simp at h
          · simp only [Except.ok.injEq] at h
            rw [← h]

/-- What a loaded file looks like to the reader. -/
theorem loaded_readable (res : Nat) (hr : 0 < res) (tracks : List (List Msg)) (h : Spec.MidiFile tracks) :
    ∃ pm, PM.fromFile res tracks = .ok pm ∧ (∀ i ∈ pm.insts, Spec.EndsInOrder i.notes) ∧
      (pm.insts.length ≤ 128 → Spec.Readable pm) := by
  obtain ⟨pm, t0, e1, e2, e3, e4, e5, e6, e7, e8, e9⟩ := C56_table_covers_file res 9 hr tracks h.toGoodFile
  refine ⟨pm, e1, ?_⟩
  set tt : Int → ℚ := fun t => pm.clock.times.getD t.toNat 0 with htt
  have ht0 : t0 ∈ tracks := List.mem_of_mem_head? e2
  have hmono : ∀ (a b : Int), a ≤ b → b.toNat < pm.clock.times.length → tt a ≤ tt b := by
    intro a b hab hb
    rw [htt]
    simp only
    rw [(table_getD pm.clock e3 a.toNat).1 (by omega), (table_getD pm.clock e3 b.toNat).1 hb]
    exact seconds_mono _ e3.2.1 (by omega)
  have each : ∀ i ∈ pm.insts, Spec.EndsInOrder i.notes ∧ i.program < 128 + (if i.notes = [] then 1 + i.program else 0) ∧
      ∀ n ∈ i.notes, i.program < 128 ∧ n.pitch ≤ 127 ∧ n.velocity ≤ 127 ∧ 0 ≤ n.start ∧ n.start ≤ n.stop := by
    intro i hi
    obtain ⟨ch, t, acts, h1, h2, h3, h4⟩ := loadInstruments_each 9 tt (tracks.map toAbs) pm.insts e8 i hi
    obtain ⟨t', ht', rfl⟩ := List.mem_map.1 h1
    have hord := (C55_order t').1 (h.nonneg t' ht')
    obtain ⟨g1, g2⟩ := loadGo_ends (toAbs t') 0 ⟨[], []⟩ acts ⟨by simp, by simp⟩ hord.1
      (fun e he => ⟨hord.2 e he, hord.2 e he, by
        obtain ⟨x, hx, hxe⟩ := toAbs_mem_body he
        exact MidiRange_body hxe (h.range t' ht' x hx)⟩) h2
    have hidx : ∀ x ∈ actNotes acts, x.stop.toNat < pm.clock.times.length := by
      intro x hx
      obtain ⟨_, _, e, he, hes⟩ := g2 x hx
      have := (e7 t' ht' e he).1
      rw [hes] at this
      exact this
    have hnotes : ∀ n ∈ i.notes, i.program < 128 ∧ n.pitch ≤ 127 ∧ n.velocity ≤ 127 ∧ 0 ≤ n.start ∧ n.start ≤ n.stop := by
      intro n hn
      rw [h4] at hn
      obtain ⟨x, hx, rfl⟩ := List.mem_map.1 hn
      obtain ⟨hx1, hx2⟩ := List.mem_filter.1 hx
      have hx2 := of_decide_eq_true hx2
      obtain ⟨⟨q1, q2, q3, q4, q5⟩, _⟩ := g2 x hx1
      refine ⟨by rw [← hx2.1]; omega, q2, q3, (table_getD pm.clock e3 _).2, hmono _ _ q5 (hidx x hx1)⟩
    refine ⟨?_, ?_, hnotes⟩
    · unfold Spec.EndsInOrder
      rw [h4, List.pairwise_map]
      have hp := g1.sublist (List.filter_sublist (p := fun e => decide (e.program = i.program ∧ e.channel = ch)))
      refine hp.imp_of_mem ?_
      intro a b ha hb hab
      exact hmono _ _ hab (hidx b (List.mem_filter.1 hb).1)
    · by_cases hne : i.notes = []
      · rw [if_pos hne]; omega
      · rw [if_neg hne]
        obtain ⟨n, hn⟩ := List.exists_mem_of_ne_nil _ hne
        exact (hnotes n hn).1
  have hne : ∀ i ∈ pm.insts, i.notes ≠ [] := loadInstruments_full 9 tt (tracks.map toAbs) pm.insts e8
  refine ⟨fun i hi => (each i hi).1, fun hc => ?_⟩
  simp only [Prod.mk.injEq, loadMeta] at e9
  refine ⟨?_, ?_, e3, ?_, hc, ?_, ?_⟩
  · intro p hp
    rw [e9.1] at hp
    obtain ⟨e, he, hpe⟩ := List.mem_filterMap.1 hp
    obtain ⟨x, hx, hxe⟩ := toAbs_mem_body he
    obtain ⟨t, body⟩ := e
    cases body <;> simp at hpe
    subst hpe
    exact h.keys t0 e2 x hx _ hxe
  · intro p hp
    rw [e9.2.1] at hp
    obtain ⟨e, he, hpe⟩ := List.mem_filterMap.1 hp
    obtain ⟨x, hx, hxe⟩ := toAbs_mem_body he
    obtain ⟨t, body⟩ := e
    cases body <;> simp at hpe
    subst hpe
    exact h.times t0 e2 x hx _ _ hxe
  · have hsc := fromFile_scales res 9 tracks pm t0 e1 e2
    have hgood := toAbs_good t0 (h.nonneg t0 ht0) (h.tempo t0 e2)
    obtain ⟨s, g1, _, g3, _⟩ := loadTempo_snoc res hr (toAbs t0) hgood
    rw [hsc, Except.ok.injEq] at g1
    intro p hp
    rw [g1] at hp
    rcases g3 p hp with g | ⟨x, hx, g⟩
    · omega
    · have := h.short t0 ht0 x hx
      omega
  · intro i hi
    obtain ⟨q1, q2, q3⟩ := each i hi
    rw [if_neg (hne i hi)] at q2
    exact ⟨by omega, fun n hn => (q3 n hn).2.1, fun n hn => (q3 n hn).2.2.1, fun n hn => (q3 n hn).2.2.2⟩
  · intro i hi b hb
    left
    exact loadInstruments_bends 9 tt (fun t => (table_getD pm.clock e3 _).2) (tracks.map toAbs) pm.insts (by
      intro t ht e he ch p hep
      obtain ⟨t', ht', rfl⟩ := List.mem_map.1 ht
      obtain ⟨x, hx, hxe⟩ := toAbs_mem_body he
      exact h.bends t' ht' x hx ch p (by rw [hxe, hep])) e8 i hi b hb

theorem range_filterMap {V : Type} (vs : List V) : (List.range vs.length).filterMap (fun k => vs[k]?) = vs := by
  induction vs using List.reverseRecOn with
  | nil => rfl
  | append_singleton vs v ih =>
    rw [List.length_append, List.length_singleton, List.range_succ, List.filterMap_append]
    have e1 : (List.range vs.length).filterMap (fun k => (vs ++ [v])[k]?)
        = (List.range vs.length).filterMap (fun k => vs[k]?) := by
      apply List.filterMap_congr
      intro k hk
      rw [List.mem_range] at hk
      rw [List.getElem?_append_left hk]
    rw [e1, ih]
    simp

theorem enumDict_values {V : Type} (vs : List V) : (enumDict vs).values = .ok vs := by
  unfold SDict.values
  have hk : (enumDict vs).keys = (List.range vs.length).map Int.ofNat := rfl
  rw [hk, List.mapM_map]
  have gen : ∀ (l : List Nat), (∀ k ∈ l, k < vs.length) →
      l.mapM (fun k => (enumDict vs).getItem (Int.ofNat k)) = .ok (l.filterMap (fun k => vs[k]?)) := by
    intro l
    induction l with
    | nil => intro _; rfl
    | cons k l ih =>
      intro h
      have hk := h k (by simp)
      have e : (enumDict vs).getItem (Int.ofNat k) = .ok vs[k] := enumDict_getItem vs k _ (by simp [hk])
      rw [List.mapM_cons]
      simp only [e, bind, Except.bind, ih (fun x hx => h x (by simp [hx]))]
      rw [List.filterMap_cons, List.getElem?_eq_getElem hk]
      rfl
  rw [show ((enumDict vs).getItem ∘ Int.ofNat) = (fun k => (enumDict vs).getItem (Int.ofNat k)) from rfl]
  rw [gen _ (by simp)]
  rw [range_filterMap]

theorem scale_sum (scales : List (Nat × ℚ)) (res : Nat) (t0 : List Msg)
    (h : ∀ k, Spec.scaleAt scales k = Spec.tempoInForce res t0 k) (k : Int) :
    Spec.seconds scales k.toNat = Spec.fileSeconds res t0 k := by
  unfold Spec.seconds Spec.fileSeconds
  congr 1
  apply List.map_congr_left
  intro j _
  exact h j

/-- **C102.** Reading a whole file. For every MIDI file within the value ranges, whose tracks have no two
note-ons of one channel and pitch at the same tick and which makes at most 128 instruments, `read`
succeeds, and the notes of all tracks of the song, with program, drum flag, velocity, pitch, start and
end in seconds, are exactly the notes of the file that are not `math.isclose` to empty, each once. -/
theorem C102_file_notes (res : Nat) (hr : 0 < res) (tracks : List (List Msg)) (h : Spec.MidiFile tracks)
    (hn : ∀ t ∈ tracks, Spec.NoStack (toAbs t))
    (hc : ∀ pm, PM.fromFile res tracks = .ok pm → pm.insts.length ≤ 128) :
    ∃ s us, readFile res tracks = .ok s ∧ s.tracks.allSeqs = .ok us ∧
      (us.flatMap (fun t => t.notes.map (fun n => (n.program, n.isDrum, Spec.trackData n)))).Perm
        (((Spec.fileNotes res tracks).filter (fun x => Spec.solid x.2.2)).map
          (fun x => ((x.1 : Int), x.2.1, Spec.noteData x.2.2))) := by
  obtain ⟨pm, e1, hE, hR⟩ := loaded_readable res hr tracks h
  have hread := hR (hc pm e1)
  obtain ⟨keys, tempos, times, us, tot, _, _, _, e, hl, _, hT⟩ := readSong_eq pm hread
  obtain ⟨pm', t0, f1, f2, f3, f4, _, f6, f7, f8, _⟩ := C56_table_covers_file res 9 hr tracks h.toGoodFile
  obtain rfl : pm' = pm := by rw [e1] at f1; exact (Except.ok.inj f1).symm
  refine ⟨⟨enumTracks us, tot, keys, tempos, times, pm'.clock.res⟩, us, ?_, ?_, ?_⟩
  · unfold readFile
    simp only [e1, bind, Except.bind]
    exact e
  · exact enumDict_values us
  · have hsorted : ∀ t ∈ tracks.map toAbs, t.Pairwise (fun a b => a.time ≤ b.time) := by
      intro t ht
      obtain ⟨t', ht', rfl⟩ := List.mem_map.1 ht
      exact ((C55_order t').1 (h.nonneg t' ht')).1
    obtain ⟨insts, g1, g2⟩ := C58_exact_no_stack 9 (fun t => pm'.clock.times.getD t.toNat 0) (tracks.map toAbs)
      hsorted (by
        intro t ht
        obtain ⟨t', ht', rfl⟩ := List.mem_map.1 ht
        exact hn t' ht')
    rw [f8, Except.ok.injEq] at g1
    subst g1
    -- the notes of the tracks are those of the instruments
    have hus : us.flatMap (fun t => t.notes.map (fun n => (n.program, n.isDrum, Spec.trackData n)))
        = pm'.insts.flatMap (fun i => (i.notes.filter Spec.solid).map
            (fun n => ((i.program : Int), i.isDrum, Spec.noteData n))) := by
      have step : us.map (fun t => t.notes.map (fun n => (n.program, n.isDrum, Spec.trackData n)))
          = pm'.insts.map (fun i => (i.notes.filter Spec.solid).map
            (fun n => ((i.program : Int), i.isDrum, Spec.noteData n))) := by
        apply List.ext_getElem?
        intro k
        rw [List.getElem?_map, List.getElem?_map]
        by_cases hk : k < us.length
        · have hu : us[k]? = some us[k] := List.getElem?_eq_getElem hk
          have hi : pm'.insts[k]? = some (pm'.insts[k]'(by omega)) := List.getElem?_eq_getElem (by omega)
          have T := hT k _ _ hi hu
          rw [hu, hi]
          simp only [Option.map_some, Option.some.injEq]
          have ho : Spec.EndsInOrder ((pm'.insts[k]'(by omega)).notes.filter Spec.solid) :=
            (hE _ (List.getElem_mem _)).sublist List.filter_sublist
          rw [T.notes, records_all _ ho, List.map_map]
          rfl
        · rw [List.getElem?_eq_none (by omega), List.getElem?_eq_none (by omega)]
          rfl
      rw [List.flatMap_def, step, ← List.flatMap_def]
    rw [hus]
    have hperm : (pm'.insts.flatMap (fun i => i.notes.map (fun n => (i.program, i.isDrum, n)))).Perm
        (Spec.fileNotes res tracks) := by
      refine g2.trans ?_
      unfold Spec.fileNotes
      have hhd : (tracks.map toAbs).headD [] = toAbs t0 := by
        cases tracks with
        | nil => simp at f2
        | cons a b =>
          simp only [List.head?_cons, Option.some.injEq] at f2
          subst f2; rfl
      rw [hhd]
      have : ((tracks.map toAbs).flatMap Spec.trackNotes).map (showEmit 9 (fun t => pm'.clock.times.getD t.toNat 0))
          = ((tracks.map toAbs).flatMap Spec.trackNotes).map (fun e =>
              (e.program, decide (e.channel = 9),
                (⟨e.velocity, e.pitch, Spec.fileSeconds res (toAbs t0) e.start,
                  Spec.fileSeconds res (toAbs t0) e.stop⟩ : PNote))) := by
        apply List.map_congr_left
        intro x hx
        obtain ⟨t, ht, hxt⟩ := List.mem_flatMap.1 hx
        obtain ⟨t', ht', rfl⟩ := List.mem_map.1 ht
        obtain ⟨l, ev, r, q1, q2, q3, fe, q4, q5, q6⟩ := trackNotesGo_mem _ _ x hxt
        have m1 : ev ∈ toAbs t' := by rw [q1]; simp
        have m2 : fe ∈ toAbs t' := by rw [q1]; simp [q4]
        have k1 := f7 t' ht' ev m1
        have k2 := f7 t' ht' fe m2
        rw [q3] at k1
        rw [q5] at k2
        unfold showEmit
        simp only
        rw [k1.2, k2.2, scale_sum _ res _ f6, scale_sum _ res _ f6]
      rw [this]
    have := (hperm.filter (fun x => Spec.solid x.2.2)).map (fun x => ((x.1 : Int), x.2.1, Spec.noteData x.2.2))
    refine List.Perm.trans (List.Perm.of_eq ?_) this
    rw [List.filter_flatMap, List.map_flatMap]
    apply List.flatMap_congr
    intro i _
    rw [List.filter_map, List.map_map]
    rfl

/-- A file with a tempo change, two tracks, two programs, a drum note and a pitch bend. -/
def exFile : List (List Msg) :=
  [[⟨0, .setTempo 500000⟩, ⟨0, .timeSig 3 4⟩, ⟨0, .keySig 9⟩, ⟨4, .setTempo 250000⟩, ⟨0, .endOfTrack⟩],
   [⟨0, .programChange 0 5⟩, ⟨0, .noteOn 0 60 90⟩, ⟨2, .pitchwheel 0 100⟩, ⟨2, .noteOff 0 60 0⟩, ⟨0, .noteOn 9 36 80⟩,
    ⟨4, .noteOff 9 36 0⟩, ⟨0, .endOfTrack⟩]]

theorem exFile_midi : Spec.MidiFile exFile where
  any := by decide
  full := by decide
  nonneg := by decide
  tempo := by intro t ht; simp [exFile] at ht; subst ht; decide
  short := by decide
  range := by
    intro t ht e he
    simp only [exFile, List.mem_cons, List.not_mem_nil, or_false] at ht
    rcases ht with rfl | rfl <;> simp only [List.mem_cons, List.not_mem_nil, or_false] at he <;>
      rcases he with rfl | rfl | rfl | rfl | rfl | rfl | rfl <;> simp [Spec.MidiRange]
  bends := by
    intro t ht e he ch p hp
    simp only [exFile, List.mem_cons, List.not_mem_nil, or_false] at ht
    rcases ht with rfl | rfl <;> simp only [List.mem_cons, List.not_mem_nil, or_false] at he <;>
      rcases he with rfl | rfl | rfl | rfl | rfl | rfl | rfl <;> simp at hp <;> omega
  keys := by
    intro t ht e he k hk
    simp [exFile] at ht
    subst ht
    simp only [List.mem_cons, List.not_mem_nil, or_false] at he
    rcases he with rfl | rfl | rfl | rfl | rfl <;> simp at hk <;> omega
  times := by
    intro t ht e he n d hk
    simp [exFile] at ht
    subst ht
    simp only [List.mem_cons, List.not_mem_nil, or_false] at he
    rcases he with rfl | rfl | rfl | rfl | rfl <;> simp at hk
    obtain ⟨rfl, rfl⟩ := hk
    decide

/-- Non-vacuity: all hypotheses of C102 hold of this file, and its two notes are read. -/
theorem C102_example : ∃ s us, readFile 4 exFile = .ok s ∧ s.tracks.allSeqs = .ok us ∧
    (us.flatMap (fun t => t.notes.map (fun n => (n.program, n.isDrum, Spec.trackData n)))).Perm
      [(5, false, 90, 60, 0, 1/2), (0, true, 80, 36, 1/2, 3/4)] := by
  have hn : ∀ t ∈ exFile, Spec.NoStack (toAbs t) := by
    intro t ht
    simp only [exFile, List.mem_cons, List.not_mem_nil, or_false] at ht
    rcases ht with rfl | rfl <;> simp [Spec.NoStack, toAbs, toAbsGo, Spec.on?]
  have hc : ∀ pm, PM.fromFile 4 exFile = .ok pm → pm.insts.length ≤ 128 := by
    have : (match PM.fromFile 4 exFile with | .ok pm => decide (pm.insts.length ≤ 128) | .error _ => true) = true := by
      decide +kernel
    intro pm hpm
    rw [hpm] at this
    exact of_decide_eq_true this
  obtain ⟨s, us, h1, h2, h3⟩ := C102_file_notes 4 (by decide) exFile exFile_midi hn hc
  refine ⟨s, us, h1, h2, ?_⟩
  have : (((Spec.fileNotes 4 exFile).filter (fun x => Spec.solid x.2.2)).map
      (fun x => ((x.1 : Int), x.2.1, Spec.noteData x.2.2)))
      = [(5, false, 90, 60, 0, 1/2), (0, true, 80, 36, 1/2, 3/4)] := by decide +kernel
  rw [← this]
  exact h3

/-- **C102, the one-call form**: `from_file` gives what `read` gives, and a ValueError whenever `read` raises anything. -/
theorem C102_from_file (res : Nat) (tracks : List (List Msg)) :
    (∀ s, readFile res tracks = .ok s → fromFile res tracks = .ok s) ∧
    (∀ e, readFile res tracks = .error e → fromFile res tracks = .error .value) := by
  constructor <;> (intro x h; unfold fromFile; rw [h])

/-- A file without tracks. -/
example : fromFile 480 [] = .error .value := (C102_from_file 480 []).2 .index rfl

end NGC
