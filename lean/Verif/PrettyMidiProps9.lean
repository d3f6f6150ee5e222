import Verif.PrettyMidiProps8

/-! C144: instruments survive writing and reading, one by one and with their names. -/

namespace NGC

/-! ### One voice per track -/

/-- Actions of one program on one channel. -/
def VoiceAct (p ch : Nat) : Act → Prop
  | .note e => e.program = p ∧ e.channel = ch
  | .bend q c _ _ => q = p ∧ c = ch
  | .control q c _ _ _ => q = p ∧ c = ch
  | .name _ => False

/-- The notes, bends and control changes among actions. -/
def voiceNotes (tt : Int → ℚ) (acts : List Act) : List PNote :=
  acts.filterMap (fun a => match a with | .note e => some ⟨e.velocity, e.pitch, tt e.start, tt e.stop⟩ | _ => none)
def voiceBends (tt : Int → ℚ) (acts : List Act) : List (Int × ℚ) :=
  acts.filterMap (fun a => match a with | .bend _ _ v t => some (v, tt t) | _ => none)
def voiceControls (tt : Int → ℚ) (acts : List Act) : List (Nat × Nat × ℚ) :=
  acts.filterMap (fun a => match a with | .control _ _ n v t => some (n, v, tt t) | _ => none)

/-- The state after the actions of one voice on a track that nothing was loaded from before. -/
structure VoiceInv (drum k p ch : Nat) (tt : Int → ℚ) (st0 st : LoadSt) (acts : List Act) : Prop where
  insts : st.insts = if voiceNotes tt acts = [] then st0.insts
    else st0.insts ++ [((p, ch, k), ⟨p, decide (ch = drum), (dget st0.names k).getD "", voiceNotes tt acts, st0.heap.length⟩)]
  names : st.names = st0.names
  heap : st.heap = if acts = [] then st0.heap else st0.heap ++ [(voiceBends tt acts, voiceControls tt acts)]
  strag : acts = [] → dget st.strag (ch, k) = none
  strag' : acts ≠ [] → voiceNotes tt acts = [] → dget st.strag (ch, k) = some st0.heap.length
  other : ∀ x : Nat × Nat, x.2 ≠ k → dget st.strag x = dget st0.strag x

theorem dget_append_new {K V : Type} [DecidableEq K] (d : List (K × V)) (k : K) (v : V) (h : dget d k = none) :
    dget (d ++ [(k, v)]) k = some v := by
  rw [← dset_of_new d k v ((dget_eq_none d k).1 h), dget_dset_self]

theorem dset_append_new {K V : Type} [DecidableEq K] (d : List (K × V)) (k : K) (v w : V) (h : dget d k = none) :
    dset (d ++ [(k, v)]) k w = d ++ [(k, w)] := by
  induction d with
  | nil => simp [dset]
  | cons x d ih =>
    have hx : ¬ x.1 = k := by
      intro hx
      rw [dget_eq_none] at h
      exact h (by simp [dkeys, hx])
    have hd : dget d k = none := by
      rw [dget_eq_none] at h ⊢
      intro hm; exact h (by simp only [dkeys, List.map_cons, List.mem_cons]; exact Or.inr hm)
    obtain ⟨a, b⟩ := x
    simp only [List.cons_append, dset]
    rw [if_neg hx, ih hd]

theorem modify_last {α : Type} (l : List α) (a : α) (f : α → α) : (l ++ [a]).modify l.length f = l ++ [f a] := by
  induction l with
  | nil => rfl
  | cons x l ih => simp only [List.cons_append, List.length_cons, List.modify_succ_cons, ih]

theorem voice_inv (drum k p ch : Nat) (tt : Int → ℚ) (st0 : LoadSt) (hi : dget st0.insts (p, ch, k) = none)
    (hs : dget st0.strag (ch, k) = none) (acts : List Act) (ha : ∀ a ∈ acts, VoiceAct p ch a) :
    VoiceInv drum k p ch tt st0 (acts.foldl (fun st a => st.act drum k tt a) st0) acts := by
  induction acts using List.reverseRecOn with
  | nil => exact ⟨rfl, rfl, rfl, fun _ => hs, fun h => absurd rfl h, fun _ _ => rfl⟩
  | append_singleton acts a ih =>
    have I := ih (fun x hx => ha x (by simp [hx]))
    have hva := ha a (by simp)
    rw [List.foldl_append, List.foldl_cons, List.foldl_nil]
    generalize acts.foldl (fun st a => st.act drum k tt a) st0 = st at I
    have hne : acts ++ [a] ≠ [] := by simp
    have hbs : voiceBends tt (acts ++ [a]) = voiceBends tt acts ++ voiceBends tt [a] := by simp [voiceBends]
    have hcs : voiceControls tt (acts ++ [a]) = voiceControls tt acts ++ voiceControls tt [a] := by simp [voiceControls]
    have hns : voiceNotes tt (acts ++ [a]) = voiceNotes tt acts ++ voiceNotes tt [a] := by simp [voiceNotes]
    -- where events go
    have href : ∃ st', st.eventRef k p ch = (st', st0.heap.length) ∧ st'.insts = st.insts ∧ st'.names = st.names ∧
        (∃ b c, st'.heap = st0.heap ++ [(b, c)] ∧ b = voiceBends tt acts ∧ c = voiceControls tt acts) ∧
        (voiceNotes tt acts = [] → dget st'.strag (ch, k) = some st0.heap.length) ∧ ∀ x : Nat × Nat, x.2 ≠ k → dget st'.strag x = dget st0.strag x := by
      by_cases hn : voiceNotes tt acts = []
      · have hg : dget st.insts (p, ch, k) = none := by rw [I.insts, if_pos hn]; exact hi
        by_cases h0 : acts = []
        · have hst := I.strag h0
          have hh : st.heap = st0.heap := by rw [I.heap, if_pos h0]
          refine ⟨{ st with strag := dset st.strag (ch, k) st.heap.length, heap := st.heap ++ [([], [])] }, ?_, rfl, rfl, ?_, ?_, ?_⟩
          · unfold LoadSt.eventRef; rw [hg, hst]; simp only [hh]
          · exact ⟨[], [], by simp only [hh], by rw [h0]; rfl, by rw [h0]; rfl⟩
          · intro _; simp only [hh]; exact dget_dset_self _ _ _
          · intro x hx
            rw [← I.other x hx]
            exact dget_dset_ne _ _ (by rintro rfl; exact hx rfl)
        · have hst := I.strag' h0 hn
          refine ⟨st, ?_, rfl, rfl, ⟨_, _, by rw [I.heap, if_neg h0], rfl, rfl⟩, fun _ => hst, I.other⟩
          unfold LoadSt.eventRef; rw [hg, hst]
      · have h0 : acts ≠ [] := by rintro rfl; exact hn rfl
        refine ⟨st, ?_, rfl, rfl, ⟨_, _, by rw [I.heap, if_neg h0], rfl, rfl⟩, fun h => absurd h hn, I.other⟩
        unfold LoadSt.eventRef
        rw [I.insts, if_neg hn, dget_append_new _ _ _ hi]
    cases a with
    | name s => exact absurd hva (by simp [VoiceAct])
    | bend q c v t =>
      obtain ⟨rfl, rfl⟩ := hva
      obtain ⟨st', r1, r2, r3, ⟨b, c', r4, rfl, rfl⟩, r5, r6⟩ := href
      have e1 : voiceNotes tt [Act.bend q c v t] = [] := rfl
      have e2 : voiceBends tt [Act.bend q c v t] = [(v, tt t)] := rfl
      have e3 : voiceControls tt [Act.bend q c v t] = [] := rfl
      have hact : st.act drum k tt (.bend q c v t) = { st' with heap := st0.heap ++ [(voiceBends tt acts ++ [(v, tt t)], voiceControls tt acts)] } := by
        simp only [LoadSt.act, r1, r4, modify_last]
      rw [hact]
      constructor
      · simp only [r2, I.insts, hns, e1, List.append_nil]
      · exact r3.trans I.names
      · simp only [if_neg hne, hbs, hcs, e2, e3, List.append_nil]
      · intro h; exact absurd h hne
      · intro _ h; rw [hns, e1, List.append_nil] at h; exact r5 h
      · exact r6
    | control q c n v t =>
      obtain ⟨rfl, rfl⟩ := hva
      obtain ⟨st', r1, r2, r3, ⟨b, c', r4, rfl, rfl⟩, r5, r6⟩ := href
      have e1 : voiceNotes tt [Act.control q c n v t] = [] := rfl
      have e2 : voiceBends tt [Act.control q c n v t] = [] := rfl
      have e3 : voiceControls tt [Act.control q c n v t] = [(n, v, tt t)] := rfl
      have hact : st.act drum k tt (.control q c n v t) = { st' with heap := st0.heap ++ [(voiceBends tt acts, voiceControls tt acts ++ [(n, v, tt t)])] } := by
        simp only [LoadSt.act, r1, r4, modify_last]
      rw [hact]
      constructor
      · simp only [r2, I.insts, hns, e1, List.append_nil]
      · exact r3.trans I.names
      · simp only [if_neg hne, hbs, hcs, e2, e3, List.append_nil]
      · intro h; exact absurd h hne
      · intro _ h; rw [hns, e1, List.append_nil] at h; exact r5 h
      · exact r6
    | note e =>
      obtain ⟨rfl, rfl⟩ := hva
      have e1 : voiceNotes tt [Act.note e] = [⟨e.velocity, e.pitch, tt e.start, tt e.stop⟩] := rfl
      have e2 : voiceBends tt [Act.note e] = [] := rfl
      have e3 : voiceControls tt [Act.note e] = [] := rfl
      have hnn : voiceNotes tt (acts ++ [Act.note e]) ≠ [] := by rw [hns, e1]; simp
      have hact : st.act drum k tt (.note e) = st.addNote drum k e.program e.channel ⟨e.velocity, e.pitch, tt e.start, tt e.stop⟩ := rfl
      rw [hact]
      by_cases hn : voiceNotes tt acts = []
      · have hg : dget st.insts (e.program, e.channel, k) = none := by rw [I.insts, if_pos hn]; exact hi
        by_cases h0 : acts = []
        · have hst := I.strag h0
          have hh : st.heap = st0.heap := by rw [I.heap, if_pos h0]
          have hadd : st.addNote drum k e.program e.channel ⟨e.velocity, e.pitch, tt e.start, tt e.stop⟩ =
              { st with
                insts := dset st.insts (e.program, e.channel, k) ⟨e.program, decide (e.channel = drum), (dget st.names k).getD "",
                  [⟨e.velocity, e.pitch, tt e.start, tt e.stop⟩], st.heap.length⟩
                heap := st.heap ++ [([], [])] } := by
            unfold LoadSt.addNote; rw [hg, hst]
          rw [hadd]
          constructor
          · simp only [if_neg hnn]
            rw [hns, hn, e1, List.nil_append, dset_of_new _ _ _ ((dget_eq_none _ _).1 hg), I.insts, if_pos hn, I.names, hh]
          · exact I.names
          · simp only [if_neg hne, hbs, hcs, e2, e3, h0, hh]; rfl
          · intro h; exact absurd h hne
          · intro _ h; exact absurd h hnn
          · exact I.other
        · have hst := I.strag' h0 hn
          have hadd : st.addNote drum k e.program e.channel ⟨e.velocity, e.pitch, tt e.start, tt e.stop⟩ =
              { st with
                insts := dset st.insts (e.program, e.channel, k) ⟨e.program, decide (e.channel = drum), (dget st.names k).getD "",
                  [⟨e.velocity, e.pitch, tt e.start, tt e.stop⟩], st0.heap.length⟩ } := by
            unfold LoadSt.addNote; rw [hg, hst]
          rw [hadd]
          constructor
          · simp only [if_neg hnn]
            rw [hns, hn, e1, List.nil_append, dset_of_new _ _ _ ((dget_eq_none _ _).1 hg), I.insts, if_pos hn, I.names]
          · exact I.names
          · simp only [if_neg hne, hbs, hcs, e2, e3, List.append_nil]; rw [I.heap, if_neg h0]
          · intro h; exact absurd h hne
          · intro _ h; exact absurd h hnn
          · exact I.other
      · have h0 : acts ≠ [] := by rintro rfl; exact hn rfl
        have hg : dget st.insts (e.program, e.channel, k) = some ⟨e.program, decide (e.channel = drum), (dget st0.names k).getD "", voiceNotes tt acts, st0.heap.length⟩ := by
          rw [I.insts, if_neg hn, dget_append_new _ _ _ hi]
        have hadd : st.addNote drum k e.program e.channel ⟨e.velocity, e.pitch, tt e.start, tt e.stop⟩ =
            { st with insts := dset st.insts (e.program, e.channel, k) ⟨e.program, decide (e.channel = drum), (dget st0.names k).getD "",
                voiceNotes tt acts ++ [⟨e.velocity, e.pitch, tt e.start, tt e.stop⟩], st0.heap.length⟩ } := by
          unfold LoadSt.addNote; rw [hg]
        rw [hadd]
        constructor
        · simp only [if_neg hnn]
          rw [hns, e1, I.insts, if_neg hn, dset_append_new _ _ _ _ hi]
        · exact I.names
        · simp only [if_neg hne, hbs, hcs, e2, e3, List.append_nil]; rw [I.heap, if_neg h0]
        · intro h; exact absurd h hne
        · intro _ h; exact absurd h hnn
        · exact I.other

/-- What a track holds when it holds one voice: program, channel, name and actions. -/
structure Voice where
  program : Nat
  channel : Nat
  name : String
  acts : List Act

/-- Loading the track does this. -/
def TrackVoice (t : List Msg) (v : Voice) : Prop :=
  loadTrack t = .ok ((if v.name = "" then [] else [Act.name v.name]) ++ v.acts) ∧ ∀ a ∈ v.acts, VoiceAct v.program v.channel a

/-- The instrument that comes of it. -/
def Voice.inst (drum : Nat) (tt : Int → ℚ) (v : Voice) : PInst :=
  ⟨v.program, decide (v.channel = drum), v.name, voiceNotes tt v.acts, voiceBends tt v.acts, voiceControls tt v.acts⟩

/-- Nothing was loaded from track `k` and later ones. -/
structure CleanFrom (k : Nat) (st : LoadSt) : Prop where
  insts : ∀ p ch j, k ≤ j → dget st.insts (p, ch, j) = none
  strag : ∀ ch j, k ≤ j → dget st.strag (ch, j) = none
  names : ∀ j, k ≤ j → dget st.names j = none
  refs : ∀ x ∈ st.insts, x.2.ref < st.heap.length

theorem dget_append_ne {K V : Type} [DecidableEq K] (d : List (K × V)) (k k' : K) (v : V) (h : k ≠ k') (hd : dget d k = none) :
    dget (d ++ [(k, v)]) k' = dget d k' := by
  rw [← dset_of_new d k v ((dget_eq_none d k).1 hd), dget_dset_ne _ _ h]

theorem loadTracks_voices (drum : Nat) (tt : Int → ℚ) (ts : List (List Msg)) (vs : List Voice) (h : List.Forall₂ TrackVoice ts vs) :
    ∀ (k : Nat) (st : LoadSt), CleanFrom k st → ∃ st', loadTracks drum tt k st ts = .ok st' ∧
      st'.insts.map (fun p => p.2.freeze st'.heap) =
        st.insts.map (fun p => p.2.freeze st.heap) ++ (vs.filter (fun v => !(voiceNotes tt v.acts).isEmpty)).map (Voice.inst drum tt) := by
  induction h with
  | nil => intro k st _; exact ⟨st, rfl, by simp⟩
  | @cons t v ts vs htv _ ih =>
    intro k st hc
    obtain ⟨h1, h2⟩ := htv
    -- the state after the name
    obtain ⟨s1, hs1, n1, n2, n3, n4, n5⟩ : ∃ s1 : LoadSt, (if v.name = "" then ([] : List Act) else [Act.name v.name]).foldl (fun st a => st.act drum k tt a) st = s1 ∧
        s1.insts = st.insts ∧ s1.strag = st.strag ∧ s1.heap = st.heap ∧ (dget s1.names k).getD "" = v.name ∧ (∀ j, k + 1 ≤ j → dget s1.names j = none) := by
      by_cases hv : v.name = ""
      · refine ⟨st, by rw [if_pos hv]; rfl, rfl, rfl, rfl, ?_, fun j hj => hc.names j (by omega)⟩
        rw [hc.names k (le_refl _), hv]; rfl
      · refine ⟨st.act drum k tt (.name v.name), by rw [if_neg hv]; rfl, rfl, rfl, rfl, ?_, ?_⟩
        · simp only [LoadSt.act, dget_dset_self, Option.getD_some]
        · intro j hj
          simp only [LoadSt.act]
          rw [dget_dset_ne _ _ (by omega)]
          exact hc.names j (by omega)
    have V := voice_inv drum k v.program v.channel tt s1 (by rw [n1]; exact hc.insts _ _ _ (le_refl _)) (by rw [n2]; exact hc.strag _ _ (le_refl _)) v.acts h2
    have hfold : ((if v.name = "" then ([] : List Act) else [Act.name v.name]) ++ v.acts).foldl (fun st a => st.act drum k tt a) st =
        v.acts.foldl (fun st a => st.act drum k tt a) s1 := by
      rw [List.foldl_append, hs1]
    generalize hs2 : v.acts.foldl (fun st a => st.act drum k tt a) s1 = s2 at V
    have hstrag : ∀ ch j, k + 1 ≤ j → dget s2.strag (ch, j) = none := by
      intro ch j hj
      rw [V.other (ch, j) (by simp only; omega), n2]
      exact hc.strag _ _ (by omega)
    have hheap : st.heap.length ≤ s2.heap.length ∧ ∀ r, r < st.heap.length → s2.heap.getD r ([], []) = st.heap.getD r ([], []) := by
      rw [V.heap, n3]
      split
      · exact ⟨le_refl _, fun _ _ => rfl⟩
      · refine ⟨by simp, fun r hr => ?_⟩
        rw [List.getD_eq_getElem?_getD, List.getD_eq_getElem?_getD, List.getElem?_append_left hr]
    have hfreeze : st.insts.map (fun p => p.2.freeze s2.heap) = st.insts.map (fun p => p.2.freeze st.heap) := by
      apply List.map_congr_left
      intro x hx
      unfold LInst.freeze
      rw [hheap.2 _ (hc.refs x hx)]
    have hclean : CleanFrom (k + 1) s2 ∧ s2.insts.map (fun p => p.2.freeze s2.heap) =
        st.insts.map (fun p => p.2.freeze st.heap) ++ ([v].filter (fun v => !(voiceNotes tt v.acts).isEmpty)).map (Voice.inst drum tt) := by
      by_cases hn : voiceNotes tt v.acts = []
      · have hins : s2.insts = st.insts := by rw [V.insts, if_pos hn, n1]
        refine ⟨⟨fun p ch j hj => by rw [hins]; exact hc.insts _ _ _ (by omega), hstrag, fun j hj => by rw [V.names]; exact n5 j hj, ?_⟩, ?_⟩
        · intro x hx
          rw [hins] at hx
          exact lt_of_lt_of_le (hc.refs x hx) hheap.1
        · rw [hins, hfreeze]; simp [hn]
      · have h0 : v.acts ≠ [] := by intro h; rw [h] at hn; exact hn rfl
        have hins := V.insts
        rw [if_neg hn, n1, n3, n4] at hins
        have hh := V.heap
        rw [if_neg h0, n3] at hh
        refine ⟨⟨?_, hstrag, fun j hj => by rw [V.names]; exact n5 j hj, ?_⟩, ?_⟩
        · intro p ch j hj
          rw [hins, dget_append_ne _ _ _ _ ?_ (hc.insts _ _ _ (le_refl _))]
          · exact hc.insts _ _ _ (by omega)
          · simp only [ne_eq, Prod.mk.injEq, not_and]; omega
        · intro x hx
          rw [hins] at hx
          rcases List.mem_append.1 hx with hx | hx
          · exact lt_of_lt_of_le (hc.refs x hx) hheap.1
          · simp only [List.mem_singleton] at hx
            subst hx
            rw [hh]; simp
        · rw [hins, List.map_append, hfreeze]
          congr 1
          simp only [List.map_cons, List.map_nil, LInst.freeze, hh]
          rw [List.filter_cons_of_pos (by simpa using hn)]
          simp only [List.filter_nil, List.map_cons, List.map_nil, Voice.inst]
          rw [List.getD_eq_getElem?_getD, List.getElem?_append_right (le_refl _)]
          simp
    obtain ⟨st', g1, g2⟩ := ih (k + 1) s2 hclean.1
    refine ⟨st', ?_, ?_⟩
    · simp only [loadTracks, h1, bind, Except.bind, hfold, hs2, g1]
    · rw [g2, hclean.2, List.append_assoc, ← List.map_append, ← List.filter_append]
      rfl

/-- Loading tracks with one voice each gives one instrument for every voice that plays a note, in the order of the tracks. -/
theorem loadInstruments_voices (drum : Nat) (tt : Int → ℚ) (ts : List (List Msg)) (vs : List Voice) (h : List.Forall₂ TrackVoice ts vs) :
    loadInstruments drum tt ts = .ok ((vs.filter (fun v => !(voiceNotes tt v.acts).isEmpty)).map (Voice.inst drum tt)) := by
  obtain ⟨st', h1, h2⟩ := loadTracks_voices drum tt ts vs h 0 ⟨[], [], [], []⟩ ⟨fun _ _ _ _ => rfl, fun _ _ _ => rfl, fun _ _ => rfl, by simp⟩
  unfold loadInstruments
  simp only [h1, bind, Except.bind, h2, List.map_nil, List.nil_append]

/-! ### The actions of a track on one channel -/

/-- Events of channel `ch` only, and no program change. -/
def OnChannel (ch : Nat) (e : Msg) : Prop :=
  match e.body with
  | .programChange _ _ => False
  | .trackName _ => False
  | .noteOn c _ _ => c = ch
  | .noteOff c _ _ => c = ch
  | .pitchwheel c _ => c = ch
  | .controlChange c _ _ => c = ch
  | _ => True

theorem finish_voice (st : TrackSt) (tick : Int) (eos : Bool) (ch : Nat) : ∀ (l : List ((Nat × Nat) × List (Int × Nat))) (acts : List Act),
    (∀ p ∈ l, p.1.1 = ch) → finishEmits st tick eos l = .ok acts → ∀ a ∈ acts, VoiceAct (st.program ch) ch a := by
  intro l
  induction l with
  | nil => intro acts _ h; simp only [finishEmits, Except.ok.injEq] at h; subst h; simp
  | cons x l ih =>
    intro acts hk h
    obtain ⟨k, v⟩ := x
    have hk0 : k.1 = ch := hk _ List.mem_cons_self
    cases v with
    | nil => simp [finishEmits] at h
    | cons q v =>
      obtain ⟨s, vel⟩ := q
      simp only [finishEmits] at h
      cases hm : finishEmits st tick eos l with
      | error e => rw [hm] at h; cases h
      | ok more =>
        rw [hm] at h
        have hmore := ih more (fun p hp => hk p (List.mem_cons_of_mem _ hp)) hm
        dsimp only [bind, Except.bind] at h
        split at h
        · obtain rfl := Except.ok.inj h
          intro a ha
          rcases List.mem_cons.1 ha with rfl | ha
          · exact ⟨by rw [hk0], hk0⟩
          · exact hmore a ha
        · obtain rfl := Except.ok.inj h
          exact hmore

theorem noteOff_voice (st : TrackSt) (tick : Int) (ch n : Nat) (hk : ∀ p ∈ st.opens, p.1.1 = ch) :
    (∀ p ∈ (noteOff st tick ch n).1.opens, p.1.1 = ch) ∧ (noteOff st tick ch n).1.prog = st.prog ∧
      ∀ a ∈ (noteOff st tick ch n).2, VoiceAct (st.program ch) ch a := by
  unfold noteOff
  split
  · exact ⟨hk, rfl, by simp⟩
  · dsimp only
    have hacts : ∀ (l : List (Int × Nat)), ∀ a ∈ l.map (fun p => Act.note ⟨st.program ch, ch, n, p.2, p.1, tick⟩), VoiceAct (st.program ch) ch a := by
      intro l a ha
      obtain ⟨p, _, rfl⟩ := List.mem_map.1 ha
      exact ⟨rfl, rfl⟩
    split
    · refine ⟨?_, rfl, hacts _⟩
      intro p hp
      rcases mem_dset hp with rfl | hp
      · rfl
      · exact hk p hp
    · refine ⟨?_, rfl, hacts _⟩
      intro p hp
      exact hk p (List.mem_of_mem_filter hp)

theorem loadGo_voice (ch : Nat) : ∀ (es : List Msg) (st : TrackSt) (acts : List Act), (∀ e ∈ es, OnChannel ch e) →
    (∀ p ∈ st.opens, p.1.1 = ch) → loadGo st es = .ok acts → ∀ a ∈ acts, VoiceAct (st.program ch) ch a := by
  intro es
  induction es with
  | nil => intro st acts _ _ h; simp only [loadGo, Except.ok.injEq] at h; subst h; simp
  | cons e es ih =>
    intro st acts hes hk h
    have he := hes e List.mem_cons_self
    have key : ∀ st' as, loadStep st e = .ok (st', as) → (∀ p ∈ st'.opens, p.1.1 = ch) → st'.prog = st.prog →
        (∀ a ∈ as, VoiceAct (st.program ch) ch a) → ∀ a ∈ acts, VoiceAct (st.program ch) ch a := by
      intro st' as k1 k2 k3 k4
      simp only [loadGo, k1, bind, Except.bind] at h
      cases hm : loadGo st' es with
      | error x => rw [hm] at h; cases h
      | ok more =>
        rw [hm] at h
        obtain rfl := Except.ok.inj h
        have := ih st' more (fun x hx => hes x (List.mem_cons_of_mem _ hx)) k2 hm
        have hp : st'.program ch = st.program ch := by unfold TrackSt.program; rw [k3]
        rw [hp] at this
        intro a ha
        rcases List.mem_append.1 ha with ha | ha
        · exact k4 a ha
        · exact this a ha
    have fin : ∀ eos st' as, finishNotes st e.time eos = .ok (st', as) → (∀ p ∈ st'.opens, p.1.1 = ch) ∧ st'.prog = st.prog ∧
        ∀ a ∈ as, VoiceAct (st.program ch) ch a := by
      intro eos st' as hf
      unfold finishNotes at hf
      cases hm : finishEmits st e.time eos st.opens with
      | error x => rw [hm] at hf; cases hf
      | ok more =>
        rw [hm] at hf
        dsimp only [bind, Except.bind] at hf
        simp only [Except.ok.injEq, Prod.mk.injEq] at hf
        obtain ⟨rfl, rfl⟩ := hf
        exact ⟨fun p hp => hk p (List.mem_of_mem_filter hp), rfl, finish_voice st e.time eos ch st.opens more hk hm⟩
    have hload : ∃ r, loadStep st e = .ok r := by
      cases hs : loadStep st e with
      | ok r => exact ⟨r, rfl⟩
      | error x => simp only [loadGo, hs, bind, Except.bind] at h; cases h
    obtain ⟨⟨st', as⟩, hst⟩ := hload
    refine key st' as hst ?_ ?_ ?_ <;>
    · obtain ⟨t, b⟩ := e
      cases b with
      | noteOn c n v =>
        have hc : c = ch := he
        subst hc
        simp only [loadStep] at hst
        split at hst
        · cases hm : finishNotes st t false with
          | error x => rw [hm] at hst; cases hst
          | ok r =>
            obtain ⟨st1, as1⟩ := r
            rw [hm] at hst
            dsimp only [bind, Except.bind] at hst
            obtain ⟨f1, f2, f3⟩ := fin false st1 as1 hm
            simp only [Except.ok.injEq, Prod.mk.injEq] at hst
            obtain ⟨rfl, rfl⟩ := hst
            first
              | exact f3
              | exact f2
              | (intro p hp
                 rcases mem_dset hp with rfl | hp
                 · rfl
                 · exact f1 p hp)
        · have := noteOff_voice st t c n hk
          rw [Except.ok.inj hst] at this
          first
            | exact this.1
            | exact this.2.1
            | exact this.2.2
      | noteOff c n v =>
        have hc : c = ch := he
        subst hc
        have := noteOff_voice st t c n hk
        simp only [loadStep] at hst
        rw [Except.ok.inj hst] at this
        first
          | exact this.1
          | exact this.2.1
          | exact this.2.2
      | endOfTrack =>
        have := fin true st' as hst
        first
          | exact this.1
          | exact this.2.1
          | exact this.2.2
      | programChange c q => exact absurd he (by simp [OnChannel])
      | trackName s => exact absurd he (by simp [OnChannel])
      | pitchwheel c v =>
        have hc : c = ch := he
        simp only [loadStep, Except.ok.injEq, Prod.mk.injEq] at hst
        obtain ⟨rfl, rfl⟩ := hst
        first
          | exact hk
          | rfl
          | (intro a ha; simp only [List.mem_singleton] at ha; subst ha; subst hc; exact ⟨rfl, rfl⟩)
      | controlChange c q v =>
        have hc : c = ch := he
        simp only [loadStep, Except.ok.injEq, Prod.mk.injEq] at hst
        obtain ⟨rfl, rfl⟩ := hst
        first
          | exact hk
          | rfl
          | (intro a ha; simp only [List.mem_singleton] at ha; subst ha; subst hc; exact ⟨rfl, rfl⟩)
      | _ =>
        simp only [loadStep, Except.ok.injEq, Prod.mk.injEq] at hst
        obtain ⟨rfl, rfl⟩ := hst
        first
          | exact hk
          | rfl
          | simp

end NGC
