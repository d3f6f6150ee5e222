import Verif.PrettyMidiProps9

/-! C144: instruments survive writing and reading, continued. -/

namespace NGC

/-- What is assumed of `sorted(track, key=cmp_to_key(event_compare))`: as `IsCmpSort`, and a first element that nothing compares less than stays in front and does not disturb the rest,
when the rest is consistently ordered. (The name of a track compares equal to everything at tick 0.) True of every stable insertion or merge sort; shown for insertion sort below. -/
structure IsTrackSort (srt : List Msg → List Msg) : Prop where
  cmp : IsCmpSort eventLt srt
  head : ∀ x l, StrictWeakOn eventLt l → (∀ y ∈ l, eventLt y x = false) → srt (x :: l) = x :: srt l

theorem insSort_head (x : Msg) (l : List Msg) (h : ∀ y ∈ l, eventLt y x = false) : insSort eventLt (x :: l) = x :: insSort eventLt l := by
  have gen : ∀ (l acc : List Msg), (∀ y ∈ l, eventLt y x = false) →
      l.foldl (fun acc y => insBy eventLt y acc) (x :: acc) = x :: l.foldl (fun acc y => insBy eventLt y acc) acc := by
    intro l
    induction l with
    | nil => intro acc _; rfl
    | cons y l ih =>
      intro acc h
      rw [List.foldl_cons, List.foldl_cons]
      rw [show insBy eventLt y (x :: acc) = x :: insBy eventLt y acc by
        rw [insBy, if_neg (by rw [h y List.mem_cons_self]; decide)]]
      exact ih _ (fun z hz => h z (List.mem_cons_of_mem _ hz))
  exact gen l [] h

/-- The assumption is met by insertion sort. -/
theorem insertion_isTrackSort : IsTrackSort (insSort eventLt) :=
  ⟨insertion_isCmpSort eventLt, fun x l _ h => insSort_head x l h⟩

/-! ### The written track of one instrument -/

theorem swapGo_shift (x : Msg) : ∀ (ps : List (Msg × Msg)) (i : Nat) (l : List Msg), swapGo (i + 1) ps (x :: l) = x :: swapGo i ps l := by
  intro ps
  induction ps with
  | nil => intro i l; rfl
  | cons p ps ih =>
    intro i l
    obtain ⟨a, b⟩ := p
    rw [swapGo, swapGo]
    split
    · rw [List.set_cons_succ, List.set_cons_succ, ih]
    · rw [ih]

theorem swapOffs_name (t : Int) (s : String) (l : List Msg) : swapOffs (⟨t, .trackName s⟩ :: l) = ⟨t, .trackName s⟩ :: swapOffs l := by
  cases l with
  | nil => rfl
  | cons y l =>
    unfold swapOffs
    rw [List.tail_cons, List.zip_cons_cons, swapGo, if_neg (by simp [isSwap]), swapGo_shift]
    rfl

/-- A named instrument is written as its name followed by what is written without the name. -/
theorem named_track (srt : List Msg → List Msg) (hsrt : IsTrackSort srt) (c : Clock) (h : ClockOk c) (drum n : Nat) (i : PInst)
    (hi : Spec.GoodInst i) (hname : i.name ≠ "") (T : List Msg) (hT : instTrack srt c drum n { i with name := "" } = .ok T) :
    instTrack srt c drum n i = .ok (⟨0, .trackName i.name⟩ :: T) := by
  cases hch : channelOf drum n i.isDrum with
  | error e => simp only [instTrack, hch, bind, Except.bind] at hT; cases hT
  | ok ch =>
    obtain ⟨evs, e1, e2, e3, e4⟩ := instEvents_ok c h ch { i with name := "" } ⟨hi.1, hi.2, hi.3⟩
    have hnamed : instEvents c ch i = .ok (⟨0, .trackName i.name⟩ :: evs) := by
      obtain ⟨tk, htk, _⟩ := tick_fun c h
      have hu := instEvents_eq c tk htk ch { i with name := "" } rfl
      rw [e1] at hu
      rw [Except.ok.inj hu]
      unfold instEvents
      rw [mapM_map _ (fun n : PNote => [(⟨(tk n.start : Int), .noteOn ch n.pitch n.velocity⟩ : Msg),
          ⟨(tk n.stop : Int), .noteOn ch n.pitch 0⟩]) i.notes (fun a _ => by rw [htk, htk]; rfl),
        mapM_map _ (fun b : Int × ℚ => (⟨(tk b.2 : Int), .pitchwheel ch b.1⟩ : Msg)) i.bends
          (fun a _ => by rw [htk]; rfl),
        mapM_map _ (fun b : Nat × Nat × ℚ => (⟨(tk b.2.2 : Int), .controlChange ch b.1 b.2.1⟩ : Msg)) i.controls
          (fun a _ => by rw [htk]; rfl)]
      simp only [hname, bind, Except.bind, ne_eq, not_false_eq_true, if_true, instList]
      rw [List.flatMap_def]
      rfl
    have hw := C59_comparator_consistent evs (e4 rfl)
    have hlt : ∀ y ∈ evs, eventLt y ⟨0, .trackName i.name⟩ = false := by
      intro y hy
      have h0 := (e3 y hy).1
      unfold eventLt eventCompare
      rw [decide_eq_false_iff_not]
      split
      · split
        · rename_i hx; simp [secondary] at hx
        · simp only; omega
      · simp only; omega
    have hsort := hsrt.head _ _ hw hlt
    simp only [instTrack, hch, e1, bind, Except.bind] at hT
    simp only [instTrack, hch, hnamed, bind, Except.bind, hsort, swapOffs_name]
    have hne : swapOffs (srt evs) ≠ [] := by
      intro h0
      rw [h0] at hT
      simp [addEnd] at hT
    unfold addEnd at hT ⊢
    rw [List.getLast?_cons, Option.getD_eq_iff.2 (Or.inl (List.getLast?_eq_some_getLast hne))]
    rw [List.getLast?_eq_some_getLast hne] at hT
    dsimp only at hT ⊢
    rw [← Except.ok.inj hT]
    rfl

theorem voiceNotes_eq (tt : Int → ℚ) (acts : List Act) :
    voiceNotes tt acts = (actNotes acts).map (fun e => ⟨e.velocity, e.pitch, tt e.start, tt e.stop⟩) := by
  unfold voiceNotes actNotes
  rw [List.map_filterMap]
  apply List.filterMap_congr
  intro a _
  cases a <;> rfl

theorem voice_content (tt : Int → ℚ) (p ch : Nat) (s : Nat × Nat × Nat → Bool) (hs : ∀ q : Nat, s (q, ch, 0) = true) (acts : List Act)
    (h : ∀ a ∈ acts, VoiceAct p ch a) : content tt s (acts.map (fun a => (0, a))) = (voiceBends tt acts, voiceControls tt acts) := by
  unfold content voiceBends voiceControls
  rw [List.filterMap_map, List.filterMap_map]
  refine Prod.ext ?_ ?_ <;>
  · apply List.filterMap_congr
    intro a ha
    have hv := h a ha
    cases a with
    | bend q c v t => obtain ⟨_, rfl⟩ := hv; simp [bendIf, ctlIf, hs]
    | control q c n v t => obtain ⟨_, rfl⟩ := hv; simp [bendIf, ctlIf, hs]
    | _ => rfl

/-- What comes back of one instrument. -/
structure VoiceOf (tk : ℚ → Nat) (i : PInst) (ch : Nat) (T : List Msg) (acts : List Act) : Prop where
  notes : ∀ tt : Int → ℚ, (voiceNotes tt acts).Perm (i.notes.map (fun n => ⟨n.velocity, n.pitch, tt (tk n.start), tt (tk n.stop)⟩))
  bends : ∀ tt : Int → ℚ, (voiceBends tt acts).Perm (i.bends.map (fun b => (b.1, tt (tk b.2))))
  controls : ∀ tt : Int → ℚ, (voiceControls tt acts).Perm (i.controls.map (fun b => (b.1, b.2.1, tt (tk b.2.2))))
  bendsOf : ∀ tt : Int → ℚ, voiceBends tt acts = Spec.bendsOf tt ch T
  controlsOf : ∀ tt : Int → ℚ, voiceControls tt acts = Spec.controlsOf tt ch T
  ticks : ∀ m ∈ instList tk ch i, m ∈ T

theorem inst_track_voice (srt : List Msg → List Msg) (hsrt : IsPySort eventLt srt) (c : Clock)
    (h : ClockOk c) (tk : ℚ → Nat) (htk : ∀ t, c.timeToTick t = .ok (tk t : Int))
    (hnear : ∀ t (j : Nat), |t - Spec.seconds c.scales (tk t)| ≤ |t - Spec.seconds c.scales j|)
    (drum n : Nat) (hd : drum < 16) (i : PInst) (hi : Spec.Playable c i) :
    ∃ ch T acts, channelOf drum n i.isDrum = .ok ch ∧ instTrack srt c drum n i = .ok T ∧
      (∀ m ∈ T, 0 ≤ m.time) ∧ T ≠ [] ∧ T.Pairwise (fun a b => a.time ≤ b.time) ∧
      loadTrack T = .ok acts ∧ (∀ a ∈ acts, VoiceAct i.program ch a) ∧ VoiceOf tk i ch T acts := by
  obtain ⟨ch, T, h1, h2, h3, h3', h4, h5, h6⟩ := inst_track_notes srt hsrt c h tk htk hnear drum n hd i hi
  obtain ⟨ch', evs, track, t, g1, g2, g3, g4, g5, g6⟩ := C59_instrument_track srt hsrt c h drum n hd i hi.range hi.unnamed
  rw [h1] at g1
  obtain rfl := Except.ok.inj g1
  rw [instEvents_eq c tk htk ch i hi.unnamed] at g2
  obtain rfl := Except.ok.inj g2
  rw [h2] at g3
  obtain rfl := Except.ok.inj g3
  obtain ⟨acts, a1, a2⟩ := loadTrack_exact _ h4 h5
  -- the program change comes first
  let others : List Msg := i.notes.flatMap (fun n => [(⟨(tk n.start : Int), .noteOn ch n.pitch n.velocity⟩ : Msg),
      ⟨(tk n.stop : Int), .noteOn ch n.pitch 0⟩]) ++
    i.bends.map (fun b => (⟨(tk b.2 : Int), .pitchwheel ch b.1⟩ : Msg)) ++
    i.controls.map (fun b => (⟨(tk b.2.2 : Int), .controlChange ch b.1 b.2.1⟩ : Msg))
  have hlist : instList tk ch i = ⟨0, .programChange ch i.program⟩ :: others := by
    unfold instList; simp only [others, List.append_assoc, List.cons_append, List.nil_append]
  have hoth : ∀ m ∈ others, OnChannel ch m ∧ 5 < Spec.rank m.body := by
    intro m hm
    simp only [others, List.mem_append, List.mem_flatMap, List.mem_map, List.mem_cons, List.not_mem_nil, or_false] at hm
    rcases hm with (⟨n, hn, rfl | rfl⟩ | ⟨b, _, rfl⟩) | ⟨b, _, rfl⟩ <;> exact ⟨rfl, by simp [Spec.rank]⟩
  rw [hlist] at g4
  have hpc : ∃ rest, track = ⟨0, .programChange ch i.program⟩ :: rest := by
    cases track with
    | nil => exact absurd g4 (by simp)
    | cons x rest =>
      by_cases hx : x = ⟨0, .programChange ch i.program⟩
      · exact ⟨rest, by rw [hx]⟩
      · exfalso
        have hxm : x ∈ others := by
          have := g4.mem_iff.1 (List.mem_cons_self (a := x))
          rcases List.mem_cons.1 this with h | h
          · exact absurd h hx
          · exact h
        have hpm : (⟨0, .programChange ch i.program⟩ : Msg) ∈ rest := by
          have := g4.mem_iff.2 (List.mem_cons_self)
          rcases List.mem_cons.1 this with h | h
          · exact absurd h.symm hx
          · exact h
        unfold Spec.WellOrdered at g5
        rw [List.cons_append, List.pairwise_cons] at g5
        have := g5.1 _ (List.mem_append_left _ hpm)
        have h0 := (g6 x List.mem_cons_self).1
        have hle := this.1
        simp only at hle
        have := (this.2 (by simp only; omega)).1
        have h5 := (hoth x hxm).2
        simp only [Spec.rank] at this
        simp only [Spec.rank] at h5
        omega
  obtain ⟨rest, rfl⟩ := hpc
  have hrest : rest.Perm others := by
    have := g4
    exact (List.perm_cons _).1 this
  have hon : ∀ e ∈ rest ++ [(⟨t, .endOfTrack⟩ : Msg)], OnChannel ch e := by
    intro e he
    rcases List.mem_append.1 he with he | he
    · exact (hoth e (hrest.mem_iff.1 he)).1
    · simp only [List.mem_singleton] at he; subst he; trivial
  have hgo : loadGo ⟨[], [(ch, i.program)]⟩ (rest ++ [(⟨t, .endOfTrack⟩ : Msg)]) = .ok acts := by
    have := a1
    unfold loadTrack at this
    rw [List.cons_append, loadGo] at this
    simp only [loadStep, dset, bind, Except.bind, List.nil_append] at this
    cases hm : loadGo ⟨[], [(ch, i.program)]⟩ (rest ++ [(⟨t, .endOfTrack⟩ : Msg)]) with
    | error e => rw [hm] at this; cases this
    | ok more => rw [hm] at this; exact this
  have hprog : TrackSt.program ⟨[], [(ch, i.program)]⟩ ch = i.program := by simp [TrackSt.program, dget]
  have hva : ∀ a ∈ acts, VoiceAct i.program ch a := by
    have := loadGo_voice ch _ _ acts hon (by simp) hgo
    rw [hprog] at this
    exact this
  have hev : ∀ tt : Int → ℚ, (voiceBends tt acts, voiceControls tt acts) =
      (Spec.bendsOf tt ch ((⟨0, .programChange ch i.program⟩ : Msg) :: rest ++ [(⟨t, .endOfTrack⟩ : Msg)]),
       Spec.controlsOf tt ch ((⟨0, .programChange ch i.program⟩ : Msg) :: rest ++ [(⟨t, .endOfTrack⟩ : Msg)])) := by
    intro tt
    have := loadGo_by tt 0 ch (fun _ => true) (fun x => decide (x.2.1 = ch)) (fun p c => by simp) _ ⟨[], []⟩ acts (by simp) a1
    rw [voice_content tt i.program ch _ (fun q => by simp) acts hva, bendsBy_all, controlsBy_all] at this
    exact this
  have hperm : ((⟨0, .programChange ch i.program⟩ : Msg) :: rest ++ [(⟨t, .endOfTrack⟩ : Msg)]).Perm
      ((⟨0, .programChange ch i.program⟩ : Msg) :: others ++ [(⟨t, .endOfTrack⟩ : Msg)]) := (g4.append_right _)
  refine ⟨ch, _, acts, h1, h2, h3, h3', h4, a1, hva, ?_, ?_, ?_, fun tt => congrArg Prod.fst (hev tt), fun tt => congrArg Prod.snd (hev tt), ?_⟩
  · intro tt
    rw [voiceNotes_eq]
    refine ((a2.trans h6).map _).trans ?_
    rw [List.map_map]
    exact List.Perm.refl _
  · intro tt
    rw [(Prod.mk.inj (hev tt)).1]
    unfold Spec.bendsOf
    refine (hperm.filterMap _).trans (List.Perm.of_eq ?_)
    simp only [others, List.cons_append, List.filterMap_append, List.filterMap_cons, List.filterMap_nil]
    rw [filterMap_nil_of _ (List.flatMap _ _) (by
        intro e he; simp only [List.mem_flatMap, List.mem_cons, List.not_mem_nil, or_false] at he
        obtain ⟨n, _, rfl | rfl⟩ := he <;> rfl),
      filterMap_nil_of _ (List.map _ i.controls) (by intro e he; obtain ⟨b, _, rfl⟩ := List.mem_map.1 he; rfl),
      List.filterMap_map]
    simp only [List.nil_append, List.append_nil]
    rw [← List.filterMap_eq_map]
    apply List.filterMap_congr
    intro b _
    simp [Function.comp]
  · intro tt
    rw [(Prod.mk.inj (hev tt)).2]
    unfold Spec.controlsOf
    refine (hperm.filterMap _).trans (List.Perm.of_eq ?_)
    simp only [others, List.cons_append, List.filterMap_append, List.filterMap_cons, List.filterMap_nil]
    rw [filterMap_nil_of _ (List.flatMap _ _) (by
        intro e he; simp only [List.mem_flatMap, List.mem_cons, List.not_mem_nil, or_false] at he
        obtain ⟨n, _, rfl | rfl⟩ := he <;> rfl),
      filterMap_nil_of _ (List.map _ i.bends) (by intro e he; obtain ⟨b, _, rfl⟩ := List.mem_map.1 he; rfl),
      List.filterMap_map]
    simp only [List.nil_append, List.append_nil]
    rw [← List.filterMap_eq_map]
    apply List.filterMap_congr
    intro b _
    simp [Function.comp]
  · intro m hm
    rw [hlist] at hm
    exact List.mem_append_left _ (g4.mem_iff.2 hm)

/-! ### The whole file -/

namespace Spec

/-- The object with the names of its instruments removed. -/
def Unnamed (pm : PM) : PM := { pm with insts := pm.insts.map (fun i => { i with name := "" }) }

/-- Instrument `j` is instrument `i`: same program, drum flag and name, same notes, same pitch bends and control changes moved to their nearest ticks (`tk`), these in the order of time. -/
structure SameInst (scales : List (Nat × ℚ)) (tk : ℚ → Nat) (i j : PInst) : Prop where
  program : j.program = i.program
  isDrum : j.isDrum = i.isDrum
  name : j.name = i.name
  notes : j.notes.Perm i.notes
  bends : j.bends.Perm (i.bends.map (fun b => (b.1, seconds scales (tk b.2))))
  controls : j.controls.Perm (i.controls.map (fun b => (b.1, b.2.1, seconds scales (tk b.2.2))))
  bendsOrder : j.bends.Pairwise (fun a b => a.2 ≤ b.2)
  controlsOrder : j.controls.Pairwise (fun a b => a.2.2 ≤ b.2.2)

end Spec

/-- An instrument, its voice and its track in the written file. -/
structure WrittenInst (tk : ℚ → Nat) (drum : Nat) (x : PInst × Voice × List Msg) : Prop where
  voice : TrackVoice x.2.2 x.2.1
  program : x.2.1.program = x.1.program
  drum : decide (x.2.1.channel = drum) = x.1.isDrum
  name : x.2.1.name = x.1.name
  content : VoiceOf tk x.1 x.2.1.channel x.2.2 x.2.1.acts
  nonempty : x.2.2 ≠ []
  nonneg : ∀ m ∈ x.2.2, 0 ≤ m.time
  order : x.2.2.Pairwise (fun a b => a.time ≤ b.time)

theorem voiceOf_named (tk : ℚ → Nat) (i : PInst) (s : String) (ch : Nat) (T : List Msg) (acts : List Act) (h : VoiceOf tk { i with name := "" } ch T acts) :
    VoiceOf tk i ch (⟨0, .trackName s⟩ :: T) acts :=
  ⟨h.notes, h.bends, h.controls, fun tt => by rw [h.bendsOf tt]; rfl, fun tt => by rw [h.controlsOf tt]; rfl,
    fun m hm => List.mem_cons_of_mem _ (h.ticks m hm)⟩

theorem voiceOf_unnamed (tk : ℚ → Nat) (i : PInst) (ch : Nat) (T : List Msg) (acts : List Act) (h : VoiceOf tk { i with name := "" } ch T acts) :
    VoiceOf tk i ch T acts := ⟨h.notes, h.bends, h.controls, h.bendsOf, h.controlsOf, h.ticks⟩

theorem inst_tracks_voices (srt : List Msg → List Msg) (hsrt : IsTrackSort srt) (c : Clock)
    (h : ClockOk c) (tk : ℚ → Nat) (htk : ∀ t, c.timeToTick t = .ok (tk t : Int))
    (hnear : ∀ t (j : Nat), |t - Spec.seconds c.scales (tk t)| ≤ |t - Spec.seconds c.scales j|)
    (drum : Nat) (hd : drum < 16) : ∀ (is : List PInst) (n : Nat), (∀ i ∈ is, Spec.Playable c { i with name := "" }) →
    ∃ l : List (PInst × Voice × List Msg), l.map (·.1) = is ∧ instTracks srt c drum n is = .ok (l.map (·.2.2)) ∧ ∀ x ∈ l, WrittenInst tk drum x := by
  intro is
  induction is with
  | nil => intro n _; exact ⟨[], rfl, rfl, by simp⟩
  | cons i is ih =>
    intro n hi
    have hp := hi i List.mem_cons_self
    obtain ⟨ch, T, acts, h1, h2, h3, h4, h5, h6, h7, h8⟩ := inst_track_voice srt hsrt.cmp.isPySort c h tk htk hnear drum n hd _ hp
    obtain ⟨l, g1, g2, g3⟩ := ih (n + 1) (fun x hx => hi x (List.mem_cons_of_mem _ hx))
    have hdr : decide (ch = drum) = i.isDrum := channel_drum drum n i.isDrum ch h1
    by_cases hn : i.name = ""
    · have hi0 : { i with name := "" } = i := by cases i; simp only at hn; subst hn; rfl
      refine ⟨(i, ⟨i.program, ch, "", acts⟩, T) :: l, by rw [List.map_cons, g1], ?_, ?_⟩
      · rw [hi0] at h2
        simp only [instTracks, h2, g2, bind, Except.bind, List.map_cons]
      · intro x hx
        rcases List.mem_cons.1 hx with rfl | hx
        · exact ⟨⟨h6, h7⟩, rfl, hdr, hn.symm, voiceOf_unnamed _ _ _ _ _ h8, h4, h3, h5⟩
        · exact g3 x hx
    · have hT := named_track srt hsrt c h drum n i ⟨hp.range.1, hp.range.2, hp.range.3⟩ hn T h2
      refine ⟨(i, ⟨i.program, ch, i.name, acts⟩, ⟨0, .trackName i.name⟩ :: T) :: l, by rw [List.map_cons, g1], ?_, ?_⟩
      · simp only [instTracks, hT, g2, bind, Except.bind, List.map_cons]
      · intro x hx
        rcases List.mem_cons.1 hx with rfl | hx
        · refine ⟨⟨?_, h7⟩, rfl, hdr, rfl, voiceOf_named _ _ _ _ _ _ h8, by simp, ?_, ?_⟩
          · unfold loadTrack at h6 ⊢
            simp only [loadGo, loadStep, bind, Except.bind, h6, if_neg hn]
          · intro m hm
            rcases List.mem_cons.1 hm with rfl | hm
            · exact le_refl _
            · exact h3 m hm
          · rw [List.pairwise_cons]
            exact ⟨fun m hm => h3 m hm, h5⟩
        · exact g3 x hx

theorem timing_silent (prog : List (Nat × Nat)) : ∀ (l : List Msg), (∀ m ∈ l, (∃ t, m.body = .setTempo t) ∨ (∃ a b, m.body = .timeSig a b) ∨ (∃ k, m.body = .keySig k) ∨
      (∃ s, m.body = .lyrics s) ∨ m.body = .endOfTrack) → loadGo ⟨[], prog⟩ l = .ok [] := by
  intro l
  induction l with
  | nil => intro _; rfl
  | cons e l ih =>
    intro h
    have := ih (fun m hm => h m (List.mem_cons_of_mem _ hm))
    have hs : loadStep ⟨[], prog⟩ e = .ok (⟨[], prog⟩, []) := by
      obtain ⟨t, b⟩ := e
      rcases h _ List.mem_cons_self with ⟨a, hb⟩ | ⟨a, c, hb⟩ | ⟨a, hb⟩ | ⟨a, hb⟩ | hb <;> (simp only at hb; subst hb; rfl)
    simp only [loadGo, hs, this, bind, Except.bind, List.append_nil]

theorem timingList_kinds (tk : ℚ → Nat) (q : List (Nat × Nat)) (pm : PM) :
    ∀ m ∈ timingList tk q pm, (∃ t, m.body = .setTempo t) ∨ (∃ a b, m.body = .timeSig a b) ∨ (∃ k, m.body = .keySig k) ∨
      (∃ s, m.body = .lyrics s) ∨ m.body = .endOfTrack := by
  intro m hm
  unfold timingList at hm
  simp only [List.mem_append, List.mem_map] at hm
  rcases hm with (((hm | ⟨x, _, rfl⟩) | ⟨x, _, rfl⟩) | ⟨x, _, rfl⟩) | ⟨x, _, rfl⟩
  · split at hm
    · simp only [List.mem_singleton] at hm; subst hm; simp
    · simp at hm
  all_goals simp

theorem clock_seconds_mono (c : Clock) (h : ClockOk c) {a b : Nat} (hab : a ≤ b) : Spec.seconds c.scales a ≤ Spec.seconds c.scales b := by
  rcases Nat.lt_or_ge a b with hlt | hge
  · exact (seconds_strictMono c.scales h.2.1 hlt).le
  · rw [show a = b by omega]

theorem filterMap_order {β : Type} (f : Msg → Option β) (g : β → ℚ) (tm : Msg → ℚ) (hf : ∀ e b, f e = some b → g b = tm e) : ∀ (l : List Msg),
    l.Pairwise (fun a b => tm a ≤ tm b) → (l.filterMap f).Pairwise (fun a b => g a ≤ g b) := by
  intro l h
  rw [List.pairwise_filterMap]
  refine h.imp ?_
  intro a b hab x hx y hy
  rw [hf a x hx, hf b y hy]; exact hab

/-- Writing and reading back, named instruments included. -/
theorem reread_named (srt : List Msg → List Msg) (hsrt : IsTrackSort srt) (pm : PM) (h : Spec.WritablePM (Spec.Unnamed pm)) :
    ∃ tracks, pm.serialize srt = .ok tracks ∧
      ((∀ t ∈ tracks, ∀ e ∈ toAbs t, e.time < 1000000000) →
        ∃ pm', PM.fromFile pm.clock.res tracks pm.drum = .ok pm' ∧ Spec.GoodFile tracks ∧ ClockOk pm'.clock ∧
          (∀ k, Spec.seconds pm'.clock.scales k = Spec.seconds pm.clock.scales k) ∧
          ∃ (tk : ℚ → Nat) (q : List (Nat × Nat)) (z : Int),
            (∀ t (j : Nat), |t - Spec.seconds pm.clock.scales (tk t)| ≤ |t - Spec.seconds pm.clock.scales j|) ∧
            List.Forall₂ (Spec.SameInst pm.clock.scales tk) (pm.insts.filter (fun i => !i.notes.isEmpty)) pm'.insts ∧
            (pm'.keySigs, pm'.timeSigs, pm'.lyrics) =
              loadMeta (fun t => pm'.clock.times.getD t.toNat 0) (srt (timingList tk q pm) ++ [⟨z, .endOfTrack⟩]) ∧
            ∀ e ∈ srt (timingList tk q pm),
              pm'.clock.times.getD e.time.toNat 0 = Spec.seconds pm.clock.scales e.time.toNat) := by
  have hclock : ClockOk pm.clock := h.clock
  have htempo : Spec.Writable pm.clock := h.tempo
  have hdrum : pm.drum < 16 := h.drum
  have hinsts : ∀ i ∈ pm.insts, Spec.Playable pm.clock { i with name := "" } :=
    fun i hi => h.insts _ (List.mem_map.2 ⟨i, hi, rfl⟩)
  obtain ⟨q, hq, hq0⟩ := writable_list pm.clock.res pm.clock.scales htempo.whole
  obtain ⟨tk, htk, hnear⟩ := tick_fun pm.clock hclock
  have hst : q.Pairwise (fun a b => a.1 < b.1) := by
    have := htempo.strict
    rw [hq, List.pairwise_map] at this
    exact this
  have hz : ∃ t rest, q = (0, t) :: rest := by
    obtain ⟨c, rest, hz⟩ := hclock.2.1.zero
    rw [hq] at hz
    cases q with
    | nil => simp at hz
    | cons x q =>
      obtain ⟨a, b⟩ := x
      simp only [List.map_cons, List.cons.injEq, Prod.mk.injEq] at hz
      exact ⟨b, q, by rw [hz.1.1]⟩
  obtain ⟨z, e1, e2, e3, e4⟩ := timing_track srt hsrt.cmp pm hclock tk htk q hq hq0 hst
  obtain ⟨l, i1, i2, i3⟩ := inst_tracks_voices srt hsrt pm.clock hclock tk htk hnear pm.drum hdrum pm.insts 0 hinsts
  generalize hts : l.map (·.2.2) = ts at i2
  obtain ⟨t0, ht0⟩ : ∃ t0, t0 = srt (timingList tk q pm) ++ [(⟨z, .endOfTrack⟩ : Msg)] := ⟨_, rfl⟩
  rw [← ht0] at e2 e3 e4
  have hser : pm.serialize srt = .ok (toDelta t0 :: ts.map toDelta) := by
    unfold PM.serialize
    simp only [e1, bind, Except.bind, e2, i2, if_neg (show ¬ 16 ≤ pm.drum from by omega), List.map_cons]
  have s3 : ∀ t ∈ t0 :: ts, t ≠ [] ∧ (∀ m ∈ t, 0 ≤ m.time) ∧ t.Pairwise (fun a b => a.time ≤ b.time) := by
    intro t ht
    rcases List.mem_cons.1 ht with rfl | ht
    · exact ⟨by rw [ht0]; simp, e3.nonneg, e3.order⟩
    · rw [← hts] at ht
      obtain ⟨x, hx, rfl⟩ := List.mem_map.1 ht
      exact ⟨(i3 x hx).nonempty, (i3 x hx).nonneg, (i3 x hx).order⟩
  have s5 : ∀ k, Spec.tempoInForce pm.clock.res t0 k = Spec.scaleAt pm.clock.scales k := by
    intro k
    rw [tempoInForce_eq _ _ q k e4 hz]
    exact congrArg (fun l => Spec.scaleAt l k) hq.symm
  refine ⟨_, hser, fun hshort => ?_⟩
  have habs : (toDelta t0 :: ts.map toDelta).map toAbs = t0 :: ts := by
    rw [List.map_cons, (C55_roundtrip t0).2, List.map_map]
    congr 1
    conv_rhs => rw [← List.map_id ts]
    exact List.map_congr_left (fun t _ => (C55_roundtrip t).2)
  have hfile : Spec.GoodFile (toDelta t0 :: ts.map toDelta) := by
    have hd : ∀ t ∈ t0 :: ts, (∀ e ∈ toDelta t, 0 ≤ e.time) ∧ toDelta t ≠ [] := by
      intro t ht
      obtain ⟨g0, g1, g2⟩ := s3 t ht
      refine ⟨(C55_order t).2 g1 g2, fun h0 => g0 ?_⟩
      rw [← (C55_roundtrip t).2, h0]; rfl
    have hmem : ∀ t ∈ toDelta t0 :: ts.map toDelta, ∃ u ∈ t0 :: ts, t = toDelta u := by
      intro t ht
      rcases List.mem_cons.1 ht with rfl | ht
      · exact ⟨t0, by simp, rfl⟩
      · obtain ⟨u, hu, rfl⟩ := List.mem_map.1 ht
        exact ⟨u, by simp [hu], rfl⟩
    refine ⟨by simp, ?_, ?_, ?_, hshort⟩
    · intro h0
      obtain ⟨u, hu, he⟩ := hmem [] h0
      exact (hd u hu).2 he.symm
    · intro t ht
      obtain ⟨u, hu, rfl⟩ := hmem t ht
      exact (hd u hu).1
    · intro t ht e he hb
      simp only [List.head?_cons, Option.some.injEq] at ht
      subst ht
      have hm : e.body ∈ (toDelta t0).map (fun e => e.body) := List.mem_map_of_mem he
      rw [← toAbs_body, (C55_roundtrip t0).2] at hm
      obtain ⟨x, hx, hxe⟩ := List.mem_map.1 hm
      exact e3.tempo x hx (by rw [hxe, hb])
  obtain ⟨pm', t0', p1, p2, p3, p4, p5, p6, p7, p8, p9⟩ :=
    C56_table_covers_file pm.clock.res pm.drum hclock.1 _ hfile
  simp only [List.head?_cons, Option.some.injEq] at p2
  subst p2
  rw [(C55_roundtrip t0).2] at p6
  rw [habs] at p8
  rw [(C55_roundtrip t0).2] at p9
  have hsc : ∀ k, Spec.scaleAt pm'.clock.scales k = Spec.scaleAt pm.clock.scales k := by
    intro k; rw [p6, s5]
  have hsec : ∀ k, Spec.seconds pm'.clock.scales k = Spec.seconds pm.clock.scales k := by
    intro k; unfold Spec.seconds; simp only [hsc]
  have htab : ∀ t ∈ t0 :: ts, ∀ e ∈ t, pm'.clock.times.getD e.time.toNat 0 = Spec.seconds pm.clock.scales e.time.toNat := by
    intro t ht e he
    have : toDelta t ∈ toDelta t0 :: ts.map toDelta := by
      rcases List.mem_cons.1 ht with rfl | ht
      · simp
      · simp only [List.mem_cons, List.mem_map]; exact Or.inr ⟨t, ht, rfl⟩
    have := (p7 _ this e (by rw [(C55_roundtrip t).2]; exact he)).2
    rw [this, hsec]
  refine ⟨pm', p1, hfile, p3, hsec, tk, q, z, hnear, ?_, by rw [← ht0]; exact p9, fun e he => htab t0 (by simp) e (by rw [ht0]; simp [he])⟩
  obtain ⟨tt, htt⟩ : ∃ tt : Int → ℚ, tt = fun t => pm'.clock.times.getD t.toNat 0 := ⟨_, rfl⟩
  rw [← htt] at p8
  have hvoices : List.Forall₂ TrackVoice (t0 :: ts) (⟨0, 0, "", []⟩ :: l.map (·.2.1)) := by
    refine List.Forall₂.cons ⟨?_, by simp⟩ ?_
    · simp only [if_true, List.nil_append]
      unfold loadTrack
      apply timing_silent
      intro m hm
      rw [ht0] at hm
      rcases List.mem_append.1 hm with hm | hm
      · exact timingList_kinds tk q pm m ((hsrt.cmp.perm _).mem_iff.1 hm)
      · simp only [List.mem_singleton] at hm; subst hm; simp
    · rw [← hts, List.forall₂_map_left_iff, List.forall₂_map_right_iff, List.forall₂_same]
      exact fun x hx => (i3 x hx).voice
  rw [loadInstruments_voices pm.drum tt _ _ hvoices] at p8
  rw [← Except.ok.inj p8]
  have htk' : ∀ x ∈ l, ∀ m ∈ instList tk x.2.1.channel x.1, tt m.time = Spec.seconds pm.clock.scales m.time.toNat := by
    intro x hx m hm
    rw [htt]
    exact htab x.2.2 (List.mem_cons_of_mem _ (by rw [← hts]; exact List.mem_map.2 ⟨x, hx, rfl⟩)) m ((i3 x hx).content.ticks m hm)
  have hempty : ∀ x ∈ l, (voiceNotes tt x.2.1.acts).isEmpty = x.1.notes.isEmpty := by
    intro x hx
    have := ((i3 x hx).content.notes tt).length_eq
    rw [List.length_map] at this
    rw [Bool.eq_iff_iff, List.isEmpty_iff_length_eq_zero, List.isEmpty_iff_length_eq_zero, this]
  have hfil : (⟨0, 0, "", []⟩ :: l.map (·.2.1) : List Voice).filter (fun v => !(voiceNotes tt v.acts).isEmpty) =
      (l.filter (fun x => !x.1.notes.isEmpty)).map (·.2.1) := by
    rw [List.filter_cons_of_neg (by simp [voiceNotes]), List.filter_map]
    congr 1
    apply List.filter_congr
    intro x hx
    simp only [Function.comp, hempty x hx]
  have hfil2 : pm.insts.filter (fun i => !i.notes.isEmpty) = (l.filter (fun x => !x.1.notes.isEmpty)).map (·.1) := by
    rw [← i1, List.filter_map]; rfl
  rw [hfil, hfil2, List.map_map, List.forall₂_map_left_iff, List.forall₂_map_right_iff, List.forall₂_same]
  intro x hx
  have hxl := List.mem_of_mem_filter hx
  have W := i3 x hxl
  have hT : ∀ e ∈ x.2.2, tt e.time = Spec.seconds pm.clock.scales e.time.toNat := by
    intro e he
    rw [htt]
    exact htab x.2.2 (List.mem_cons_of_mem _ (by rw [← hts]; exact List.mem_map.2 ⟨x, hxl, rfl⟩)) e he
  have hord : x.2.2.Pairwise (fun a b => tt a.time ≤ tt b.time) := by
    refine List.Pairwise.imp_of_mem ?_ W.order
    intro a b ha hb hab
    rw [hT a ha, hT b hb]
    exact clock_seconds_mono pm.clock hclock (Int.toNat_le_toNat hab)
  refine ⟨W.program, W.drum, W.name, ?_, ?_, ?_, ?_, ?_⟩
  · refine (W.content.notes tt).trans (List.Perm.of_eq ?_)
    conv_rhs => rw [← List.map_id x.1.notes]
    apply List.map_congr_left
    intro n hn
    have hpl := playable_ticks pm.clock hclock tk hnear _ (hinsts x.1 (by rw [← i1]; exact List.mem_map.2 ⟨x, hxl, rfl⟩)) n hn
    have m1 := htk' x hxl ⟨(tk n.start : Int), .noteOn x.2.1.channel n.pitch n.velocity⟩ (by
      unfold instList; simp only [List.mem_append, List.mem_flatMap]
      exact Or.inl (Or.inl (Or.inr ⟨n, hn, by simp⟩)))
    have m2 := htk' x hxl ⟨(tk n.stop : Int), .noteOn x.2.1.channel n.pitch 0⟩ (by
      unfold instList; simp only [List.mem_append, List.mem_flatMap]
      exact Or.inl (Or.inl (Or.inr ⟨n, hn, by simp⟩)))
    simp only [Int.toNat_natCast] at m1 m2
    rw [m1, m2, ← hpl.2.1, ← hpl.2.2]
    rfl
  · refine (W.content.bends tt).trans (List.Perm.of_eq ?_)
    apply List.map_congr_left
    intro b hb
    have m1 := htk' x hxl ⟨(tk b.2 : Int), .pitchwheel x.2.1.channel b.1⟩ (by
      unfold instList; simp only [List.mem_append, List.mem_map]
      exact Or.inl (Or.inr ⟨b, hb, rfl⟩))
    simp only [Int.toNat_natCast] at m1
    rw [m1]
  · refine (W.content.controls tt).trans (List.Perm.of_eq ?_)
    apply List.map_congr_left
    intro b hb
    have m1 := htk' x hxl ⟨(tk b.2.2 : Int), .controlChange x.2.1.channel b.1 b.2.1⟩ (by
      unfold instList; simp only [List.mem_append, List.mem_map]
      exact Or.inr ⟨b, hb, rfl⟩)
    simp only [Int.toNat_natCast] at m1
    rw [m1]
  · simp only [Function.comp, Voice.inst, W.content.bendsOf tt]
    unfold Spec.bendsOf
    refine filterMap_order _ (fun b : Int × ℚ => b.2) (fun e => tt e.time) ?_ _ hord
    intro e b hb
    split at hb
    · split at hb
      · rw [← Option.some.inj hb]
      · cases hb
    · cases hb
  · simp only [Function.comp, Voice.inst, W.content.controlsOf tt]
    unfold Spec.controlsOf
    refine filterMap_order _ (fun b : Nat × Nat × ℚ => b.2.2) (fun e => tt e.time) ?_ _ hord
    intro e b hb
    split at hb
    · split at hb
      · rw [← Option.some.inj hb]
      · cases hb
    · cases hb

/-! ### C144 -/

/-- **C144, instruments survive writing and reading.** Write an object that apart from the names of its instruments meets the conditions of C96; if the file is shorter than 1000000000
ticks, reading it back with the same drum channel gives exactly the instruments that have a note, in their order, each with its own program, drum flag, name, notes, pitch bends and control
changes (the last two on their nearest ticks and in the order of time). Instruments without notes are lost, with their bends and control changes. -/
theorem C144_instruments (srt : List Msg → List Msg) (hsrt : IsTrackSort srt) (pm : PM) (h : Spec.WritablePM (Spec.Unnamed pm)) :
    ∃ tracks, pm.serialize srt = .ok tracks ∧
      ((∀ t ∈ tracks, ∀ e ∈ toAbs t, e.time < 1000000000) →
        ∃ pm', PM.fromFile pm.clock.res tracks pm.drum = .ok pm' ∧
          ∃ tk : ℚ → Nat, (∀ t (j : Nat), |t - Spec.seconds pm.clock.scales (tk t)| ≤ |t - Spec.seconds pm.clock.scales j|) ∧
            List.Forall₂ (Spec.SameInst pm.clock.scales tk) (pm.insts.filter (fun i => !i.notes.isEmpty)) pm'.insts) := by
  obtain ⟨tracks, h1, h2⟩ := reread_named srt hsrt pm h
  refine ⟨tracks, h1, fun hs => ?_⟩
  obtain ⟨pm', g1, _, _, _, tk, _, _, g4, g5, _⟩ := h2 hs
  exact ⟨pm', g1, tk, g4, g5⟩

/-- **C144, the rest of the object.** Under the same conditions the tempo map, the key signatures, the lyrics and the time signatures survive too (as in C95 and C97, which exclude named
instruments). -/
theorem C144_metadata (srt : List Msg → List Msg) (hsrt : IsTrackSort srt) (pm : PM) (h : Spec.WritablePM (Spec.Unnamed pm))
    (hk : ∀ k ∈ pm.keySigs, ∃ j, k.2 = Spec.seconds pm.clock.scales j)
    (ht : ∀ k ∈ pm.timeSigs, ∃ j, k.2.2 = Spec.seconds pm.clock.scales j)
    (hl : ∀ k ∈ pm.lyrics, ∃ j, k.2 = Spec.seconds pm.clock.scales j) :
    ∃ tracks, pm.serialize srt = .ok tracks ∧
      ((∀ t ∈ tracks, ∀ e ∈ toAbs t, e.time < 1000000000) →
        ∃ pm', PM.fromFile pm.clock.res tracks pm.drum = .ok pm' ∧ ClockOk pm'.clock ∧
          (∀ k, Spec.seconds pm'.clock.scales k = Spec.seconds pm.clock.scales k) ∧
          pm'.keySigs.Perm pm.keySigs ∧ pm'.lyrics.Perm pm.lyrics ∧
          ((∃ k ∈ pm.timeSigs, k.2.2 ≤ 0) → pm'.timeSigs.Perm pm.timeSigs) ∧
          ((∀ k ∈ pm.timeSigs, 0 < k.2.2) → pm'.timeSigs.Perm ((4, 4, 0) :: pm.timeSigs))) := by
  obtain ⟨tracks, h1, h2⟩ := reread_named srt hsrt pm h
  refine ⟨tracks, h1, fun hs => ?_⟩
  obtain ⟨pm', g1, _, g2, g3, tk, q, z, g4, _, g6, g7⟩ := h2 hs
  exact ⟨pm', g1, g2, g3, meta_back srt hsrt.cmp pm pm' h.clock hk ht hl tk q z g4 g6 g7⟩

/-- The instrument with every time moved to its tick. -/
def Spec.snapInst (scales : List (Nat × ℚ)) (tk : ℚ → Nat) (i : PInst) : PInst :=
  { i with
    notes := i.notes.map (fun n => { n with start := seconds scales (tk n.start), stop := seconds scales (tk n.stop) })
    bends := i.bends.map (fun b => (b.1, seconds scales (tk b.2)))
    controls := i.controls.map (fun b => (b.1, b.2.1, seconds scales (tk b.2.2))) }

theorem instEvents_named (c : Clock) (tk : ℚ → Nat) (htk : ∀ t, c.timeToTick t = .ok (tk t : Int)) (ch : Nat) (i : PInst) :
    instEvents c ch i = .ok ((if i.name ≠ "" then [⟨0, .trackName i.name⟩] else []) ++ instList tk ch i) := by
  unfold instEvents
  rw [mapM_map _ (fun n : PNote => [(⟨(tk n.start : Int), .noteOn ch n.pitch n.velocity⟩ : Msg),
      ⟨(tk n.stop : Int), .noteOn ch n.pitch 0⟩]) i.notes (fun a _ => by rw [htk, htk]; rfl),
    mapM_map _ (fun b : Int × ℚ => (⟨(tk b.2 : Int), .pitchwheel ch b.1⟩ : Msg)) i.bends
      (fun a _ => by rw [htk]; rfl),
    mapM_map _ (fun b : Nat × Nat × ℚ => (⟨(tk b.2.2 : Int), .controlChange ch b.1 b.2.1⟩ : Msg)) i.controls
      (fun a _ => by rw [htk]; rfl)]
  simp only [bind, Except.bind, instList, List.append_assoc]
  rw [List.flatMap_def]

/-- **C144, times between ticks.** What is written for an object is what is written for the object with every note, bend and control change moved to the ticks `time_to_tick` gives: with
`C144_instruments` notes that are not on the grid come back on their nearest ticks, if the moved notes are playable. -/
theorem C144_off_grid (srt : List Msg → List Msg) (pm : PM) (h : ClockOk pm.clock) (tk : ℚ → Nat) (htk : ∀ t, pm.clock.timeToTick t = .ok (tk t : Int)) :
    pm.serialize srt = { pm with insts := pm.insts.map (Spec.snapInst pm.clock.scales tk) }.serialize srt := by
  have hnear : ∀ t (j : Nat), |t - Spec.seconds pm.clock.scales (tk t)| ≤ |t - Spec.seconds pm.clock.scales j| := by
    intro t
    obtain ⟨k, h1, h2⟩ := C57_nearest pm.clock h t
    rw [htk t] at h1
    have : tk t = k := by exact_mod_cast Except.ok.inj h1
    rw [this]; exact h2
  have hex : ∀ t, tk (Spec.seconds pm.clock.scales (tk t)) = tk t := fun t => tick_exact pm.clock h tk hnear _
  have hinst : ∀ ch i, instEvents pm.clock ch (Spec.snapInst pm.clock.scales tk i) = instEvents pm.clock ch i := by
    intro ch i
    rw [instEvents_named _ tk htk, instEvents_named _ tk htk]
    unfold instList Spec.snapInst
    simp only [List.flatMap_map, List.map_map, Function.comp_def, hex]
  have htr : ∀ (is : List PInst) (n : Nat), instTracks srt pm.clock pm.drum n (is.map (Spec.snapInst pm.clock.scales tk)) = instTracks srt pm.clock pm.drum n is := by
    intro is
    induction is with
    | nil => intro n; rfl
    | cons i is ih =>
      intro n
      have h1 : instTrack srt pm.clock pm.drum n (Spec.snapInst pm.clock.scales tk i) = instTrack srt pm.clock pm.drum n i := by
        unfold instTrack
        simp only [hinst]
        rfl
      simp only [List.map_cons, instTracks, h1, ih]
  unfold PM.serialize
  simp only [htr]
  rfl

/-- A concrete object meeting the hypotheses: two named instruments and a silent one, a tempo change, a bend between two ticks. -/
def exNamed : PM :=
  { clock := ⟨2, [(0, 1/4), (4, 1/2)], [0, 1/4, 1/2, 3/4, 1]⟩
    drum := 9, timeSigs := [(3, 4, 0)], keySigs := [(5, 1/2)], lyrics := []
    insts := [⟨3, false, "Piano", [⟨64, 60, 0, 1/2⟩, ⟨70, 64, 0, 3/4⟩, ⟨50, 62, 1, 2⟩], [(100, 1/3)], []⟩,
              ⟨7, false, "Silent", [], [], [(1, 2, 0)]⟩,
              ⟨0, true, "Kit", [⟨90, 35, 1/4, 1⟩], [], [(64, 127, 0)]⟩] }

example : Spec.WritablePM (Spec.Unnamed exNamed) where
  clock := by
    refine ⟨by decide, ⟨⟨1/4, [(4, 1/2)], rfl⟩, by decide, by decide +kernel⟩, 4, by decide, by decide +kernel⟩
  tempo := by
    refine ⟨?_, by decide⟩
    intro p hp
    simp only [Spec.Unnamed, exNamed, List.mem_cons, List.not_mem_nil, or_false] at hp
    rcases hp with rfl | rfl
    · exact ⟨500000, by decide, by decide +kernel⟩
    · exact ⟨1000000, by decide, by decide +kernel⟩
  drum := by decide
  insts := by
    intro i hi
    simp only [Spec.Unnamed, exNamed, List.map_cons, List.map_nil, List.mem_cons, List.not_mem_nil, or_false] at hi
    rcases hi with rfl | rfl | rfl
    · refine ⟨⟨by decide, by decide, by decide⟩, rfl, by decide, ?_, by decide +kernel, by decide +kernel⟩
      intro n hn
      simp only [List.mem_cons, List.not_mem_nil, or_false] at hn
      rcases hn with rfl | rfl | rfl
      · exact ⟨0, 2, by decide, by decide +kernel, by decide +kernel⟩
      · exact ⟨0, 3, by decide, by decide +kernel, by decide +kernel⟩
      · exact ⟨4, 6, by decide, by decide +kernel, by decide +kernel⟩
    · exact ⟨⟨by decide, by decide, by decide⟩, rfl, by decide, by simp, by simp, by simp⟩
    · refine ⟨⟨by decide, by decide, by decide⟩, rfl, by decide, ?_, by decide +kernel, by decide +kernel⟩
      intro n hn
      simp only [List.mem_cons, List.not_mem_nil, or_false] at hn
      rcases hn with rfl
      exact ⟨1, 4, by decide, by decide +kernel, by decide +kernel⟩

/-- The whole run on it, with insertion sort. -/
example : (exNamed.serialize (insSort eventLt)).bind (fun t => (PM.fromFile 2 t 9).map (·.insts)) =
    .ok [⟨3, false, "Piano", [⟨64, 60, 0, 1/2⟩, ⟨70, 64, 0, 3/4⟩, ⟨50, 62, 1, 2⟩], [(100, 1/4)], []⟩,
         ⟨0, true, "Kit", [⟨90, 35, 1/4, 1⟩], [], [(64, 127, 0)]⟩] := by
  decide +kernel

end NGC
