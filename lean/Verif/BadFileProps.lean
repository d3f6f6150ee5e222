import Verif.ReaderProps4

/-!
# C165: which files are refused, and how

`CustomPrettyMIDI.from_file` (custom_pretty_midi.py 74-126) and `MidiReader` (midi_reader.py 97-113,
230-317, 448-457) on files that break a rule.
-/

namespace NGC

/-- The tempo loop with nonzero tempos never fails. -/
theorem tempoFold_ok (res : Nat) (hr : 0 < res) : ∀ (t : List Msg) (s : List (Nat × ℚ)), s ≠ [] →
    (∀ e ∈ t, e.body ≠ .setTempo 0) → ∃ s', t.foldlM (tempoStep res) s = .ok s' := by
  intro t
  induction t with
  | nil => intro s _ _; exact ⟨s, rfl⟩
  | cons e t ih =>
    intro s hs h
    have : ∃ s1, tempoStep res s e = .ok s1 ∧ s1 ≠ [] := by
      unfold tempoStep
      split
      · rename_i tempo hb
        have ht : tempo ≠ 0 := fun h0 => h e (by simp) (by rw [hb, h0])
        unfold tickScale
        rw [if_neg (by omega)]
        simp only [bind, Except.bind]
        split
        · exact ⟨_, rfl, by simp⟩
        · split
          · rename_i hn
            exact absurd (List.getLast?_eq_none_iff.1 hn) hs
          · split
            · exact ⟨_, rfl, by simp⟩
            · exact ⟨_, rfl, hs⟩
      · exact ⟨_, rfl, hs⟩
    obtain ⟨s1, h1, h2⟩ := this
    rw [List.foldlM_cons]
    simp only [h1, bind, Except.bind]
    exact ih s1 h2 (fun x hx => h x (by simp [hx]))

theorem tempoFold_zero (res : Nat) (hr : 0 < res) : ∀ (t : List Msg) (s : List (Nat × ℚ)), s ≠ [] →
    (∃ e ∈ t, e.body = .setTempo 0) → t.foldlM (tempoStep res) s = .error .zeroDiv := by
  intro t
  induction t with
  | nil => rintro s _ ⟨e, he, _⟩; simp at he
  | cons e t ih =>
    intro s hs h
    rw [List.foldlM_cons]
    by_cases hb : e.body = .setTempo 0
    · have : tempoStep res s e = .error .zeroDiv := by
        unfold tempoStep
        rw [hb]
        simp [tickScale, bind, Except.bind]
      simp only [this, bind, Except.bind]
    · have hrest : ∃ x ∈ t, x.body = .setTempo 0 := by
        obtain ⟨x, hx, hx0⟩ := h
        rcases List.mem_cons.1 hx with rfl | hx
        · exact absurd hx0 hb
        · exact ⟨x, hx, hx0⟩
      have : ∃ s1, tempoStep res s e = .ok s1 ∧ s1 ≠ [] := by
        unfold tempoStep
        split
        · rename_i tempo hb'
          have ht : tempo ≠ 0 := fun h0 => hb (by rw [hb', h0])
          unfold tickScale
          rw [if_neg (by omega)]
          simp only [bind, Except.bind]
          split
          · exact ⟨_, rfl, by simp⟩
          · split
            · rename_i hn
              exact absurd (List.getLast?_eq_none_iff.1 hn) hs
            · split
              · exact ⟨_, rfl, by simp⟩
              · exact ⟨_, rfl, hs⟩
        · exact ⟨_, rfl, hs⟩
      obtain ⟨s1, h1, h2⟩ := this
      simp only [h1, bind, Except.bind]
      exact ih s1 h2 hrest

theorem toAbs_zero_tempo (t : List Msg) : (∃ e ∈ toAbs t, e.body = .setTempo 0) ↔ ∃ e ∈ t, e.body = .setTempo 0 := by
  have h := toAbs_body t
  have key : ∀ (l : List Msg), (∃ e ∈ l, e.body = .setTempo 0) ↔ Body.setTempo 0 ∈ l.map (fun e => e.body) := by
    intro l; simp
  rw [key, key, h]

theorem toAbsGo_le_sum : ∀ (t : List Msg) (k : Int), (∀ e ∈ t, 0 ≤ e.time) →
    (∀ e ∈ toAbsGo k t, e.time ≤ k + (t.map (fun e => e.time)).sum) ∧
    (t ≠ [] → ∃ e ∈ toAbsGo k t, e.time = k + (t.map (fun e => e.time)).sum) := by
  intro t
  induction t with
  | nil => intro k _; simp [toAbsGo]
  | cons a t ih =>
    intro k h
    obtain ⟨h1, h2⟩ := ih (a.time + k) (fun x hx => h x (by simp [hx]))
    have hs : 0 ≤ (t.map (fun e => e.time)).sum :=
      List.sum_nonneg (by
        intro x hx
        obtain ⟨e, he, rfl⟩ := List.mem_map.1 hx
        exact h e (by simp [he]))
    simp only [toAbsGo, List.map_cons, List.sum_cons]
    refine ⟨?_, fun _ => ?_⟩
    · intro e he
      rcases List.mem_cons.1 he with rfl | he
      · simp only; omega
      · have := h1 e he; omega
    · by_cases ht : t = []
      · subst ht
        exact ⟨_, List.mem_cons_self, by simp [Int.add_comm]⟩
      · obtain ⟨e, he, hee⟩ := h2 ht
        exact ⟨e, List.mem_cons_of_mem _ he, by rw [hee]; omega⟩

/-- **C165.** The whole decision for files with non-negative deltas, in the order of the checks. A file without
tracks raises IndexError; then a resolution of zero, or a tempo of zero in the first track, raises
ZeroDivisionError; then an empty track raises ValueError, and so does a track whose deltas add up to
1000000000 or more. Any other file loads. -/
theorem C165_load_decision (res drum : Nat) (tracks : List (List Msg))
    (hn : ∀ t ∈ tracks, ∀ e ∈ t, 0 ≤ e.time) :
    (tracks = [] → PM.fromFile res tracks drum = .error .index) ∧
    (∀ t0, tracks.head? = some t0 →
      (res = 0 ∨ (∃ e ∈ t0, e.body = .setTempo 0) → PM.fromFile res tracks drum = .error .zeroDiv) ∧
      (¬ (res = 0 ∨ ∃ e ∈ t0, e.body = .setTempo 0) →
        ([] ∈ tracks ∨ (∃ t ∈ tracks, 1000000000 ≤ (t.map (fun e => e.time)).sum) →
          PM.fromFile res tracks drum = .error .value) ∧
        (¬ ([] ∈ tracks ∨ ∃ t ∈ tracks, 1000000000 ≤ (t.map (fun e => e.time)).sum) →
          ∃ pm, PM.fromFile res tracks drum = .ok pm))) := by
  refine ⟨by rintro rfl; rfl, fun t0 h0 => ?_⟩
  obtain ⟨rest, rfl⟩ : ∃ rest, tracks = t0 :: rest := by
    cases tracks with
    | nil => simp at h0
    | cons a b => simp at h0; exact ⟨b, by rw [h0]⟩
  refine ⟨fun h => ?_, fun h => ⟨fun h' => ?_, fun h' => ?_⟩⟩
  · have : loadTempo res (toAbs t0) = .error .zeroDiv := by
      unfold loadTempo
      by_cases hr : res = 0
      · rw [if_pos hr]
      · rw [if_neg hr]
        exact tempoFold_zero res (by omega) _ _ (by simp) ((toAbs_zero_tempo t0).2 (h.resolve_left hr))
    unfold PM.fromFile
    simp only [List.map_cons, this, bind, Except.bind]
  · rw [not_or] at h
    have hr : 0 < res := by omega
    obtain ⟨sc, hsc⟩ := tempoFold_ok res hr (toAbs t0) [(0, 60 / (120 * (res : ℚ)))] (by simp)
      (fun e he hb => h.2 ((toAbs_zero_tempo t0).1 ⟨e, he, hb⟩))
    have hlt : loadTempo res (toAbs t0) = .ok sc := by
      unfold loadTempo; rw [if_neg h.1]; exact hsc
    unfold PM.fromFile
    by_cases he : [] ∈ t0 :: rest
    · have hm : maxTick ((t0 :: rest).map toAbs) = .error .value := by
        unfold maxTick
        have : ([] : List Msg) ∈ (t0 :: rest).map toAbs := List.mem_map.2 ⟨[], he, rfl⟩
        rw [if_pos (Or.inr this)]
      simp only [List.map_cons] at hm ⊢
      simp only [hlt, hm, bind, Except.bind]
    · obtain ⟨t, ht, hbig⟩ := h'.resolve_left he
      have hm : ∃ m, maxTick ((t0 :: rest).map toAbs) = .ok (m + 1) ∧ 1000000000 ≤ m := by
        unfold maxTick
        rw [if_neg]
        · refine ⟨_, rfl, ?_⟩
          obtain ⟨e, h1, h2⟩ := (toAbsGo_le_sum t 0 (hn t ht)).2 (fun h0 => he (h0 ▸ ht))
          have := (foldl_max_int ((((t0 :: rest).map toAbs).flatten).map (fun e => e.time)) 0).2.1 e.time
            (List.mem_map.2 ⟨e, List.mem_flatten.2 ⟨toAbs t, List.mem_map.2 ⟨t, ht, rfl⟩, h1⟩, rfl⟩)
          omega
        · rintro (h0 | h0)
          · simp at h0
          · obtain ⟨x, hx, hxe⟩ := List.mem_map.1 h0
            apply he
            have : x.map (fun e => e.body) = [] := by rw [← toAbs_body, hxe]; rfl
            rw [List.map_eq_nil_iff] at this
            rw [← this]; exact hx
      obtain ⟨m, hm, hm2⟩ := hm
      simp only [List.map_cons] at hm ⊢
      simp only [hlt, hm, bind, Except.bind]
      rw [if_pos (by omega)]
  · rw [not_or] at h h'
    obtain ⟨pm, _, h1, _⟩ := C56_table_covers_file res drum (by omega) (t0 :: rest)
      { any := by simp
        full := h'.1
        nonneg := hn
        tempo := by
          intro t ht e he hb
          simp at ht; subst ht
          exact h.2 ⟨e, he, hb⟩
        short := by
          intro t ht e he
          have h1 := (toAbsGo_le_sum t 0 (hn t ht)).1 e he
          have h2 : ¬ 1000000000 ≤ (t.map (fun e => e.time)).sum := fun hc => h'.2 ⟨t, ht, hc⟩
          omega }
    exact ⟨pm, h1⟩

/-- Each of the cases occurs. -/
example : PM.fromFile 480 [] 9 = .error .index ∧ PM.fromFile 0 [[⟨0, .endOfTrack⟩]] 9 = .error .zeroDiv ∧
    PM.fromFile 480 [[⟨3, .setTempo 0⟩]] 9 = .error .zeroDiv ∧
    PM.fromFile 480 [[⟨0, .endOfTrack⟩], []] 9 = .error .value ∧
    PM.fromFile 480 [[⟨0, .endOfTrack⟩], [⟨600000000, .noteOn 0 60 64⟩, ⟨400000000, .endOfTrack⟩]] 9 = .error .value ∧
    (∃ pm, PM.fromFile 480 [[⟨0, .endOfTrack⟩], [⟨3, .noteOn 0 60 64⟩, ⟨4, .endOfTrack⟩]] 9 = .ok pm) := by
  refine ⟨(C165_load_decision 480 9 [] (by simp)).1 rfl,
    ((C165_load_decision 0 9 _ (by simp)).2 _ rfl).1 (Or.inl rfl),
    ((C165_load_decision 480 9 _ (by simp)).2 _ rfl).1 (Or.inr ⟨⟨3, .setTempo 0⟩, by simp, rfl⟩),
    (((C165_load_decision 480 9 _ (by simp)).2 _ rfl).2 (by simp)).1 (Or.inl (by simp)),
    (((C165_load_decision 480 9 _ (by simp)).2 _ rfl).2 (by simp)).1 (Or.inr (by simp)),
    (((C165_load_decision 480 9 _ (by simp)).2 _ rfl).2 (by simp)).2 (by simp)⟩

theorem readTimes_bad : ∀ (ps : List (Int × Int × ℚ)) (l : List TimeSig), l ≠ [] → TimesOk l →
    (∃ p ∈ ps, ¬ (0 < p.1 ∧ denomOk p.2.1 = true)) → ps.foldlM readTime l = .error .runtime := by
  intro ps
  induction ps with
  | nil => rintro l _ _ ⟨p, hp, _⟩; simp at hp
  | cons p ps ih =>
    intro l h1 h2 h3
    rw [List.foldlM_cons]
    by_cases hp : 0 < p.1 ∧ denomOk p.2.1 = true
    · obtain ⟨l', e, g1, g2⟩ := readTime_ok l h1 h2 p hp
      simp only [e, bind, Except.bind]
      refine ih l' g1 g2 ?_
      obtain ⟨q, hq, hq2⟩ := h3
      rcases List.mem_cons.1 hq with rfl | hq
      · exact absurd hp hq2
      · exact ⟨q, hq, hq2⟩
    · have : readTime l p = .error .runtime := by
        have hm : TimeSig.mk? p.2.2 p.1 p.2.1 = .error .value := by
          unfold TimeSig.mk?
          split
          · rfl
          · rename_i h
            rw [if_pos (fun hc => hp ⟨by omega, hc⟩)]
        unfold readTime
        simp only [hm, bind, Except.bind]
      simp only [this, bind, Except.bind]

/-- **C165.** A time signature whose numerator is not positive, or whose denominator is not a power of two,
makes `read` raise MidiReaderError, for every object with a tempo map and key numbers below
24 (another key number raises ValueError before, `C62_bad_key_raises`). -/
theorem C165_bad_meter (pm : PM) (hk : ∀ p ∈ pm.keySigs, p.1 < 24) (hc : ClockOk pm.clock)
    (ht : ∀ p ∈ pm.clock.scales, p.1 < 1000000000)
    (h : ∃ p ∈ pm.timeSigs, p.1 ≤ 0 ∨ ¬ ∃ k : Nat, p.2.1 = 2 ^ k) : readSong pm = .error .runtime := by
  obtain ⟨keys, hk, _⟩ := readKeys_ok pm.keySigs [⟨0, 0, .major, 0⟩] (by simp) hk
  obtain ⟨c', htc, _⟩ := tempoChangesGo_eq pm.clock.scales pm.clock hc
    (fun p hp => ⟨ht p hp, hc.2.1.pos p hp⟩)
  have hr := hc.1
  have hrq : (0 : ℚ) < pm.clock.res := by exact_mod_cast hr
  obtain ⟨tempos, htm, _⟩ := readTempos_ok pm.clock.res hr
    (pm.clock.scales.map (fun p => (Spec.seconds pm.clock.scales p.1, 60 / (p.2 * (pm.clock.res : ℚ)))))
    [⟨0, 120, 480, 0⟩] (by simp) (by
      intro p hp
      obtain ⟨q, hq, rfl⟩ := List.mem_map.1 hp
      exact div_pos (by norm_num) (mul_pos (hc.2.1.pos q hq) hrq))
  have hti := readTimes_bad pm.timeSigs [⟨0, 4, 4, 0⟩] (by simp)
    (by intro s hs; rw [List.mem_singleton] at hs; rw [hs]; exact ⟨by norm_num, by decide⟩) (by
      obtain ⟨p, hp, hb⟩ := h
      refine ⟨p, hp, fun hg => ?_⟩
      rcases hb with hb | hb
      · omega
      · exact hb ((denomOk_iff _).1 hg.2))
  have htc' : pm.clock.tempoChanges = .ok (pm.clock.scales.map (fun p => (Spec.seconds pm.clock.scales p.1, 60 / (p.2 * (pm.clock.res : ℚ)))), c') := htc
  unfold readSong
  simp only [bind, Except.bind, htc', Song.new]
  rw [hk]
  simp only
  rw [htm]
  simp only
  rw [hti]

/-- A 4/3 bar, and a bar of no beats, on a new clock. -/
example : ∃ c, Clock.fresh 480 120 = .ok c ∧ readSong ⟨c, 9, [(4, 4, 0), (4, 3, 1)], [], [], []⟩ = .error .runtime ∧
    readSong ⟨c, 9, [(0, 4, 0)], [(5, 0)], [], []⟩ = .error .runtime := by
  obtain ⟨c, h1, h2, h3⟩ := C56_fresh 480 120 (by norm_num) (by norm_num)
  have ht : ∀ p ∈ c.scales, p.1 < 1000000000 := by rw [h3]; simp
  refine ⟨c, h1, C165_bad_meter _ (by simp) h2 ht ⟨(4, 3, 1), by simp, Or.inr ?_⟩,
    C165_bad_meter _ (by simp) h2 ht ⟨(0, 4, 0), by simp, Or.inl (by norm_num)⟩⟩
  rw [← denomOk_iff]; decide

/-- **C165.** `from_file` of the reader never raises anything but ValueError: it succeeds, with the song `read`
gives, exactly when `read` does. -/
theorem C165_from_file_value_error (res : Nat) (tracks : List (List Msg)) :
    (∀ s, fromFile res tracks = .ok s ↔ readFile res tracks = .ok s) ∧
    (∀ e, fromFile res tracks = .error e ↔ e = .value ∧ ∃ e', readFile res tracks = .error e') := by
  unfold fromFile
  cases h : readFile res tracks with
  | ok s => simp
  | error e => simp [eq_comm]

/-- **C32.** What `[]` creates for an index it does not know, in a song of any history: a track without events that is
named "Instrument 0" whatever the index, has the index as its instrument number, is no drum track and takes the
resolution of the song; every other index finds what it found before. -/
theorem C32_default_track (s : Song) (hi : s.tracks.Inv) (i : Int) (h : 0 ≤ i ∧ i < 128) (hn : s.tracks.toIdx.lookup i = none) :
    ∃ t tr, s.tracks.getItem (s.defaultTrack i) i = .ok (t, tr) ∧ t.notes = [] ∧ t.bends = [] ∧ t.ccs = [] ∧
      t.instr.name = "Instrument 0" ∧ t.instr.num = i ∧ t.instr.isDrum = false ∧ t.resolution = s.resolution ∧
      tr.toIdx.lookup i = some (s.tracks.seqs.len : Int) ∧
      (∀ x, x ≠ i → tr.toIdx.lookup x = s.tracks.toIdx.lookup x) := by
  rcases Tracks.getItem_ok s.tracks hi (s.defaultTrack i) i h with ⟨j, hj, _⟩ | ⟨_, t', _, h2, h3, _⟩
  · rw [hn] at hj; cases hj
  · refine ⟨s.defaultTrack i, t', h2, ?_, rfl, rfl, rfl, rfl, rfl, rfl, ?_, ?_⟩
    · unfold Song.defaultTrack MSeq.mk' MSeq.notes; rfl
    · rw [h3, if_pos rfl]
    · intro x hx; rw [h3, if_neg hx]

example : ∃ t tr, (Song.new 480).tracks.getItem ((Song.new 480).defaultTrack 7) 7 = .ok (t, tr) ∧
    t.instr.name = "Instrument 0" ∧ t.instr.num = 7 := by
  obtain ⟨t, tr, h1, _, _, _, h2, h3, _⟩ := C32_default_track (Song.new 480) Tracks.empty_inv 7 (by norm_num) rfl
  exact ⟨t, tr, h1, h2, h3⟩

end NGC
