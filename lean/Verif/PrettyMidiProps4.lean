import Verif.PrettyMidiProps3

/-! Loading never raises and every tick is in the table (C56 at file level); writing then reading keeps
the tempo map (C95) and the notes (C96). -/

namespace NGC

/-! ### Loading never raises -/

theorem mem_dset {K V : Type} [DecidableEq K] {d : List (K × V)} {k : K} {v : V} {p : K × V}
    (h : p ∈ dset d k v) : p = (k, v) ∨ p ∈ d := by
  induction d with
  | nil => simpa [dset] using h
  | cons q d ih =>
    obtain ⟨a, b⟩ := q
    simp only [dset] at h
    split at h
    · rcases List.mem_cons.1 h with rfl | h
      · left; rfl
      · right; simp [h]
    · rcases List.mem_cons.1 h with rfl | h
      · right; simp
      · rcases ih h with h | h
        · left; exact h
        · right; simp [h]

theorem pyInt_intCast (z : Int) : pyInt (z : ℚ) = z := by
  unfold pyInt; split <;> simp

theorem filter_ne_nil_of (opens : List ((Nat × Nat) × List (Int × Nat))) (f) (h : ∀ p ∈ opens, p.2 ≠ []) :
    ∀ p ∈ opens.filter f, p.2 ≠ [] := fun p hp => h p (List.mem_of_mem_filter hp)

theorem noteOff_nonempty (st : TrackSt) (t : Int) (ch n : Nat) (h : ∀ p ∈ st.opens, p.2 ≠ []) :
    ∀ p ∈ (noteOff st t ch n).1.opens, p.2 ≠ [] := by
  unfold noteOff
  split
  · exact h
  · rename_i notes hn
    dsimp only
    split
    · rename_i hk
      intro p hp
      rcases mem_dset hp with rfl | hp
      · exact hk
      · exact h p hp
    · exact filter_ne_nil_of _ _ h

theorem loadGo_ok : ∀ (es : List Msg) (st : TrackSt), (∀ p ∈ st.opens, p.2 ≠ []) →
    ∃ acts, loadGo st es = .ok acts := by
  intro es
  induction es with
  | nil => intro st _; exact ⟨[], rfl⟩
  | cons e es ih =>
    intro st h
    have step : ∃ st' as, loadStep st e = .ok (st', as) ∧ ∀ p ∈ st'.opens, p.2 ≠ [] := by
      obtain ⟨t, body⟩ := e
      cases body with
      | setTempo _ => exact ⟨_, _, rfl, h⟩
      | timeSig _ _ => exact ⟨_, _, rfl, h⟩
      | keySig _ => exact ⟨_, _, rfl, h⟩
      | lyrics _ => exact ⟨_, _, rfl, h⟩
      | trackName _ => exact ⟨_, _, rfl, h⟩
      | other _ => exact ⟨_, _, rfl, h⟩
      | pitchwheel _ _ => exact ⟨_, _, rfl, h⟩
      | controlChange _ _ _ => exact ⟨_, _, rfl, h⟩
      | programChange _ _ => exact ⟨_, _, rfl, h⟩
      | noteOff ch n v => exact ⟨_, _, rfl, noteOff_nonempty st t ch n h⟩
      | endOfTrack =>
        exact ⟨_, _, finishNotes_eq st t true h, filter_ne_nil_of _ _ h⟩
      | noteOn ch n v =>
        by_cases hv : 0 < v
        · refine ⟨⟨dset (st.opens.filter (fun p => !finishes t false p)) (ch, n)
            ((dget (st.opens.filter (fun p => !finishes t false p)) (ch, n)).getD [] ++ [(t, v)]), st.prog⟩,
            st.opens.filterMap (finishOne st t false), ?_, ?_⟩
          · unfold loadStep
            simp only [hv, if_true, finishNotes_eq st t false h, bind, Except.bind]
          · intro p hp
            rcases mem_dset hp with rfl | hp
            · simp
            · exact filter_ne_nil_of _ _ h p hp
        · refine ⟨(noteOff st t ch n).1, (noteOff st t ch n).2, ?_, noteOff_nonempty st t ch n h⟩
          simp only [loadStep, hv, if_false]
    obtain ⟨st', as, h1, h2⟩ := step
    obtain ⟨acts, g⟩ := ih st' h2
    exact ⟨as ++ acts, by simp only [loadGo, h1, bind, Except.bind, g]⟩

theorem loadTracks_ok (drum : Nat) (tt : Int → ℚ) : ∀ (ts : List (List Msg)) (k : Nat) (st : LoadSt),
    ∃ st', loadTracks drum tt k st ts = .ok st' := by
  intro ts
  induction ts with
  | nil => intro k st; exact ⟨st, rfl⟩
  | cons t ts ih =>
    intro k st
    obtain ⟨acts, h⟩ := loadGo_ok t ⟨[], []⟩ (by simp)
    obtain ⟨st', h'⟩ := ih (k + 1) (acts.foldl (fun st a => st.act drum k tt a) st)
    exact ⟨st', by simp only [loadTracks, loadTrack, h, bind, Except.bind, h']⟩

theorem foldl_max_int (l : List Int) (x : Int) : x ≤ l.foldl max x ∧ (∀ y ∈ l, y ≤ l.foldl max x) ∧
    (l.foldl max x = x ∨ l.foldl max x ∈ l) := by
  induction l generalizing x with
  | nil => simp
  | cons a l ih =>
    rw [List.foldl_cons]
    obtain ⟨h1, h2, h3⟩ := ih (max x a)
    refine ⟨by omega, ?_, ?_⟩
    · intro y hy
      rcases List.mem_cons.1 hy with rfl | hy
      · omega
      · exact h2 y hy
    · rcases h3 with h3 | h3
      · rw [h3]
        rcases le_total x a with h | h
        · right; simp [max_eq_right h]
        · left; exact max_eq_left h
      · right; simp [h3]

namespace Spec

/-- A file as `mido` delivers it: there are tracks, none is empty, deltas are non-negative, track 0 has
no zero tempo, and every event lies before tick 1000000000. -/
structure GoodFile (tracks : List (List Msg)) : Prop where
  any : tracks ≠ []
  full : [] ∉ tracks
  nonneg : ∀ t ∈ tracks, ∀ e ∈ t, 0 ≤ e.time
  tempo : ∀ t, tracks.head? = some t → ∀ e ∈ t, e.body ≠ .setTempo 0
  short : ∀ t ∈ tracks, ∀ e ∈ toAbs t, e.time < 1000000000

end Spec

theorem toAbsGo_body : ∀ (t : List Msg) (k : Int), (toAbsGo k t).map (fun e => e.body) = t.map (fun e => e.body) := by
  intro t
  induction t with
  | nil => intro k; rfl
  | cons e t ih => intro k; simp only [toAbsGo, List.map_cons, ih]

theorem toAbs_body (t : List Msg) : (toAbs t).map (fun e => e.body) = t.map (fun e => e.body) := toAbsGo_body t 0

theorem toAbs_good (t : List Msg) (h : ∀ e ∈ t, 0 ≤ e.time) (ht : ∀ e ∈ t, e.body ≠ .setTempo 0) :
    Spec.GoodTrack (toAbs t) := by
  have := (C55_order t).1 h
  refine ⟨this.2, this.1, ?_⟩
  intro e he hb
  have hm : e.body ∈ (toAbs t).map (fun e => e.body) := List.mem_map_of_mem he
  rw [toAbs_body] at hm
  obtain ⟨x, hx, hxe⟩ := List.mem_map.1 hm
  exact ht x hx (by rw [hxe, hb])

/-- **C56/C60, at file level.** Every well-formed file loads without error, at any positive resolution:
the tempo in force at every tick is that of the tempo events of track 0, the tick table is correct, and
every event of the file has its tick in the table (so every look-up made while loading returns the
exact time of the tick). -/
theorem C56_table_covers_file (res drum : Nat) (hr : 0 < res) (tracks : List (List Msg))
    (h : Spec.GoodFile tracks) :
    ∃ pm t0, PM.fromFile res tracks drum = .ok pm ∧ tracks.head? = some t0 ∧ ClockOk pm.clock ∧
      pm.clock.res = res ∧ pm.drum = drum ∧
      (∀ k, Spec.scaleAt pm.clock.scales k = Spec.tempoInForce res (toAbs t0) k) ∧
      (∀ t ∈ tracks, ∀ e ∈ toAbs t, e.time.toNat < pm.clock.times.length ∧
        pm.clock.times.getD e.time.toNat 0 = Spec.seconds pm.clock.scales e.time.toNat) ∧
      loadInstruments drum (fun t => pm.clock.times.getD t.toNat 0) (tracks.map toAbs) = .ok pm.insts ∧
      (pm.keySigs, pm.timeSigs, pm.lyrics) = loadMeta (fun t => pm.clock.times.getD t.toNat 0) (toAbs t0) := by
  obtain ⟨t0, rest, rfl⟩ : ∃ t0 rest, tracks = t0 :: rest := by
    cases tracks with
    | nil => exact absurd rfl h.any
    | cons a b => exact ⟨a, b, rfl⟩
  have hgood := toAbs_good t0 (h.nonneg t0 (by simp)) (h.tempo t0 rfl)
  obtain ⟨scales, s1, s2, s3, s4⟩ := C60_tempo_map res hr (toAbs t0) hgood
  let M : Int := (((t0 :: rest).map toAbs).flatten.map (fun e => e.time)).foldl max 0
  have hM := foldl_max_int (((t0 :: rest).map toAbs).flatten.map (fun e => e.time)) 0
  have hmax : maxTick ((t0 :: rest).map toAbs) = .ok (M + 1) := by
    unfold maxTick
    rw [if_neg]
    rintro (h0 | h0)
    · simp at h0
    · obtain ⟨t, ht, hte⟩ := List.mem_map.1 h0
      apply h.full
      have : t.map (fun e => e.body) = [] := by rw [← toAbs_body, hte]; rfl
      rw [List.map_eq_nil_iff] at this
      rw [← this]; exact ht
  have hMlt : M < 1000000000 := by
    rcases hM.2.2 with h0 | h0
    · show List.foldl max 0 _ < _
      rw [h0]; norm_num
    · obtain ⟨e, he, hee⟩ := List.mem_map.1 h0
      obtain ⟨l, hl, hel⟩ := List.mem_flatten.1 he
      obtain ⟨t, ht, rfl⟩ := List.mem_map.1 hl
      have := h.short t ht e hel
      show List.foldl max 0 _ < _
      rw [← hee]; exact this
  obtain ⟨scales', c1, c2, c3⟩ := C60_loaded_clock res hr (toAbs t0) hgood (M + 1).toNat
  obtain rfl : scales' = scales := by rw [s1] at c1; exact (Except.ok.inj c1).symm
  obtain ⟨st, l1⟩ := loadTracks_ok drum (fun t => (tickTable scales' (M + 1).toNat).getD t.toNat 0)
    ((t0 :: rest).map toAbs) 0 ⟨[], [], [], []⟩
  let insts := st.insts.map (fun p => p.2.freeze st.heap)
  have hinsts : loadInstruments drum (fun t => (tickTable scales' (M + 1).toNat).getD t.toNat 0)
      ((t0 :: rest).map toAbs) = .ok insts := by
    unfold loadInstruments
    rw [l1]; rfl
  let tt : Int → ℚ := fun t => (tickTable scales' (M + 1).toNat).getD t.toNat 0
  refine ⟨{ clock := { res := res, scales := scales', times := tickTable scales' (M + 1).toNat }
            drum := drum, timeSigs := (loadMeta tt (toAbs t0)).2.1, keySigs := (loadMeta tt (toAbs t0)).1,
            lyrics := (loadMeta tt (toAbs t0)).2.2, insts := insts }, t0, ?_, rfl, c2, rfl, rfl, s4, ?_, hinsts, rfl⟩
  · unfold PM.fromFile
    simp only [List.map_cons] at hmax hinsts ⊢
    simp only [bind, Except.bind, s1, hmax, if_neg (show ¬ (1000000000 < M + 1) by omega), hinsts]
    rfl
  · intro t ht e he
    have hle : e.time ≤ M := by
      apply hM.2.1
      rw [List.mem_map]
      exact ⟨e, List.mem_flatten.2 ⟨toAbs t, List.mem_map_of_mem ht, he⟩, rfl⟩
    have hlt : e.time.toNat < (tickTable scales' (M + 1).toNat).length := by
      have : e.time.toNat ≤ (M + 1).toNat := by omega
      omega
    refine ⟨hlt, ?_⟩
    obtain ⟨_, _, N, hN, hT⟩ := c2
    simp only at hT ⊢
    rw [hT] at hlt ⊢
    simp only [List.length_map, List.length_range] at hlt
    simp [List.getD_eq_getElem?_getD, List.getElem?_map, List.getElem?_range hlt]

/-! ### C95: the tempo map survives writing and reading -/

namespace Spec

/-- The tempo map comes from whole numbers of microseconds per quarter note, and its ticks increase
strictly (as they do after loading a file). -/
structure Writable (c : Clock) : Prop where
  whole : ∀ p ∈ c.scales, ∃ tempo : Nat, tempo ≠ 0 ∧ p.2 = perTick c.res tempo
  strict : c.scales.Pairwise (fun a b => a.1 < b.1)

end Spec

theorem writtenTempo_perTick (res tempo : Nat) (hr : 0 < res) (ht : tempo ≠ 0) :
    writtenTempo res (Spec.perTick res tempo) = .ok tempo := by
  have h1 : (0 : ℚ) < res := by exact_mod_cast hr
  have h2 : (0 : ℚ) < tempo := by exact_mod_cast Nat.pos_of_ne_zero ht
  have h3 : Spec.perTick res tempo * res = tempo / 1000000 := by
    unfold Spec.perTick; field_simp
  unfold writtenTempo
  rw [h3, if_neg (by positivity)]
  have h4 : (60000000 : ℚ) / (60 / (tempo / 1000000)) = ((tempo : Int) : ℚ) := by
    push_cast; field_simp; norm_num
  rw [h4, pyInt_intCast]
  rfl

/-- The nearest tick, as a function. -/
theorem tick_fun (c : Clock) (h : ClockOk c) : ∃ tk : ℚ → Nat, (∀ t, c.timeToTick t = .ok (tk t : Int)) ∧
    (∀ t (j : Nat), |t - Spec.seconds c.scales (tk t)| ≤ |t - Spec.seconds c.scales j|) := by
  choose tk h1 h2 using C57_nearest c h
  exact ⟨tk, h1, h2⟩

/-- On a tick the nearest tick is that tick. -/
theorem tick_exact (c : Clock) (h : ClockOk c) (tk : ℚ → Nat)
    (hn : ∀ t (j : Nat), |t - Spec.seconds c.scales (tk t)| ≤ |t - Spec.seconds c.scales j|) (k : Nat) :
    tk (Spec.seconds c.scales k) = k := by
  have := hn (Spec.seconds c.scales k) k
  rw [sub_self, abs_zero] at this
  have h0 : Spec.seconds c.scales k - Spec.seconds c.scales (tk (Spec.seconds c.scales k)) = 0 :=
    abs_eq_zero.1 (le_antisymm this (abs_nonneg _))
  rcases lt_trichotomy (tk (Spec.seconds c.scales k)) k with hlt | heq | hgt
  · have := seconds_strictMono c.scales h.2.1 hlt; linarith
  · exact heq
  · have := seconds_strictMono c.scales h.2.1 hgt; linarith

theorem mapM_map {α β : Type} (f : α → Py β) (g : α → β) : ∀ (l : List α), (∀ a ∈ l, f a = .ok (g a)) →
    l.mapM f = .ok (l.map g) := by
  intro l
  induction l with
  | nil => intro _; rfl
  | cons a l ih =>
    intro h
    rw [List.mapM_cons, h a (by simp)]
    simp only [bind, Except.bind, ih (fun x hx => h x (by simp [hx])), pure, Except.pure, List.map_cons]

/-- The events of the timing track. -/
def timingList (tk : ℚ → Nat) (tempos : List (Nat × Nat)) (pm : PM) : List Msg :=
  (if pm.timeSigs = [] ∨ ∀ t ∈ pm.timeSigs, 0 < t.2.2 then [⟨0, .timeSig 4 4⟩] else []) ++
    tempos.map (fun q => (⟨(q.1 : Int), .setTempo q.2⟩ : Msg)) ++
    pm.timeSigs.map (fun t => (⟨(tk t.2.2 : Int), .timeSig t.1 t.2.1⟩ : Msg)) ++
    pm.keySigs.map (fun t => (⟨(tk t.2 : Int), .keySig t.1⟩ : Msg)) ++
    pm.lyrics.map (fun t => (⟨(tk t.2 : Int), .lyrics t.1⟩ : Msg))

theorem writable_list (res : Nat) : ∀ (l : List (Nat × ℚ)),
    (∀ p ∈ l, ∃ tempo : Nat, tempo ≠ 0 ∧ p.2 = Spec.perTick res tempo) →
    ∃ q : List (Nat × Nat), l = q.map (fun q => (q.1, Spec.perTick res q.2)) ∧ ∀ x ∈ q, x.2 ≠ 0 := by
  intro l
  induction l with
  | nil => intro _; exact ⟨[], rfl, by simp⟩
  | cons p l ih =>
    intro h
    obtain ⟨q, h1, h2⟩ := ih (fun x hx => h x (by simp [hx]))
    obtain ⟨t, t1, t2⟩ := h p (by simp)
    refine ⟨(p.1, t) :: q, by simp only [List.map_cons, ← h1, ← t2], ?_⟩
    intro x hx
    rcases List.mem_cons.1 hx with rfl | hx
    · exact t1
    · exact h2 x hx

theorem timingEvents_eq (pm : PM) (h : ClockOk pm.clock) (tk : ℚ → Nat)
    (htk : ∀ t, pm.clock.timeToTick t = .ok (tk t : Int)) (q : List (Nat × Nat))
    (hq : pm.clock.scales = q.map (fun q => (q.1, Spec.perTick pm.clock.res q.2))) (hq0 : ∀ x ∈ q, x.2 ≠ 0) :
    timingEvents pm = .ok (timingList tk q pm) := by
  have hres := h.1
  have a1 : pm.clock.scales.mapM (fun p : Nat × ℚ => do
      let t ← writtenTempo pm.clock.res p.2
      pure (⟨(p.1 : Int), .setTempo t⟩ : Msg)) = .ok (q.map (fun q => (⟨(q.1 : Int), .setTempo q.2⟩ : Msg))) := by
    have e : ∀ (q : List (Nat × Nat)), (∀ x ∈ q, x.2 ≠ 0) →
        (q.map (fun q => (q.1, Spec.perTick pm.clock.res q.2))).mapM (fun p : Nat × ℚ => do
          let t ← writtenTempo pm.clock.res p.2
          pure (⟨(p.1 : Int), .setTempo t⟩ : Msg)) = .ok (q.map (fun q => (⟨(q.1 : Int), .setTempo q.2⟩ : Msg))) := by
      intro q
      induction q with
      | nil => intro _; rfl
      | cons x q ih =>
        intro hx
        rw [List.map_cons, List.mapM_cons, writtenTempo_perTick _ _ hres (hx x (by simp)),
          ih (fun y hy => hx y (by simp [hy]))]
        rfl
    conv_lhs => rw [hq]
    exact e q hq0
  unfold timingEvents
  rw [a1, mapM_map _ (fun t : Int × Int × ℚ => (⟨(tk t.2.2 : Int), .timeSig t.1 t.2.1⟩ : Msg)) pm.timeSigs
      (fun a _ => by rw [htk]; rfl),
    mapM_map _ (fun t : Nat × ℚ => (⟨(tk t.2 : Int), .keySig t.1⟩ : Msg)) pm.keySigs
      (fun a _ => by rw [htk]; rfl),
    mapM_map _ (fun t : String × ℚ => (⟨(tk t.2 : Int), .lyrics t.1⟩ : Msg)) pm.lyrics
      (fun a _ => by rw [htk]; rfl)]
  rfl

theorem tempoEvents_append (a b : List Msg) :
    Spec.tempoEvents (a ++ b) = Spec.tempoEvents a ++ Spec.tempoEvents b := by
  simp [Spec.tempoEvents]

theorem tempoEvents_none (l : List Msg) (h : ∀ m ∈ l, ∀ t, m.body ≠ .setTempo t) : Spec.tempoEvents l = [] := by
  unfold Spec.tempoEvents
  rw [List.filterMap_eq_nil_iff]
  intro m hm
  split
  · rename_i t ht; exact absurd ht (h m hm t)
  · rfl

theorem tempoEvents_timing (tk : ℚ → Nat) (q : List (Nat × Nat)) (pm : PM) :
    Spec.tempoEvents (timingList tk q pm) = q := by
  unfold timingList
  simp only [tempoEvents_append]
  rw [tempoEvents_none (List.map _ pm.timeSigs), tempoEvents_none (List.map _ pm.keySigs),
    tempoEvents_none (List.map _ pm.lyrics), tempoEvents_none (ite _ _ _)]
  · simp only [List.nil_append, List.append_nil]
    unfold Spec.tempoEvents
    rw [List.filterMap_map]
    induction q with
    | nil => rfl
    | cons x q ih => simp only [List.filterMap_cons, Function.comp, Int.toNat_natCast] at ih ⊢; rw [ih]
  · intro m hm t
    split at hm
    · simp only [List.mem_singleton] at hm; subst hm; simp
    · simp at hm
  · intro m hm t; simp only [List.mem_map] at hm; obtain ⟨x, _, rfl⟩ := hm; simp
  · intro m hm t; simp only [List.mem_map] at hm; obtain ⟨x, _, rfl⟩ := hm; simp
  · intro m hm t; simp only [List.mem_map] at hm; obtain ⟨x, _, rfl⟩ := hm; simp

/-- Two lists with the same elements, both strictly increasing in their first component, are equal. -/
theorem perm_strict_eq (l l' : List (Nat × Nat)) (hp : l.Perm l') (h : l.Pairwise (fun a b => a.1 ≤ b.1))
    (h' : l'.Pairwise (fun a b => a.1 < b.1)) : l = l' := by
  refine List.Perm.eq_of_pairwise (le := fun a b => a.1 ≤ b.1) ?_ h (h'.imp (fun h => le_of_lt h)) hp
  intro a b ha hb h1 h2
  have e : a.1 = b.1 := le_antisymm h1 h2
  by_contra hne
  have ha' : a ∈ l' := hp.mem_iff.1 ha
  have hb' : b ∈ l' := hb
  rcases List.mem_iff_getElem.1 ha' with ⟨i, hi, rfl⟩
  rcases List.mem_iff_getElem.1 hb' with ⟨j, hj, rfl⟩
  rcases lt_trichotomy i j with hij | hij | hij
  · have := List.pairwise_iff_getElem.1 h' i j hi hj hij; omega
  · subst hij; exact hne rfl
  · have := List.pairwise_iff_getElem.1 h' j i hj hi hij; omega

/-- The timing track that is written: its tempo events are those of the tempo map, in order. -/
theorem timing_track (srt : List Msg → List Msg) (hsrt : IsCmpSort eventLt srt) (pm : PM)
    (h : ClockOk pm.clock) (tk : ℚ → Nat) (htk : ∀ t, pm.clock.timeToTick t = .ok (tk t : Int))
    (q : List (Nat × Nat)) (hq : pm.clock.scales = q.map (fun q => (q.1, Spec.perTick pm.clock.res q.2)))
    (hq0 : ∀ x ∈ q, x.2 ≠ 0) (hst : q.Pairwise (fun a b => a.1 < b.1)) :
    ∃ z, timingEvents pm = .ok (timingList tk q pm) ∧
      addEnd (srt (timingList tk q pm)) = .ok (srt (timingList tk q pm) ++ [⟨z, .endOfTrack⟩]) ∧
      Spec.GoodTrack (srt (timingList tk q pm) ++ [⟨z, .endOfTrack⟩]) ∧
      Spec.tempoEvents (srt (timingList tk q pm) ++ [⟨z, .endOfTrack⟩]) = q := by
  have e1 := timingEvents_eq pm h tk htk q hq hq0
  have hp := hsrt.perm (timingList tk q pm)
  have hnn : ∀ m ∈ timingList tk q pm, 0 ≤ m.time := by
    intro m hm
    obtain ⟨evs, g1, _, g3⟩ := timingEvents_ok pm h
    rw [e1] at g1
    exact g3 m (by rw [← Except.ok.inj g1]; exact hm)
  have hne : srt (timingList tk q pm) ≠ [] := by
    intro h0
    obtain ⟨evs, g1, g2, _⟩ := timingEvents_ok pm h
    rw [e1] at g1
    rw [h0] at hp
    exact g2 (by rw [← Except.ok.inj g1]; exact List.nil_perm.1 hp)
  have hs := cmpSort_time srt hsrt (timingList tk q pm)
  have hnn' : ∀ m ∈ srt (timingList tk q pm), 0 ≤ m.time := fun m hm => hnn m (hp.mem_iff.1 hm)
  obtain ⟨e, a1, a2, a3⟩ := addEnd_ok _ hne hnn' hs
  have hso := end_sorted _ e hs a3
  refine ⟨e.time + 1, e1, a1, ⟨?_, hso, ?_⟩, ?_⟩
  · intro m hm
    rcases List.mem_append.1 hm with hm | hm
    · exact hnn' m hm
    · simp only [List.mem_singleton] at hm
      subst hm
      have := hnn' e a2
      simp only; omega
  · intro m hm hb
    rcases List.mem_append.1 hm with hm | hm
    · have hm' := hp.mem_iff.1 hm
      have : (m.time.toNat, 0) ∈ Spec.tempoEvents (timingList tk q pm) := by
        unfold Spec.tempoEvents
        rw [List.mem_filterMap]
        exact ⟨m, hm', by rw [hb]⟩
      rw [tempoEvents_timing] at this
      exact hq0 _ this rfl
    · simp only [List.mem_singleton] at hm
      subst hm; simp at hb
  · rw [tempoEvents_append, show Spec.tempoEvents [⟨e.time + 1, .endOfTrack⟩] = [] from rfl, List.append_nil]
    refine perm_strict_eq _ _ ?_ ?_ hst
    · have h2 := tempoEvents_timing tk q pm
      conv_rhs => rw [← h2]
      exact hp.filterMap _
    · unfold Spec.tempoEvents
      rw [List.pairwise_filterMap]
      refine hs.imp ?_
      intro a b hab x hx y hy
      split at hx
      · split at hy
        · simp only [Option.some.injEq] at hx hy
          subst hx; subst hy
          simp only; omega
        · cases hy
      · cases hx

theorem tempoInForce_eq (res : Nat) (track : List Msg) (q : List (Nat × Nat)) (k : Nat)
    (h : Spec.tempoEvents track = q) (hz : ∃ t rest, q = (0, t) :: rest) :
    Spec.tempoInForce res track k = Spec.scaleAt (q.map (fun q => (q.1, Spec.perTick res q.2))) k := by
  unfold Spec.tempoInForce Spec.scaleAt
  rw [h, List.filter_map, List.getLast?_map]
  have hf : (fun p : Nat × ℚ => decide (p.1 ≤ k)) ∘ (fun q : Nat × Nat => (q.1, Spec.perTick res q.2)) =
      fun q => decide (q.1 ≤ k) := rfl
  rw [hf]
  cases hl : (q.filter (fun q => decide (q.1 ≤ k))).getLast? with
  | some p => simp
  | none =>
    obtain ⟨t, rest, rfl⟩ := hz
    simp at hl

/-- What a successful `serialize` did. -/
theorem serialize_ok (srt : List Msg → List Msg) (pm : PM) (evs t0 : List Msg) (e1 : timingEvents pm = .ok evs)
    (e2 : addEnd (srt evs) = .ok t0) (tracks : List (List Msg)) (hs : pm.serialize srt = .ok tracks) :
    pm.drum < 16 ∧ ∃ ts, instTracks srt pm.clock pm.drum 0 pm.insts = .ok ts ∧
      tracks = toDelta t0 :: ts.map toDelta := by
  unfold PM.serialize at hs
  simp only [e1, bind, Except.bind, e2] at hs
  by_cases hd : 16 ≤ pm.drum
  · simp only [hd, if_true] at hs; cases hs
  · simp only [hd, if_false] at hs
    refine ⟨by omega, ?_⟩
    cases hi : instTracks srt pm.clock pm.drum 0 pm.insts with
    | error e => rw [hi] at hs; cases hs
    | ok ts =>
      rw [hi] at hs
      exact ⟨ts, rfl, (Except.ok.inj hs).symm⟩

/-- **C95, the tempo map survives writing and reading.** Write any object whose tempo map consists of
whole microseconds per quarter note at strictly increasing ticks; the first track of the file, read
back with the same resolution, gives a tempo map with the same tempo in force at every tick, hence the
same time for every tick. -/
theorem C95_tempo_roundtrip (srt : List Msg → List Msg) (hsrt : IsCmpSort eventLt srt) (pm : PM)
    (h : ClockOk pm.clock) (hw : Spec.Writable pm.clock) (tracks : List (List Msg))
    (hs : pm.serialize srt = .ok tracks) :
    ∃ t0 rest scales, tracks = t0 :: rest ∧ loadTempo pm.clock.res (toAbs t0) = .ok scales ∧
      (∀ k, Spec.scaleAt scales k = Spec.scaleAt pm.clock.scales k) ∧
      (∀ k, Spec.seconds scales k = Spec.seconds pm.clock.scales k) := by
  obtain ⟨q, hq, hq0⟩ := writable_list pm.clock.res pm.clock.scales hw.whole
  obtain ⟨tk, htk, _⟩ := tick_fun pm.clock h
  have hst : q.Pairwise (fun a b => a.1 < b.1) := by
    have := hw.strict
    rw [hq, List.pairwise_map] at this
    exact this
  obtain ⟨z, e1, e2, e3, e4⟩ := timing_track srt hsrt pm h tk htk q hq hq0 hst
  obtain ⟨_, ts, hts, hs⟩ := serialize_ok srt pm _ _ e1 e2 tracks hs
  · obtain ⟨scales, s1, s2, s3, s4⟩ := C60_tempo_map pm.clock.res h.1 _ e3
    have hz : ∃ t rest, q = (0, t) :: rest := by
      obtain ⟨c, rest, hz⟩ := h.2.1.zero
      rw [hq] at hz
      cases q with
      | nil => simp at hz
      | cons x q =>
        obtain ⟨a, b⟩ := x
        simp only [List.map_cons, List.cons.injEq, Prod.mk.injEq] at hz
        exact ⟨b, q, by rw [hz.1.1]⟩
    have hall : ∀ k, Spec.scaleAt scales k = Spec.scaleAt pm.clock.scales k := by
      intro k
      rw [s4, tempoInForce_eq _ _ q k e4 hz]
      exact congrArg (fun l => Spec.scaleAt l k) hq.symm
    refine ⟨_, _, scales, hs, ?_, hall, ?_⟩
    · rw [(C55_roundtrip _).2]; exact s1
    · intro k
      unfold Spec.seconds
      simp only [hall]

end NGC
