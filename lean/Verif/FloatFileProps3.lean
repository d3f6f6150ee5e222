import Verif.FloatFileProps2
import Verif.SaveProps

/-! C160: loading and saving a whole file in floats, the theorems. -/

namespace NGC

theorem good_maxTick (tracks : List (List Msg)) (h : Spec.GoodFile tracks) :
    ∃ mt : Nat, maxTick (tracks.map toAbs) = .ok (mt : Int) ∧ mt ≤ 1000000000 ∧ ∀ t ∈ tracks, ∀ e ∈ toAbs t, e.time.toNat ≤ mt := by
  let M : Int := ((tracks.map toAbs).flatten.map (fun e => e.time)).foldl max 0
  have hM := foldl_max_int ((tracks.map toAbs).flatten.map (fun e => e.time)) 0
  have hM0 : 0 ≤ M := hM.1
  have hMlt : M < 1000000000 := by
    rcases hM.2.2 with h0 | h0
    · show List.foldl max 0 _ < _
      rw [h0]; norm_num
    · obtain ⟨e, he, hee⟩ := List.mem_map.1 h0
      obtain ⟨l, hl, hel⟩ := List.mem_flatten.1 he
      obtain ⟨t, ht, rfl⟩ := List.mem_map.1 hl
      have := h.short t ht e hel
      show List.foldl max 0 _ < _
      rw [← hee]; exact this
  refine ⟨(M + 1).toNat, ?_, by omega, ?_⟩
  · unfold maxTick
    rw [if_neg]
    · show Except.ok (M + 1) = _
      congr 1
      omega
    · rintro (h0 | h0)
      · exact h.any (List.map_eq_nil_iff.1 h0)
      · obtain ⟨t, ht, hte⟩ := List.mem_map.1 h0
        apply h.full
        have : t.map (fun e => e.body) = [] := by rw [← toAbs_body, hte]; rfl
        rw [List.map_eq_nil_iff] at this
        rw [← this]; exact ht
  · intro t ht e he
    have : e.time ≤ M := hM.2.1 _ (by
      rw [List.mem_map]
      exact ⟨e, List.mem_flatten.2 ⟨toAbs t, List.mem_map_of_mem ht, he⟩, rfl⟩)
    omega

/-- What both programs make of a file. -/
theorem both_objects (res drum : Nat) (hr : 0 < res) (tracks : List (List Msg)) (h : Spec.RealFile tracks) :
    ∃ (t0 : List Msg) (T : List (Nat × Nat)) (M : Nat) (B : List PInst) (KS : List (Nat × ℚ)) (TS : List (Int × Int × ℚ)) (LY : List (String × ℚ)) (pmE pmF : PM),
      tracks.head? = some t0 ∧
      PM.fromFile res tracks drum = .ok pmE ∧ PM.fromFileF res tracks drum = .ok pmF ∧
      (∀ p ∈ T, 1024 ≤ p.2 ∧ p.2 ≤ 2 ^ (24 : Nat) ∧ p.1 ≤ M) ∧ T.length ≤ t0.length + 1 ∧ M ≤ 1000000000 ∧ T ≠ [] ∧
      (∀ t ∈ tracks, ∀ e ∈ toAbs t, e.time.toNat ≤ M) ∧
      pmE.clock.scales = T.map (fun p => (p.1, Spec.perTick res p.2)) ∧ pmF.clock.scales = T.map (fun p => (p.1, scaleF res p.2)) ∧
      pmE.clock.times = (List.range (M + 1)).map (fun k => Spec.seconds pmE.clock.scales k) ∧
      pmF.clock.times = (List.range (M + 1)).map (fun k => secF pmF.clock.scales 0 k) ∧
      ClockOk pmE.clock ∧ ClockOkF pmF.clock ∧ pmE.clock.res = res ∧ pmF.clock.res = res ∧ pmE.drum = drum ∧ pmF.drum = drum ∧
      (∀ k, Rel 5 (Spec.scaleAt pmE.clock.scales k) (Spec.scaleAt pmF.clock.scales k)) ∧
      pmE.insts = B.map (PInst.mapT (fun q => Spec.seconds pmE.clock.scales (baseTick M q))) ∧
      pmF.insts = B.map (PInst.mapT (fun q => secF pmF.clock.scales 0 (baseTick M q))) ∧
      pmE.keySigs = KS.map (fun p => (p.1, Spec.seconds pmE.clock.scales (baseTick M p.2))) ∧
      pmF.keySigs = KS.map (fun p => (p.1, secF pmF.clock.scales 0 (baseTick M p.2))) ∧
      pmE.timeSigs = TS.map (fun p => (p.1, p.2.1, Spec.seconds pmE.clock.scales (baseTick M p.2.2))) ∧
      pmF.timeSigs = TS.map (fun p => (p.1, p.2.1, secF pmF.clock.scales 0 (baseTick M p.2.2))) ∧
      pmE.lyrics = LY.map (fun p => (p.1, Spec.seconds pmE.clock.scales (baseTick M p.2))) ∧
      pmF.lyrics = LY.map (fun p => (p.1, secF pmF.clock.scales 0 (baseTick M p.2))) := by
  obtain ⟨t0, rest, rfl⟩ : ∃ t0 rest, tracks = t0 :: rest := by
    cases tracks with
    | nil => exact absurd rfl h.any
    | cons a b => exact ⟨a, b, rfl⟩
  have hgood := toAbs_good t0 (h.nonneg t0 (by simp)) (h.tempo t0 rfl)
  have hlen : (toAbs t0).length = t0.length := by
    have := congrArg List.length (toAbs_body t0)
    simpa using this
  obtain ⟨T, T1, T2, l1, l2, m1, m2, hrel⟩ := load_both res hr (toAbs t0) hgood (by
    intro e he m hm
    have hmem : e.body ∈ (toAbs t0).map (fun e => e.body) := List.mem_map_of_mem he
    rw [toAbs_body] at hmem
    obtain ⟨x, hx, hxe⟩ := List.mem_map.1 hmem
    exact h.speed t0 rfl x hx m (by rw [hxe, hm])) (fun e he => h.short t0 (by simp) e he)
  rw [hlen] at T2
  obtain ⟨mt, hmt, hmt9, hcov⟩ := good_maxTick (t0 :: rest) h.toGoodFile
  set sE := T.map (fun p => (p.1, Spec.perTick res p.2)) with hsE
  set sF := T.map (fun p => (p.1, scaleF res p.2)) with hsF
  obtain ⟨ME, e1, e2, e3⟩ := tickTable_eq sE m1 mt
  obtain ⟨MF, f1, f2, f3, f4⟩ := tickTableF_eq sF m2 mt
  have hMM : ME = MF := by
    have a : (tickTable sE mt).length = (tickTableF sF mt).length := by
      unfold tickTable tickTableF
      simp only [(fillTable_len _ _ _ _).1, (fillTable_len _ _ _ _).2, List.length_replicate]
      rw [hsE, hsF, List.map_map, List.map_map]
      rfl
    rw [e3, f4] at a
    simpa using a
  subst hMM
  have hfst : ∀ p ∈ T, p.1 ≤ ME := fun p hp => f2 (p.1, scaleF res p.2) (List.mem_map.2 ⟨p, hp, rfl⟩)
  have hM9 : ME ≤ 1000000000 := by
    rcases f3 with g | ⟨p, hp, g⟩
    · omega
    · obtain ⟨q, hq, rfl⟩ := List.mem_map.1 hp
      have := (T1 q hq).2.2
      simp only at g
      omega
  obtain ⟨st, hst⟩ := loadTracks_ok drum (fun k => ((clampTick ME k : Nat) : ℚ)) ((t0 :: rest).map toAbs) 0 ⟨[], [], [], []⟩
  obtain ⟨B, hB⟩ : ∃ B, loadInstruments drum (fun k => ((clampTick ME k : Nat) : ℚ)) ((t0 :: rest).map toAbs) = .ok B := by
    unfold loadInstruments; rw [hst]; exact ⟨_, rfl⟩
  have ttE : (fun k : Int => (tickTable sE mt).getD k.toNat 0) = (fun k => Spec.seconds sE (clampTick ME k)) :=
    funext (fun k => table_clamp (fun k => Spec.seconds sE k) (seconds_zero _) ME _ e3 k)
  have sF0 : secF sF 0 0 = 0 := by
    obtain ⟨c, r, e0⟩ := m2.zero
    rw [e0]
    exact secF_start r 0 c 0 b64_zero (by rw [← e0]; exact m2.order)
  have ttF : (fun k : Int => (tickTableF sF mt).getD k.toNat 0) = (fun k => secF sF 0 (clampTick ME k)) :=
    funext (fun k => table_clamp (fun k => secF sF 0 k) sF0 ME _ f4 k)
  have iE := base_fixed drum ME _ B hB (fun k => Spec.seconds sE k)
  have iF := base_fixed drum ME _ B hB (fun k => secF sF 0 k)
  have nE := baseMeta ME (toAbs t0) (fun k => Spec.seconds sE k)
  have nF := baseMeta ME (toAbs t0) (fun k => secF sF 0 k)
  have hTne : T ≠ [] := by
    obtain ⟨c, r, e0⟩ := m1.zero
    intro h0
    rw [hsE, h0] at e0
    cases e0
  have hnot : ¬ ((1000000000 : Int) < (mt : Int)) := by omega
  generalize loadMeta (fun k => ((clampTick ME k : Nat) : ℚ)) (toAbs t0) = L at nE nF
  obtain ⟨KS, TS, LY⟩ := L
  refine ⟨t0, T, ME, B, KS, TS, LY,
    ⟨⟨res, sE, tickTable sE mt⟩, drum, TS.map (fun p => (p.1, p.2.1, Spec.seconds sE (baseTick ME p.2.2))),
      KS.map (fun p => (p.1, Spec.seconds sE (baseTick ME p.2))), LY.map (fun p => (p.1, Spec.seconds sE (baseTick ME p.2))),
      B.map (PInst.mapT (fun q => Spec.seconds sE (baseTick ME q)))⟩,
    ⟨⟨res, sF, tickTableF sF mt⟩, drum, TS.map (fun p => (p.1, p.2.1, secF sF 0 (baseTick ME p.2.2))),
      KS.map (fun p => (p.1, secF sF 0 (baseTick ME p.2))), LY.map (fun p => (p.1, secF sF 0 (baseTick ME p.2))),
      B.map (PInst.mapT (fun q => secF sF 0 (baseTick ME q)))⟩, rfl, ?_, ?_,
    fun p hp => ⟨(T1 p hp).1, (T1 p hp).2.1, hfst p hp⟩, T2, hM9, hTne, fun t ht e he => le_trans (hcov t ht e he) e1, rfl, rfl, e3, f4,
    ⟨hr, m1, ME, e2, e3⟩, ⟨m2, ME, f2, f4⟩, rfl, rfl, rfl, rfl, hrel, rfl, rfl, rfl, rfl, rfl, rfl, rfl, rfl⟩
  · unfold PM.fromFile
    simp only [List.map_cons] at hmt iE ⊢
    simp only [bind, Except.bind, l1, hmt, if_neg hnot, Int.toNat_natCast, ttE, nE, iE]
  · unfold PM.fromFileF
    simp only [List.map_cons] at hmt iF ⊢
    simp only [bind, Except.bind, l2, hmt, if_neg hnot, Int.toNat_natCast, ttF, nF, iF]

theorem mapT_mapT (f g : ℚ → ℚ) (i : PInst) : (i.mapT f).mapT g = i.mapT (fun x => g (f x)) := by
  unfold PInst.mapT PNote.mapT
  simp [Function.comp_def]

theorem seconds_inj (scales : List (Nat × ℚ)) (h : Spec.TempoMap scales) {i j : Nat} (he : Spec.seconds scales i = Spec.seconds scales j) : i = j := by
  rcases Nat.lt_trichotomy i j with g | g | g
  · have := seconds_strictMono scales h g; rw [he] at this; exact absurd this (lt_irrefl _)
  · exact g
  · have := seconds_strictMono scales h g; rw [he] at this; exact absurd this (lt_irrefl _)

theorem real_strict (res : Nat) (hr : 0 < res) (T : List (Nat × Nat)) (M : Nat) (hT : ∀ p ∈ T, 1024 ≤ p.2 ∧ p.2 ≤ 2 ^ (24 : Nat)) (hM : M ≤ 1000000000)
    (hl : T.length ≤ 2 ^ (52 : Nat)) (sF : List (Nat × ℚ)) (hsF : sF = T.map (fun p => (p.1, scaleF res p.2))) (hm : Spec.TempoMap sF) {i j : Nat} (hij : i < j) (hj : j ≤ M) :
    secF sF 0 i < secF sF 0 j := by
  have hb := real_bound res hr T hT (by rw [← hsF]; exact hm) M hM
  rw [← hsF] at hb
  refine secF_strict sF hm M (fun p hp => ?_) hij hj
  have hn : sF.length ≤ 2 ^ (52 : Nat) := by rw [hsF, List.length_map]; exact hl
  have a := (secF_full sF hm M).err (seconds_nonneg' sF hm M) hn
  rw [abs_le] at a
  have s0 := seconds_nonneg' sF hm M
  have b : Spec.seconds sF M * (sF.length / 2 ^ (52 : Nat)) ≤ Spec.seconds sF M * 1 := by
    refine mul_le_mul_of_nonneg_left ?_ s0
    rw [div_le_one (by norm_num)]
    exact_mod_cast hn
  have c := hb p hp
  have pp := hm.pos p hp
  norm_num at *
  linarith [a.2]

/-- **C160, the loaded object.** For every real file, loading in floats works and gives the object that exact arithmetic gives, with every time `x` replaced by a float `tm x` that is off by
at most `n + 5` parts in 2^52, with `n` the number of entries of the tempo map; the ticks of the tempo map are the same, and later ticks have later float times. -/
theorem C160_loaded (res drum : Nat) (hr : 0 < res) (tracks : List (List Msg)) (h : Spec.RealFile tracks) :
    ∃ (pmE pmF : PM) (tm : ℚ → ℚ), PM.fromFile res tracks drum = .ok pmE ∧ PM.fromFileF res tracks drum = .ok pmF ∧
      pmF.clock.scales.map Prod.fst = pmE.clock.scales.map Prod.fst ∧
      (∀ x, 0 ≤ x → |tm x - x| ≤ x * ((pmF.clock.scales.length + 5 : Nat) / 2 ^ (52 : Nat))) ∧
      pmF.clock.times = pmE.clock.times.map tm ∧ pmF.clock.times.Pairwise (· < ·) ∧
      pmF.insts = pmE.insts.map (PInst.mapT tm) ∧
      pmF.keySigs = pmE.keySigs.map (fun p => (p.1, tm p.2)) ∧
      pmF.timeSigs = pmE.timeSigs.map (fun p => (p.1, p.2.1, tm p.2.2)) ∧
      pmF.lyrics = pmE.lyrics.map (fun p => (p.1, tm p.2)) := by
  obtain ⟨t0, T, M, B, KS, TS, LY, pmE, pmF, h0, oE, oF, hT, hTl, hM, hTne, hcov, scE, scF, tiE, tiF, cE, cF, _, _, _, _, hrel, iE, iF, kE, kF, sE, sF, lE, lF⟩ :=
    both_objects res drum hr tracks h
  have hlen : pmF.clock.scales.length + 5 ≤ 2 ^ (52 : Nat) := by
    rw [scF, List.length_map]
    have := h.many t0 h0
    norm_num at this ⊢
    omega
  classical
  have key : ∀ k, (if hk : ∃ j, Spec.seconds pmE.clock.scales j = Spec.seconds pmE.clock.scales k then secF pmF.clock.scales 0 hk.choose else Spec.seconds pmE.clock.scales k)
      = secF pmF.clock.scales 0 k := by
    intro k
    have hk : ∃ j, Spec.seconds pmE.clock.scales j = Spec.seconds pmE.clock.scales k := ⟨k, rfl⟩
    rw [dif_pos hk]
    congr 1
    exact seconds_inj pmE.clock.scales cE.2.1 hk.choose_spec
  obtain ⟨tm, htm⟩ : ∃ tm : ℚ → ℚ, tm = fun x => if hk : ∃ j, Spec.seconds pmE.clock.scales j = x then secF pmF.clock.scales 0 hk.choose else x := ⟨_, rfl⟩
  have hk : ∀ k, tm (Spec.seconds pmE.clock.scales k) = secF pmF.clock.scales 0 k := by
    intro k; rw [htm]; exact key k
  have n0 : ∀ k, 0 ≤ Spec.seconds pmE.clock.scales k := seconds_nonneg' _ cE.2.1
  have herr : ∀ k, |secF pmF.clock.scales 0 k - Spec.seconds pmE.clock.scales k| ≤
      Spec.seconds pmE.clock.scales k * ((pmF.clock.scales.length + 5 : Nat) / 2 ^ (52 : Nat)) := by
    intro k
    have r := (seconds_rel _ _ 5 hrel k).trans (secF_full pmF.clock.scales cF.1 k)
    rw [Nat.add_comm] at r
    exact r.err (n0 k) hlen
  refine ⟨pmE, pmF, tm, oE, oF, ?_, ?_, ?_, ?_, ?_, ?_, ?_, ?_⟩
  · rw [scE, scF, List.map_map, List.map_map]; rfl
  · intro x hx
    rw [htm]
    simp only
    split
    · rename_i hj
      have := herr hj.choose
      rwa [hj.choose_spec] at this
    · rw [sub_self, abs_zero]
      exact mul_nonneg hx (by positivity)
  · rw [tiE, tiF, List.map_map]
    apply List.map_congr_left
    intro k _
    exact (hk k).symm
  · rw [tiF, List.pairwise_map]
    refine List.Pairwise.imp_of_mem ?_ (List.pairwise_lt_range (n := M + 1))
    intro a b _ hb hab
    rw [List.mem_range] at hb
    refine real_strict res hr T M (fun p hp => ⟨(hT p hp).1, (hT p hp).2.1⟩) hM ?_ _ scF cF.1 hab (by omega)
    rw [scF, List.length_map] at hlen
    omega
  · rw [iE, iF, List.map_map]
    apply List.map_congr_left
    intro i _
    rw [Function.comp, mapT_mapT]
    simp only [hk]
  · rw [kE, kF, List.map_map]
    apply List.map_congr_left
    intro p _
    simp only [Function.comp, hk]
  · rw [sE, sF, List.map_map]
    apply List.map_congr_left
    intro p _
    simp only [Function.comp, hk]
  · rw [lE, lF, List.map_map]
    apply List.map_congr_left
    intro p _
    simp only [Function.comp, hk]

theorem instTracksW_ok (srt : List Msg → List Msg) (hp : ∀ l, (srt l).Perm l) (tk : ℚ → Nat) (toTick : ℚ → Py Int) (h : ∀ q, toTick q = .ok (tk q : Int)) (drum : Nat)
    (hd : drum < 16) : ∀ (is : List PInst) (n : Nat), ∃ ts, instTracksW srt toTick drum n is = .ok ts := by
  intro is
  induction is with
  | nil => intro n; exact ⟨[], rfl⟩
  | cons i is ih =>
    intro n
    obtain ⟨ch, hc⟩ := channelOf_ok drum n i.isDrum hd
    obtain ⟨ts, ht⟩ := ih (n + 1)
    obtain ⟨evs, he, hne⟩ : ∃ evs, instEventsW toTick ch i = .ok evs ∧ evs ≠ [] := by
      unfold instEventsW
      rw [mapM_map _ (fun n : PNote => [(⟨(tk n.start : Int), .noteOn ch n.pitch n.velocity⟩ : Msg), ⟨(tk n.stop : Int), .noteOn ch n.pitch 0⟩]) i.notes (fun a _ => by rw [h, h]; rfl),
        mapM_map _ (fun b : Int × ℚ => (⟨(tk b.2 : Int), .pitchwheel ch b.1⟩ : Msg)) i.bends (fun a _ => by rw [h]; rfl),
        mapM_map _ (fun b : Nat × Nat × ℚ => (⟨(tk b.2.2 : Int), .controlChange ch b.1 b.2.1⟩ : Msg)) i.controls (fun a _ => by rw [h]; rfl)]
      exact ⟨_, rfl, by simp⟩
    have hsw : swapOffs (srt evs) ≠ [] := by
      intro h0
      have h1 := congrArg List.length (swapOffs_times (srt evs))
      rw [h0] at h1
      simp only [List.map_nil, List.length_nil, List.length_map] at h1
      have := List.length_eq_zero_iff.1 h1.symm
      have hpp := hp evs
      rw [this] at hpp
      exact hne (List.nil_perm.1 hpp)
    obtain ⟨e, hl⟩ : ∃ e, (swapOffs (srt evs)).getLast? = some e := ⟨_, List.getLast?_eq_some_getLast hsw⟩
    rw [instTracksW]
    simp only [hc, he, ht, bind, Except.bind, addEnd, hl]
    exact ⟨_, rfl⟩

/-- **C160, the saved file.** Load any real file and save it, in floats and with exact arithmetic. Both work. All instrument tracks are the same, message by message and tick by tick: rounding
moves no note, no control change and no pitch bend. The first tracks have, up to the order of messages at one tick, the same messages other than tempi, at the same ticks; both are in order of time;
the tempi are at the same ticks, and those written in floats are the exact ones or one microsecond per quarter note less. -/
theorem C160_saved (srt : List Msg → List Msg) (hsrt : IsCmpSort eventLt srt) (res drum : Nat) (hr : 0 < res) (hd : drum < 16)
    (tracks : List (List Msg)) (h : Spec.RealFile tracks) :
    ∃ (pmE pmF : PM) (aE aF : List Msg) (rest : List (List Msg)) (w : Nat → Nat),
      PM.fromFile res tracks drum = .ok pmE ∧ PM.fromFileF res tracks drum = .ok pmF ∧
      pmE.serialize srt = .ok (toDelta aE :: rest) ∧ pmF.serializeF srt = .ok (toDelta aF :: rest) ∧
      (Spec.others aF).Perm (Spec.others aE) ∧
      aE.Pairwise (fun a b => a.time ≤ b.time) ∧ aF.Pairwise (fun a b => a.time ≤ b.time) ∧
      (∀ p ∈ Spec.tempoEvents aE, w p.2 = p.2 ∨ w p.2 + 1 = p.2) ∧
      (Spec.tempoEvents aF).Perm ((Spec.tempoEvents aE).map (fun p => (p.1, w p.2))) := by
  obtain ⟨t0, T, M, B, KS, TS, LY, pmE, pmF, h0, oE, oF, hT, hTl, hM, hTne, hcov, scE, scF, tiE, tiF, cE, cF, rE, rF, dE, dF, hrel, iE, iF, kE, kF, sE, sF, lE, lF⟩ :=
    both_objects res drum hr tracks h
  have hlen : T.length ≤ 2 ^ (52 : Nat) := by
    have := h.many t0 h0
    norm_num at this ⊢
    omega
  have hlenF : pmF.clock.scales.length ≤ 2 ^ (52 : Nat) := by rw [scF, List.length_map]; exact hlen
  have hT' : ∀ p ∈ T, 1024 ≤ p.2 ∧ p.2 ≤ 2 ^ (24 : Nat) := fun p hp => ⟨(hT p hp).1, (hT p hp).2.1⟩
  have tkE : ∀ q, pmE.clock.timeToTick (Spec.seconds pmE.clock.scales (baseTick M q)) = .ok (baseTick M q : Int) :=
    fun q => timeToTick_seconds pmE.clock cE _
  have hstrict : pmF.clock.times.Pairwise (· < ·) := by
    rw [tiF, List.pairwise_map]
    refine List.Pairwise.imp_of_mem ?_ (List.pairwise_lt_range (n := M + 1))
    intro a b _ hb hab
    rw [List.mem_range] at hb
    exact real_strict res hr T M hT' hM hlen _ scF cF.1 hab (by omega)
  have tkF : ∀ q, pmF.clock.timeToTickF (secF pmF.clock.scales 0 (baseTick M q)) = .ok (baseTick M q : Int) := by
    intro q
    have hb : baseTick M q ≤ M := clampTick_le M _
    refine timeToTickF_self pmF.clock hstrict (baseTick M q) _ ?_
    rw [tiF, List.getElem?_map, List.getElem?_range (by omega)]
    rfl
  have zE : ∀ q, 0 < Spec.seconds pmE.clock.scales (baseTick M q) ↔ 0 < baseTick M q := by
    intro q
    have := seconds_lt_iff pmE.clock.scales cE.2.1 0 (baseTick M q)
    rwa [seconds_zero] at this
  have sF0 : secF pmF.clock.scales 0 0 = 0 := by
    obtain ⟨c, r, e0⟩ := cF.1.zero
    rw [e0]
    exact secF_start r 0 c 0 b64_zero (by rw [← e0]; exact cF.1.order)
  have zF : ∀ q, 0 < secF pmF.clock.scales 0 (baseTick M q) ↔ 0 < baseTick M q := by
    intro q
    have hb : baseTick M q ≤ M := clampTick_le M _
    constructor
    · intro hq
      by_contra hc
      rw [show baseTick M q = 0 by omega, sF0] at hq
      exact lt_irrefl _ hq
    · intro hq
      have := real_strict res hr T M hT' hM hlen _ scF cF.1 hq hb
      rwa [sF0] at this
  have qE : pmE.clock.scales.mapM (fun p => do
      let t ← writtenTempo pmE.clock.res p.2
      pure (⟨(p.1 : Int), .setTempo t⟩ : Msg)) = .ok (toMsgs T) := by
    rw [scE, rE, List.mapM_map]
    refine mapM_map _ _ T (fun p hp => ?_)
    simp only [Function.comp, writtenTempo_perTick res p.2 hr (by have := (hT p hp).1; omega)]
    rfl
  have qF : pmF.clock.scales.mapM (fun p => do
      let t ← writtenTempoF pmF.clock.res p.2
      pure (⟨(p.1 : Int), .setTempo t⟩ : Msg)) = .ok (toMsgs (T.map (fun p => (p.1, resaved res p.2)))) := by
    rw [scF, rF]
    exact tempoMsgsF_eq res hr T (fun p hp => by have := (hT p hp).1; omega)
  obtain ⟨evE, gE, pE⟩ := timingW_eq pmE.clock.timeToTick (writtenTempo pmE.clock.res) _ (baseTick M) tkE zE pmE KS TS LY kE sE lE _ qE
  obtain ⟨evF, gF, pF⟩ := timingW_eq pmF.clock.timeToTickF (writtenTempoF pmF.clock.res) _ (baseTick M) tkF zF pmF KS TS LY kF sF lF _ qF
  have hC := metaMsgs_no_tempo (baseTick M) KS TS LY
  obtain ⟨eE, aE, bE, cE1, cE2, cE3, cE4, cE5, cE6⟩ := first_track srt hsrt _ hC T hTne evE pE
  obtain ⟨eF, aF, bF, cF1, cF2, cF3, cF4, cF5, cF6⟩ := first_track srt hsrt _ hC (T.map (fun p => (p.1, resaved res p.2))) (by simpa using hTne) evF pF
  have hee : eE = eF := by
    apply le_antisymm
    · rcases cE4 with ⟨m, hm, g⟩ | ⟨p, hp, g⟩
      · rw [← g]; exact cF5 m hm
      · rw [← g]; exact cF6 (p.1, resaved res p.2) (List.mem_map.2 ⟨p, hp, rfl⟩)
    · rcases cF4 with ⟨m, hm, g⟩ | ⟨p, hp, g⟩
      · rw [← g]; exact cE5 m hm
      · obtain ⟨q, hq, rfl⟩ := List.mem_map.1 hp
        rw [← g]; exact cE6 q hq
  obtain ⟨ts, hts⟩ := instTracksW_ok srt hsrt.perm (baseTick M) (fun q => .ok (baseTick M q : Int)) (fun _ => rfl) drum hd B 0
  have wE : pmE.serialize srt = .ok (toDelta aE :: ts.map toDelta) := by
    rw [serialize_exact]
    unfold PM.serializeW
    rw [dE, iE, instTracksW_mapT]
    simp only [tkE, gE, bE, hts, bind, Except.bind, if_neg (show ¬ 16 ≤ drum by omega)]
    rfl
  have wF : pmF.serializeF srt = .ok (toDelta aF :: ts.map toDelta) := by
    unfold PM.serializeF PM.serializeW
    rw [dF, iF, instTracksW_mapT]
    simp only [tkF, gF, bF, hts, bind, Except.bind, if_neg (show ¬ 16 ≤ drum by omega)]
    rfl
  refine ⟨pmE, pmF, aE, aF, ts.map toDelta, resaved res, oE, oF, wE, wF, ?_, cE1, cF1, ?_, ?_⟩
  · rw [hee] at cE2
    exact cF2.trans cE2.symm
  · intro p hp
    have hp := cE3.mem_iff.1 hp
    exact resaved_near res p.2 hr (by have := (hT p hp).1; omega) (hT p hp).2.1
  · exact cF3.trans (cE3.map _).symm

/-- A file with two tempi, one of which (69 bpm) is not kept, a time signature, and a track with a note, a pitch bend and a control change. -/
def exRealFile : List (List Msg) :=
  [[⟨0, .setTempo 869565⟩, ⟨0, .timeSig 3 4⟩, ⟨240, .setTempo 400000⟩, ⟨0, .endOfTrack⟩],
   [⟨0, .programChange 0 5⟩, ⟨10, .noteOn 0 60 90⟩, ⟨7, .controlChange 0 64 127⟩, ⟨5, .pitchwheel 0 100⟩, ⟨250, .noteOn 0 60 0⟩, ⟨1, .endOfTrack⟩]]

/-- The hypotheses are met. -/
theorem exRealFile_real : Spec.RealFile exRealFile := by
  refine ⟨⟨by decide, by decide, by decide, ?_, by decide⟩, ?_, ?_⟩
  · intro t ht
    obtain rfl := Option.some.inj ht
    decide
  · intro t ht e he m hm
    obtain rfl := Option.some.inj ht
    simp only [List.mem_cons, List.not_mem_nil, or_false] at he
    rcases he with rfl | rfl | rfl | rfl <;> simp at hm <;> subst hm <;> norm_num
  · intro t ht
    obtain rfl := Option.some.inj ht
    norm_num

/-- And the whole run, in floats: the tempo of 69 bpm is written a microsecond shorter, everything else is on its tick. -/
example : (PM.fromFileF 480 exRealFile >>= fun pm => pm.serializeF (insSort eventLt)) =
    .ok [[⟨0, .setTempo 869564⟩, ⟨0, .timeSig 3 4⟩, ⟨240, .setTempo 400000⟩, ⟨1, .endOfTrack⟩],
      [⟨0, .programChange 0 5⟩, ⟨10, .noteOn 0 60 90⟩, ⟨7, .controlChange 0 64 127⟩, ⟨5, .pitchwheel 0 100⟩, ⟨250, .noteOn 0 60 0⟩, ⟨1, .endOfTrack⟩]] := by
  decide +kernel

end NGC
