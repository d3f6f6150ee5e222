import Verif.FloatFileProps

/-! C160: loading and saving a whole file in floats, against exact arithmetic. -/

namespace NGC

namespace Spec

/-- A file that loads and whose tempi are those of real music: at least 1024 microseconds per quarter note (58593 quarter notes per minute), at most three bytes; and
fewer than 2^50 messages in the first track. -/
structure RealFile (tracks : List (List Msg)) : Prop extends GoodFile tracks where
  speed : ∀ t, tracks.head? = some t → ∀ e ∈ t, ∀ m, e.body = .setTempo m → 1024 ≤ m ∧ m ≤ 2 ^ (24 : Nat)
  many : ∀ t, tracks.head? = some t → t.length < 2 ^ (50 : Nat)

/-- The messages of a track that do not set a tempo. -/
def others (t : List Msg) : List Msg := t.filter (fun m => match m.body with | .setTempo _ => false | _ => true)

end Spec

theorem fold_scales (res : Nat) (hr : 0 < res) (P : ℚ → Prop) (K : Nat → Prop) : ∀ (track : List Msg),
    (∀ e ∈ track, ∀ m, e.body = .setTempo m → m ≠ 0 ∧ P (Spec.perTick res m)) → (∀ e ∈ track, K e.time.toNat) → K 0 → ∀ (s s' : List (Nat × ℚ)), (∀ p ∈ s, P p.2 ∧ K p.1) →
    track.foldlM (tempoStep res) s = .ok s' → (∀ p ∈ s', P p.2 ∧ K p.1) ∧ s'.length ≤ s.length + track.length := by
  intro track
  induction track with
  | nil => intro _ _ _ s s' h e; cases e; exact ⟨h, by simp⟩
  | cons e es ih =>
    intro hp hk k0 s s' h he
    rw [List.foldlM_cons] at he
    cases h1 : tempoStep res s e with
    | error x => rw [h1] at he; cases he
    | ok s1 =>
      rw [h1] at he
      have hs1 : (∀ p ∈ s1, P p.2 ∧ K p.1) ∧ s1.length ≤ s.length + 1 := by
        unfold tempoStep at h1
        split at h1
        · rename_i m hm
          obtain ⟨hm0, hmP⟩ := hp e List.mem_cons_self m hm
          rw [tickScale_eq res m hr hm0] at h1
          simp only [bind, Except.bind] at h1
          split at h1
          · rw [← Except.ok.inj h1]
            refine ⟨?_, by simp⟩
            intro p hp'
            simp only [List.mem_singleton] at hp'
            subst hp'
            exact ⟨hmP, k0⟩
          · split at h1
            · cases h1
            · split at h1
              · rw [← Except.ok.inj h1]
                refine ⟨?_, by simp⟩
                intro p hp'
                rcases List.mem_append.1 hp' with g | g
                · exact h p g
                · simp only [List.mem_singleton] at g
                  subst g
                  exact ⟨hmP, hk e List.mem_cons_self⟩
              · rw [← Except.ok.inj h1]; exact ⟨h, by omega⟩
        · rw [← Except.ok.inj h1]; exact ⟨h, by omega⟩
      have := ih (fun x hx => hp x (List.mem_cons_of_mem _ hx)) (fun x hx => hk x (List.mem_cons_of_mem _ hx)) k0 s1 s' hs1.1 he
      refine ⟨this.1, ?_⟩
      have := this.2
      simp only [List.length_cons]
      omega

theorem fillTable_len (M : Nat) : ∀ (sc : List (Nat × ℚ)) (last : ℚ) (arr : List ℚ), (fillTable M sc last arr).length = arr.length ∧ (fillTableF M sc last arr).length = arr.length := by
  intro sc
  induction sc with
  | nil => intro last arr; exact ⟨rfl, rfl⟩
  | cons p sc ih =>
    obtain ⟨a, c⟩ := p
    intro last arr
    cases sc with
    | nil => simp [fillTable, fillTableF, sliceSet]
    | cons q sc =>
      obtain ⟨b, d⟩ := q
      rw [fillTable, fillTableF]
      refine ⟨?_, ?_⟩
      · rw [(ih _ _).1]; simp [sliceSet]
      · rw [(ih _ _).2]; simp [sliceSet]

/-- Loading the tempo events, exactly and in floats. -/
theorem load_both (res : Nat) (hr : 0 < res) (track : List Msg) (hg : Spec.GoodTrack track)
    (hsp : ∀ e ∈ track, ∀ m, e.body = .setTempo m → 1024 ≤ m ∧ m ≤ 2 ^ (24 : Nat)) (hk : ∀ e ∈ track, e.time < 1000000000) :
    ∃ T : List (Nat × Nat), (∀ p ∈ T, 1024 ≤ p.2 ∧ p.2 ≤ 2 ^ (24 : Nat) ∧ p.1 < 1000000000) ∧ T.length ≤ track.length + 1 ∧
      loadTempo res track = .ok (T.map (fun p => (p.1, Spec.perTick res p.2))) ∧ loadTempoF res track = .ok (T.map (fun p => (p.1, scaleF res p.2))) ∧
      Spec.TempoMap (T.map (fun p => (p.1, Spec.perTick res p.2))) ∧ Spec.TempoMap (T.map (fun p => (p.1, scaleF res p.2))) ∧
      ∀ k, Rel 5 (Spec.scaleAt (T.map (fun p => (p.1, Spec.perTick res p.2))) k) (Spec.scaleAt (T.map (fun p => (p.1, scaleF res p.2))) k) := by
  have hok : ∀ e ∈ track, TempoOk e := by
    intro e he m hm
    have := hsp e he m hm
    exact ⟨by omega, this.2⟩
  obtain ⟨sE, sF, h1, h2, _, h4, h5, _⟩ := C155_tempo_map res hr track hg hok
  obtain ⟨sE', g1, g2, _, g3⟩ := C60_tempo_map res hr track hg
  have : sE' = sE := Except.ok.inj (g1.symm.trans h1)
  subst this
  have hrq : (res : ℚ) ≠ 0 := by exact_mod_cast (by omega : res ≠ 0)
  obtain ⟨T, hT, f1, f2⟩ := tempoFold res hr track hok [(0, 500000)] (by simp) (by
    intro p hp; simp only [List.mem_singleton] at hp; subst hp; exact ⟨by norm_num, by norm_num⟩)
  have d1 : (60 : ℚ) / (120 * res) = Spec.perTick res 500000 := by
    unfold Spec.perTick; field_simp; norm_num
  have e1 : loadTempo res track = .ok (T.map (fun p => (p.1, Spec.perTick res p.2))) := by
    unfold loadTempo; rw [if_neg (by omega), d1]; exact f1
  have e2 : loadTempoF res track = .ok (T.map (fun p => (p.1, scaleF res p.2))) := by
    unfold loadTempoF; rw [if_neg (by omega), scaleF_default]; exact f2
  have eE : sE' = T.map (fun p => (p.1, Spec.perTick res p.2)) := Except.ok.inj (h1.symm.trans e1)
  have eF : sF = T.map (fun p => (p.1, scaleF res p.2)) := Except.ok.inj (h2.symm.trans e2)
  obtain ⟨q1, q2⟩ := fold_scales res hr (fun x => ∃ m, 1024 ≤ m ∧ x = Spec.perTick res m) (fun k => k < 1000000000) track
    (fun e he m hm => ⟨(hok e he m hm).1, m, (hsp e he m hm).1, rfl⟩) (fun e he => by have := hk e he; omega) (by norm_num) [(0, Spec.perTick res 500000)] _
    (by
      intro p hp
      simp only [List.mem_singleton] at hp
      subst hp
      exact ⟨⟨500000, by norm_num, rfl⟩, by norm_num⟩) f1
  refine ⟨T, ?_, ?_, e1, e2, eE ▸ g2, eF ▸ h4, fun k => ?_⟩
  · intro p hp
    obtain ⟨⟨m, hm, he⟩, hk⟩ := q1 (p.1, Spec.perTick res p.2) (List.mem_map.2 ⟨p, hp, rfl⟩)
    have := (perTick_inj res _ _ hr).1 he
    exact ⟨by omega, (hT p hp).2, hk⟩
  · simp only [List.length_map, List.length_cons, List.length_nil] at q2
    omega
  · rw [← eE, ← eF, g3 k]
    exact h5 k

/-- The bound of the round trip holds for real tempi. -/
theorem real_bound (res : Nat) (hr : 0 < res) (T : List (Nat × Nat)) (hT : ∀ p ∈ T, 1024 ≤ p.2 ∧ p.2 ≤ 2 ^ (24 : Nat))
    (hm : Spec.TempoMap (T.map (fun p => (p.1, scaleF res p.2)))) (N : Nat) (hN : N ≤ 1000000000) :
    ∀ p ∈ T.map (fun p => (p.1, scaleF res p.2)), Spec.seconds (T.map (fun p => (p.1, scaleF res p.2))) N ≤ 2 ^ (45 : Nat) * p.2 := by
  have hrq : (0 : ℚ) < res := by exact_mod_cast hr
  obtain ⟨u, hu⟩ : ∃ u : ℚ, u = 1 / 1000000 / res := ⟨_, rfl⟩
  have hu0 : 0 < u := by rw [hu]; positivity
  have hp : ∀ t : Nat, Spec.perTick res t = t * u := by
    intro t; unfold Spec.perTick; rw [hu]; ring
  have each : ∀ p ∈ T.map (fun p => (p.1, scaleF res p.2)), 1000 * u ≤ p.2 ∧ p.2 ≤ 17000000 * u := by
    intro p hp'
    obtain ⟨q, hq, rfl⟩ := List.mem_map.1 hp'
    obtain ⟨a1, a2⟩ := hT q hq
    have e := (scaleF_rel res q.2 hr (by omega)).err (perTick_pos res q.2 hr (by omega)).le (by norm_num)
    rw [hp] at e
    have b1 : (1024 : ℚ) ≤ (q.2 : ℚ) := by exact_mod_cast a1
    have b2 : (q.2 : ℚ) ≤ 16777216 := by exact_mod_cast (le_trans a2 (by norm_num) : q.2 ≤ 16777216)
    have c1 : 1024 * u ≤ q.2 * u := mul_le_mul_of_nonneg_right b1 hu0.le
    have c2 : q.2 * u ≤ 16777216 * u := mul_le_mul_of_nonneg_right b2 hu0.le
    rw [abs_le] at e
    norm_num at e
    constructor <;> linarith [e.1, e.2]
  have hsec : ∀ k : Nat, Spec.seconds (T.map (fun p => (p.1, scaleF res p.2))) k ≤ k * (17000000 * u) := by
    intro k
    induction k with
    | zero => rw [seconds_zero]; simp
    | succ k ih =>
      rw [seconds_succ]
      obtain ⟨p, hp, _, e⟩ := scaleAt_mem _ hm k
      rw [e]
      have := (each p hp).2
      push_cast
      linarith
  intro p hp
  have h1 := (each p hp).1
  have h2 := hsec N
  have hNq : (N : ℚ) ≤ 1000000000 := by exact_mod_cast hN
  have h3 : (N : ℚ) * (17000000 * u) ≤ 1000000000 * (17000000 * u) := mul_le_mul_of_nonneg_right hNq (by positivity)
  norm_num at *
  linarith

/-! ### The common part of the two objects -/

/-- A tick of the table of `M + 1` entries; 0 outside. -/
def clampTick (M : Nat) (k : Int) : Nat := if k.toNat ≤ M then k.toNat else 0

theorem clampTick_le (M : Nat) (k : Int) : clampTick M k ≤ M := by
  unfold clampTick; split <;> omega

theorem clampTick_idem (M : Nat) (k : Int) : clampTick M (clampTick M k : Int) = clampTick M k := by
  unfold clampTick
  split
  · rename_i hk
    rw [Int.toNat_natCast, if_pos hk]
  · simp

theorem table_clamp (f : Nat → ℚ) (f0 : f 0 = 0) (M : Nat) (times : List ℚ) (h : times = (List.range (M + 1)).map f) (k : Int) :
    times.getD k.toNat 0 = f (clampTick M k) := by
  rw [h, List.getD_eq_getElem?_getD]
  unfold clampTick
  split
  · rename_i hk
    rw [List.getElem?_map, List.getElem?_range (by omega)]
    rfl
  · rename_i hk
    rw [List.getElem?_eq_none (by simp; omega), f0]
    rfl

/-- The look-up of the table, through the tick. -/
theorem table_factor (f : Nat → ℚ) (M : Nat) (k : Int) :
    f (clampTick M k) = (fun q : ℚ => f (clampTick M ⌊q⌋)) ((clampTick M k : Nat) : ℚ) := by
  simp only
  rw [Int.floor_natCast, clampTick_idem]

/-- The tick of a time of the common object. -/
def baseTick (M : Nat) (q : ℚ) : Nat := clampTick M ⌊q⌋

/-- A list of instruments that only has ticks of the table. -/
theorem base_fixed (drum M : Nat) (ts : List (List Msg)) (B : List PInst) (h : loadInstruments drum (fun k => ((clampTick M k : Nat) : ℚ)) ts = .ok B) (f : Nat → ℚ) :
    loadInstruments drum (fun k => f (clampTick M k)) ts = .ok (B.map (PInst.mapT (fun q => f (baseTick M q)))) := by
  have := loadInstruments_mapT (fun q => f (baseTick M q)) drum (fun k => ((clampTick M k : Nat) : ℚ)) ts B h
  rw [← this]
  congr 1
  funext k
  exact table_factor f M k

theorem baseMeta (M : Nat) (t : List Msg) (f : Nat → ℚ) :
    loadMeta (fun k => f (clampTick M k)) t = ((loadMeta (fun k => ((clampTick M k : Nat) : ℚ)) t).1.map (fun p => (p.1, f (baseTick M p.2))),
      (loadMeta (fun k => ((clampTick M k : Nat) : ℚ)) t).2.1.map (fun p => (p.1, p.2.1, f (baseTick M p.2.2))),
      (loadMeta (fun k => ((clampTick M k : Nat) : ℚ)) t).2.2.map (fun p => (p.1, f (baseTick M p.2)))) := by
  have := loadMeta_mapT (fun q => f (baseTick M q)) (fun k => ((clampTick M k : Nat) : ℚ)) t
  rw [← this]
  congr 1
  funext k
  exact table_factor f M k

/-! ### The first track -/

/-- The messages of the first track other than the tempi, by ticks. -/
def metaMsgs (tk : ℚ → Nat) (KS : List (Nat × ℚ)) (TS : List (Int × Int × ℚ)) (LY : List (String × ℚ)) : List Msg :=
  (if TS = [] ∨ ∀ t ∈ TS, 0 < tk t.2.2 then [⟨0, .timeSig 4 4⟩] else []) ++
    (TS.map (fun t => (⟨(tk t.2.2 : Int), .timeSig t.1 t.2.1⟩ : Msg)) ++ KS.map (fun t => (⟨(tk t.2 : Int), .keySig t.1⟩ : Msg)) ++
      LY.map (fun t => (⟨(tk t.2 : Int), .lyrics t.1⟩ : Msg)))

theorem timingW_eq (toTick : ℚ → Py Int) (tempo : ℚ → Py Nat) (g : ℚ → ℚ) (tk : ℚ → Nat) (h : ∀ x, toTick (g x) = .ok (tk x : Int))
    (hz : ∀ x, 0 < g x ↔ 0 < tk x) (pm : PM) (KS : List (Nat × ℚ)) (TS : List (Int × Int × ℚ)) (LY : List (String × ℚ))
    (hk : pm.keySigs = KS.map (fun p => (p.1, g p.2))) (ht : pm.timeSigs = TS.map (fun p => (p.1, p.2.1, g p.2.2))) (hl : pm.lyrics = LY.map (fun p => (p.1, g p.2)))
    (Q : List Msg) (hq : pm.clock.scales.mapM (fun p => do
      let t ← tempo p.2
      pure (⟨(p.1 : Int), .setTempo t⟩ : Msg)) = .ok Q) :
    ∃ l, timingEventsW toTick tempo pm = .ok l ∧ l.Perm (metaMsgs tk KS TS LY ++ Q) := by
  have a1 : pm.timeSigs.mapM (fun t => do
      let k ← toTick t.2.2
      pure (⟨k, .timeSig t.1 t.2.1⟩ : Msg)) = .ok (TS.map (fun t => (⟨(tk t.2.2 : Int), .timeSig t.1 t.2.1⟩ : Msg))) := by
    rw [ht, List.mapM_map]
    exact mapM_map _ _ TS (fun a _ => by simp only [Function.comp, h]; rfl)
  have a2 : pm.keySigs.mapM (fun t => do
      let k ← toTick t.2
      pure (⟨k, .keySig t.1⟩ : Msg)) = .ok (KS.map (fun t => (⟨(tk t.2 : Int), .keySig t.1⟩ : Msg))) := by
    rw [hk, List.mapM_map]
    exact mapM_map _ _ KS (fun a _ => by simp only [Function.comp, h]; rfl)
  have a3 : pm.lyrics.mapM (fun t => do
      let k ← toTick t.2
      pure (⟨k, .lyrics t.1⟩ : Msg)) = .ok (LY.map (fun t => (⟨(tk t.2 : Int), .lyrics t.1⟩ : Msg))) := by
    rw [hl, List.mapM_map]
    exact mapM_map _ _ LY (fun a _ => by simp only [Function.comp, h]; rfl)
  have hc : (pm.timeSigs = [] ∨ ∀ t ∈ pm.timeSigs, 0 < t.2.2) ↔ (TS = [] ∨ ∀ t ∈ TS, 0 < tk t.2.2) := by
    rw [ht]
    simp only [List.map_eq_nil_iff, List.forall_mem_map, hz]
  unfold timingEventsW
  rw [hq, a1, a2, a3]
  refine ⟨_, rfl, ?_⟩
  unfold metaMsgs
  simp only [hc]
  generalize (if TS = [] ∨ ∀ t ∈ TS, 0 < tk t.2.2 then [(⟨0, .timeSig 4 4⟩ : Msg)] else []) = D
  rw [List.perm_iff_count]
  intro a
  simp only [List.count_append]
  omega

theorem metaMsgs_no_tempo (tk : ℚ → Nat) (KS : List (Nat × ℚ)) (TS : List (Int × Int × ℚ)) (LY : List (String × ℚ)) :
    ∀ m ∈ metaMsgs tk KS TS LY, 0 ≤ m.time ∧ ∀ t, m.body ≠ .setTempo t := by
  intro m hm
  unfold metaMsgs at hm
  simp only [List.mem_append, List.mem_map] at hm
  rcases hm with hm | ((⟨x, _, rfl⟩ | ⟨x, _, rfl⟩) | ⟨x, _, rfl⟩)
  · split at hm
    · simp only [List.mem_singleton] at hm
      subst hm
      exact ⟨le_refl _, by simp⟩
    · cases hm
  all_goals exact ⟨by simp, by simp⟩

/-- The first track: sorted, with an end one tick after the last message. -/
theorem first_track (srt : List Msg → List Msg) (hsrt : IsCmpSort eventLt srt) (C : List Msg) (hC : ∀ m ∈ C, 0 ≤ m.time ∧ ∀ t, m.body ≠ .setTempo t)
    (Q : List (Nat × Nat)) (hQ : Q ≠ []) (l : List Msg) (hl : l.Perm (C ++ toMsgs Q)) :
    ∃ (e : Int) (t0 : List Msg), addEnd (srt l) = .ok t0 ∧ t0.Pairwise (fun a b => a.time ≤ b.time) ∧
      (Spec.others t0).Perm (C ++ [⟨e + 1, .endOfTrack⟩]) ∧ (Spec.tempoEvents t0).Perm Q ∧
      ((∃ m ∈ C, m.time = e) ∨ ∃ p ∈ Q, (p.1 : Int) = e) ∧ (∀ m ∈ C, m.time ≤ e) ∧ ∀ p ∈ Q, (p.1 : Int) ≤ e := by
  have hp := (hsrt.perm l).trans hl
  have hmem : ∀ m, m ∈ srt l ↔ m ∈ C ∨ m ∈ toMsgs Q := by
    intro m; rw [hp.mem_iff, List.mem_append]
  have hnn : ∀ m ∈ srt l, 0 ≤ m.time := by
    intro m hm
    rcases (hmem m).1 hm with g | g
    · exact (hC m g).1
    · obtain ⟨p, _, rfl⟩ := List.mem_map.1 g
      simp
  have hne : srt l ≠ [] := by
    intro h0
    rw [h0] at hp
    have := List.nil_perm.1 hp
    simp [toMsgs, hQ] at this
  have hs := cmpSort_time srt hsrt l
  obtain ⟨e, a1, a2, a3⟩ := addEnd_ok _ hne hnn hs
  refine ⟨e.time, _, a1, end_sorted _ e hs a3, ?_, ?_, ?_, ?_, ?_⟩
  · unfold Spec.others
    rw [List.filter_append]
    refine List.Perm.append ?_ (List.Perm.refl _)
    refine (hp.filter _).trans ?_
    rw [List.filter_append]
    have f1 : C.filter (fun m => match m.body with | .setTempo _ => false | _ => true) = C := by
      rw [List.filter_eq_self]
      intro m hm
      have := (hC m hm).2
      split
      · rename_i t ht; exact absurd ht (this t)
      · rfl
    have f2 : (toMsgs Q).filter (fun m => match m.body with | .setTempo _ => false | _ => true) = [] := by
      rw [List.filter_eq_nil_iff]
      intro m hm
      obtain ⟨p, _, rfl⟩ := List.mem_map.1 hm
      simp
    rw [f1, f2, List.append_nil]
  · rw [tempoEvents_append, show Spec.tempoEvents [⟨e.time + 1, .endOfTrack⟩] = [] from rfl, List.append_nil]
    have h1 : (Spec.tempoEvents (srt l)).Perm (Spec.tempoEvents (C ++ toMsgs Q)) := hp.filterMap _
    rw [tempoEvents_append, tempoEvents_none C (fun m hm => (hC m hm).2), events_toMsgs] at h1
    exact h1
  · rcases (hmem e).1 a2 with g | g
    · exact Or.inl ⟨e, g, rfl⟩
    · obtain ⟨p, hp, rfl⟩ := List.mem_map.1 g
      exact Or.inr ⟨p, hp, rfl⟩
  · intro m hm
    exact a3 m ((hmem m).2 (Or.inl hm))
  · intro p hp
    exact a3 ⟨(p.1 : Int), .setTempo p.2⟩ ((hmem _).2 (Or.inr (List.mem_map.2 ⟨p, hp, rfl⟩)))

end NGC
