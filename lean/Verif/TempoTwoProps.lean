import Verif.TempoTwo
import Verif.PrettyMidiProps

/-!
C187: the second reader of tempo events.
-/

namespace NGC

namespace Spec

/-- The tempo at the beginning: of the first tempo event if it is at tick 0, else half a second per quarter note. -/
def openingTempo (track : List Msg) : Nat :=
  match tempoEvents track with
  | (0, t) :: _ => t
  | _ => 500000

/-- The first event of the track sets a tempo. -/
def TempoFirst (track : List Msg) : Prop := ∃ tick tempo rest, track = ⟨tick, .setTempo tempo⟩ :: rest

/-- The last tempo up to tick `k` that differs from the opening one, else the opening one. -/
def lastOtherTempo (track : List Msg) (k : Nat) : Nat :=
  (((tempoEvents track).filter (fun p => decide (p.1 ≤ k ∧ p.2 ≠ openingTempo track))).getLast?.map Prod.snd).getD (openingTempo track)

end Spec

theorem tempoScales_eq (res : Nat) (hr : 0 < res) (track : List Msg) (ht : ∀ e ∈ track, e.body ≠ .setTempo 0) :
    tempoScales res track = .ok ((Spec.tempoEvents track).map (fun p => (p.1, Spec.perTick res p.2))) := by
  induction track with
  | nil => rfl
  | cons e es ih =>
    have ih' := ih (fun x hx => ht x (List.mem_cons_of_mem _ hx))
    have h0 := ht e List.mem_cons_self
    unfold tempoScales Spec.tempoEvents
    rw [List.filterMap_cons]
    cases hb : e.body with
    | setTempo t =>
      have : t ≠ 0 := fun h => h0 (by rw [hb, h])
      simp only [tickScale_eq res t hr this, ih']
      rfl
    | _ => exact ih'

theorem perTick_eq_iff (res : Nat) (hr : 0 < res) (a b : Nat) : Spec.perTick res a = Spec.perTick res b ↔ a = b := by
  unfold Spec.perTick
  have h1 : (res : ℚ) ≠ 0 := by exact_mod_cast (by omega : res ≠ 0)
  constructor
  · intro h
    field_simp at h
    exact_mod_cast h
  · rintro rfl; rfl

theorem filter_map_perTick (res : Nat) (hr : 0 < res) (t0 : Nat) (l : List (Nat × Nat)) :
    (l.map (fun p => (p.1, Spec.perTick res p.2))).filter (fun p => decide (p.2 ≠ Spec.perTick res t0)) =
      (l.filter (fun p => decide (p.2 ≠ t0))).map (fun p => (p.1, Spec.perTick res p.2)) := by
  induction l with
  | nil => rfl
  | cons p l ih =>
    by_cases h : p.2 = t0
    · rw [List.map_cons, List.filter_cons_of_neg (by simp [h]), List.filter_cons_of_neg (by simp [h]), ih]
    · rw [List.map_cons, List.filter_cons_of_pos (by simpa [perTick_eq_iff res hr] using h), List.filter_cons_of_pos (by simpa using h), List.map_cons, ih]

/-- What is read. -/
theorem loadTempo2_eq (res : Nat) (hr : 0 < res) (track : List Msg) (ht : ∀ e ∈ track, e.body ≠ .setTempo 0)
    (hf : (∃ t rest, Spec.tempoEvents track = (0, t) :: rest) → ∃ t rest, Spec.tempoEvents track = (0, t) :: rest ∧ firstTempo track = .ok t ∧ t ≠ 0) :
    loadTempo2 res track = .ok ((0, Spec.perTick res (Spec.openingTempo track)) ::
      ((Spec.tempoEvents track).filter (fun p => decide (p.2 ≠ Spec.openingTempo track))).map (fun p => (p.1, Spec.perTick res p.2))) := by
  have hd : (60 : ℚ) / (120 * (res : ℚ)) = Spec.perTick res 500000 := by
    unfold Spec.perTick
    have h1 : (res : ℚ) ≠ 0 := by exact_mod_cast (by omega : res ≠ 0)
    field_simp; norm_num
  unfold loadTempo2
  rw [if_neg (by omega), tempoScales_eq res hr track ht, hd]
  by_cases hz : ∃ t rest, Spec.tempoEvents track = (0, t) :: rest
  · obtain ⟨t, rest, he, hft, ht0⟩ := hf hz
    have ho : Spec.openingTempo track = t := by unfold Spec.openingTempo; simp only [he]
    rw [ho, he]
    simp only [bind, Except.bind, List.map_cons, hft, tickScale_eq res t hr ht0]
    rw [filter_map_perTick res hr, List.filter_cons_of_neg (by simp)]
  · have ho : Spec.openingTempo track = 500000 := by
      unfold Spec.openingTempo
      split
      · rename_i h; exact absurd ⟨_, _, h⟩ hz
      · rfl
    rw [ho, ← filter_map_perTick res hr]
    simp only [bind, Except.bind]
    split
    · rename_i h
      exfalso
      cases hl : Spec.tempoEvents track with
      | nil => rw [hl] at h; cases h
      | cons p l =>
        obtain ⟨p1, p2⟩ := p
        rw [hl] at h
        simp only [List.map_cons, List.cons.injEq, Prod.mk.injEq] at h
        exact hz ⟨p2, l, by rw [hl, h.1.1]⟩
    · rfl

theorem tempoEvents_mem (track : List Msg) (p : Nat × Nat) (hp : p ∈ Spec.tempoEvents track) : ∃ e ∈ track, p.1 = e.time.toNat ∧ e.body = .setTempo p.2 := by
  unfold Spec.tempoEvents at hp
  rw [List.mem_filterMap] at hp
  obtain ⟨e, he, h⟩ := hp
  refine ⟨e, he, ?_⟩
  cases hb : e.body <;> rw [hb] at h <;> simp at h
  subst h
  exact ⟨rfl, rfl⟩

theorem tempoEvents_sorted (track : List Msg) (hg : Spec.GoodTrack track) : (Spec.tempoEvents track).Pairwise (fun a b => a.1 ≤ b.1) := by
  unfold Spec.tempoEvents
  rw [List.pairwise_filterMap]
  refine hg.order.imp ?_
  intro a b h x hx y hy
  have hx' : x.1 = a.time.toNat := by cases hb : a.body <;> rw [hb] at hx <;> simp at hx; subst hx; rfl
  have hy' : y.1 = b.time.toNat := by cases hb : b.body <;> rw [hb] at hy <;> simp at hy; subst hy; rfl
  omega

theorem tempoEvents_zero_first (track : List Msg) (hg : Spec.GoodTrack track) (t : Nat) (h : (0, t) ∈ Spec.tempoEvents track) :
    ∃ t' rest, Spec.tempoEvents track = (0, t') :: rest := by
  have hs := tempoEvents_sorted track hg
  cases hl : Spec.tempoEvents track with
  | nil => rw [hl] at h; cases h
  | cons p l =>
    rw [hl] at h hs
    obtain ⟨p1, p2⟩ := p
    rcases List.mem_cons.1 h with h | h
    · injection h with h1 h2; exact ⟨p2, l, by rw [h1]⟩
    · have := (List.pairwise_cons.1 hs).1 _ h
      have : p1 = 0 := by simpa using this
      exact ⟨p2, l, by rw [this]⟩

/-- The first event sets the opening tempo. -/
theorem tempoFirst_opening (track : List Msg) (hg : Spec.GoodTrack track) (hf : Spec.TempoFirst track) (t : Nat) (rest : List (Nat × Nat))
    (h : Spec.tempoEvents track = (0, t) :: rest) : firstTempo track = .ok t ∧ t ≠ 0 := by
  obtain ⟨tick, tempo, r, rfl⟩ := hf
  have h' : Spec.tempoEvents (⟨tick, .setTempo tempo⟩ :: r) = (tick.toNat, tempo) :: Spec.tempoEvents r := rfl
  rw [h'] at h
  injection h with h1 h2
  injection h1 with h3 h4
  subst h4
  exact ⟨rfl, fun h0 => hg.tempo _ List.mem_cons_self (by rw [h0])⟩

theorem loadTempo2_refused (res : Nat) (hr : 0 < res) (track : List Msg) (hg : Spec.GoodTrack track) (t : Nat) (h : (0, t) ∈ Spec.tempoEvents track)
    (hf : ¬ Spec.TempoFirst track) : loadTempo2 res track = .error .attribute := by
  obtain ⟨t', rest, he⟩ := tempoEvents_zero_first track hg t h
  have hft : firstTempo track = .error .attribute := by
    cases track with
    | nil => cases he
    | cons e es =>
      obtain ⟨tick, body⟩ := e
      unfold firstTempo
      cases body with
      | setTempo x => exact absurd ⟨tick, x, es, rfl⟩ hf
      | _ => rfl
  unfold loadTempo2
  rw [if_neg (by omega), tempoScales_eq res hr track hg.tempo, he]
  simp only [bind, Except.bind, List.map_cons, hft]

theorem loadTempo2_good (res : Nat) (hr : 0 < res) (track : List Msg) (hg : Spec.GoodTrack track)
    (h : ¬ ((∃ tempo, (0, tempo) ∈ Spec.tempoEvents track) ∧ ¬ Spec.TempoFirst track)) :
    loadTempo2 res track = .ok ((0, Spec.perTick res (Spec.openingTempo track)) ::
      ((Spec.tempoEvents track).filter (fun p => decide (p.2 ≠ Spec.openingTempo track))).map (fun p => (p.1, Spec.perTick res p.2))) := by
  refine loadTempo2_eq res hr track hg.tempo ?_
  rintro ⟨t, rest, he⟩
  have hf : Spec.TempoFirst track := by
    by_contra hf
    exact h ⟨⟨t, by rw [he]; exact List.mem_cons_self⟩, hf⟩
  exact ⟨t, rest, he, tempoFirst_opening track hg hf t rest he⟩

/-- **C187, when it raises.** On a track in order without zero tempos: AttributeError exactly if there is a tempo event at tick 0 but the first event of the track is none; otherwise a
tempo map comes out. A resolution of 0 is ZeroDivisionError. -/
theorem C187_raises (res : Nat) (track : List Msg) (hg : Spec.GoodTrack track) :
    loadTempo2 0 track = .error .zeroDiv ∧
    (0 < res → (loadTempo2 res track = .error .attribute ↔ (∃ tempo, (0, tempo) ∈ Spec.tempoEvents track) ∧ ¬ Spec.TempoFirst track) ∧
      (loadTempo2 res track ≠ .error .attribute → ∃ scales, loadTempo2 res track = .ok scales ∧ Spec.TempoMap scales)) := by
  refine ⟨rfl, fun hr => ?_⟩
  by_cases h : (∃ tempo, (0, tempo) ∈ Spec.tempoEvents track) ∧ ¬ Spec.TempoFirst track
  · obtain ⟨⟨t, ht⟩, hf⟩ := h
    have := loadTempo2_refused res hr track hg t ht hf
    exact ⟨⟨fun _ => ⟨⟨t, ht⟩, hf⟩, fun _ => this⟩, fun h => absurd this h⟩
  · have hl := loadTempo2_good res hr track hg h
    refine ⟨⟨fun he => absurd (he.symm.trans hl) (by simp), fun h' => absurd h' h⟩, fun _ => ⟨_, hl, ⟨⟨_, _, rfl⟩, ?_, ?_⟩⟩⟩
    · rw [List.pairwise_cons]
      refine ⟨fun p _ => Nat.zero_le _, ?_⟩
      rw [List.pairwise_map]
      exact ((tempoEvents_sorted track hg).filter _).imp (fun h => h)
    · have pos : ∀ t : Nat, t ≠ 0 → 0 < Spec.perTick res t := by
        intro t ht
        unfold Spec.perTick
        have : (0 : ℚ) < t := by exact_mod_cast Nat.pos_of_ne_zero ht
        have : (0 : ℚ) < res := by exact_mod_cast hr
        positivity
      have hev : ∀ p ∈ Spec.tempoEvents track, p.2 ≠ 0 := by
        intro p hp h0
        obtain ⟨e, he, _, hb⟩ := tempoEvents_mem track p hp
        exact hg.tempo e he (by rw [hb, h0])
      intro p hp
      rcases List.mem_cons.1 hp with rfl | hp
      · refine pos _ ?_
        unfold Spec.openingTempo
        split
        · rename_i t r he; exact hev (0, t) (by rw [he]; exact List.mem_cons_self)
        · decide
      · obtain ⟨q, hq, rfl⟩ := List.mem_map.1 hp
        exact pos _ (hev q (List.mem_filter.1 hq).1)

/-- **C187, what is read.** The map gives at every tick the last tempo up to there that differs from the opening one. So it agrees with the tempo in force exactly where this is not the opening
tempo again after another one (defect: a return to the opening tempo is lost). -/
theorem C187_read (res : Nat) (hr : 0 < res) (track : List Msg) (hg : Spec.GoodTrack track) (scales : List (Nat × ℚ)) (h : loadTempo2 res track = .ok scales) (k : Nat) :
    Spec.scaleAt scales k = Spec.perTick res (Spec.lastOtherTempo track k) ∧
    (Spec.scaleAt scales k = Spec.tempoInForce res track k ↔
      Spec.tempoInForce res track k ≠ Spec.perTick res (Spec.openingTempo track) ∨ ∀ p ∈ Spec.tempoEvents track, p.1 ≤ k → p.2 = Spec.openingTempo track) := by
  have hn : ¬ ((∃ tempo, (0, tempo) ∈ Spec.tempoEvents track) ∧ ¬ Spec.TempoFirst track) := by
    rintro ⟨⟨t, ht⟩, hf⟩
    rw [loadTempo2_refused res hr track hg t ht hf] at h; cases h
  have hs := Except.ok.inj (h.symm.trans (loadTempo2_good res hr track hg hn))
  have h1 : Spec.scaleAt scales k = Spec.perTick res (Spec.lastOtherTempo track k) := by
    rw [hs]
    unfold Spec.scaleAt Spec.lastOtherTempo
    rw [List.filter_cons_of_pos (by simp), List.filter_map, List.filter_filter]
    have hc : ((Spec.tempoEvents track).filter (fun a => ((fun p : Nat × ℚ => decide (p.1 ≤ k)) ∘ fun p : Nat × Nat => (p.1, Spec.perTick res p.2)) a && decide (a.2 ≠ Spec.openingTempo track))) =
        (Spec.tempoEvents track).filter (fun p => decide (p.1 ≤ k ∧ p.2 ≠ Spec.openingTempo track)) := by
      congr 1; funext p; simp
    rw [hc]
    cases hl : (Spec.tempoEvents track).filter (fun p => decide (p.1 ≤ k ∧ p.2 ≠ Spec.openingTempo track)) with
    | nil => rfl
    | cons q l => simp [List.getLast?_cons, List.getLast?_map]
  refine ⟨h1, ?_⟩
  rw [h1]
  have hfil : (Spec.tempoEvents track).filter (fun p => decide (p.1 ≤ k ∧ p.2 ≠ Spec.openingTempo track)) =
      ((Spec.tempoEvents track).filter (fun p => decide (p.1 ≤ k))).filter (fun p => decide (p.2 ≠ Spec.openingTempo track)) := by
    rw [List.filter_filter]; congr 1; funext p; simp [Bool.and_comm]
  have hmem : (∀ p ∈ Spec.tempoEvents track, p.1 ≤ k → p.2 = Spec.openingTempo track) ↔
      ∀ p ∈ (Spec.tempoEvents track).filter (fun p => decide (p.1 ≤ k)), p.2 = Spec.openingTempo track := by
    simp [List.mem_filter]
    
  rw [hmem]
  have hopen : ∀ l : List (Nat × Nat), (Spec.tempoEvents track).filter (fun p => decide (p.1 ≤ k)) = l → l = [] → Spec.openingTempo track = 500000 := by
    intro l hl hnil
    unfold Spec.openingTempo
    split
    · rename_i t r he
      rw [he] at hl
      rw [List.filter_cons_of_pos (by simp)] at hl
      rw [← hl] at hnil; cases hnil
    · rfl
  unfold Spec.lastOtherTempo Spec.tempoInForce
  rw [hfil]
  generalize hl : (Spec.tempoEvents track).filter (fun p => decide (p.1 ≤ k)) = l at hopen ⊢
  have hop := hopen l rfl
  generalize Spec.openingTempo track = o at hop ⊢
  rcases List.eq_nil_or_concat l with rfl | ⟨l', q, rfl⟩
  · simp [hop rfl]
  · simp only [List.concat_eq_append, List.filter_append, List.getLast?_append, List.getLast?_singleton, Option.some_or]
    by_cases hq : q.2 = o
    · rw [List.filter_cons_of_neg (by simp [hq])]
      simp only [List.filter_nil, List.getLast?_nil, Option.none_or, perTick_eq_iff res hr, hq, ne_eq, not_true_eq_false, false_or]
      constructor
      · intro he p hp
        rcases List.mem_append.1 hp with hp | hp
        · by_contra hne
          have hmem : p ∈ l'.filter (fun p => decide (¬ p.2 = o)) := List.mem_filter.2 ⟨hp, by simpa using hne⟩
          obtain ⟨z, hz⟩ := (⟨_, List.getLast?_eq_some_getLast (List.ne_nil_of_mem hmem)⟩ : ∃ z, (l'.filter (fun p => decide (¬ p.2 = o))).getLast? = some z)
          rw [hz] at he
          have := (List.mem_filter.1 (List.mem_of_getLast? hz)).2
          simp at this he
          exact this he
        · rw [List.mem_singleton.1 hp]; exact hq
      · intro hall
        rw [List.filter_eq_nil_iff.2 (fun p hp => by simp [hall p (List.mem_append_left _ hp)])]
        rfl
    · rw [List.filter_cons_of_pos (by simpa using hq)]
      simp [perTick_eq_iff res hr, hq]

/-- **C187, both readers.** If no tempo event sets the opening tempo again after another tempo, both readers give the same speed at every tick. -/
theorem C187_agree (res : Nat) (hr : 0 < res) (track : List Msg) (hg : Spec.GoodTrack track) (s1 s2 : List (Nat × ℚ)) (h1 : loadTempo res track = .ok s1) (h2 : loadTempo2 res track = .ok s2) :
    (∀ k, Spec.scaleAt s1 k = Spec.scaleAt s2 k) ↔
      ∀ k, Spec.tempoInForce res track k ≠ Spec.perTick res (Spec.openingTempo track) ∨ ∀ p ∈ Spec.tempoEvents track, p.1 ≤ k → p.2 = Spec.openingTempo track := by
  obtain ⟨s, g1, _, _, g4⟩ := C60_tempo_map res hr track hg
  have := Except.ok.inj (g1.symm.trans h1)
  subst this
  refine forall_congr' fun k => ?_
  rw [g4 k, ← (C187_read res hr track hg s2 h2 k).2]
  exact eq_comm

/-- A track that returns to its first tempo at tick 480. -/
def exReturnTrack : List Msg := [⟨0, .setTempo 500000⟩, ⟨240, .setTempo 250000⟩, ⟨480, .setTempo 500000⟩, ⟨960, .noteOn 0 60 64⟩]

/-- The return is lost; the other reader has it. -/
example : Spec.GoodTrack exReturnTrack ∧ loadTempo2 480 exReturnTrack = .ok [(0, 1 / 960), (240, 1 / 1920)] ∧ loadTempo 480 exReturnTrack = .ok [(0, 1 / 960), (240, 1 / 1920), (480, 1 / 960)] :=
  ⟨⟨by decide, by decide, by decide⟩, by decide +kernel, by decide +kernel⟩

/-- A track whose first event is not the tempo. -/
example : Spec.GoodTrack (⟨0, .noteOn 0 60 64⟩ :: exReturnTrack) ∧ loadTempo2 480 (⟨0, .noteOn 0 60 64⟩ :: exReturnTrack) = .error .attribute :=
  ⟨⟨by decide, by decide, by decide⟩, by decide +kernel⟩

end NGC
