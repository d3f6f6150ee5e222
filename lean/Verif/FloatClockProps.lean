import Verif.FloatOps
import Verif.Float64Lemmas
import Verif.PrettyMidiProps
import Mathlib.Algebra.Order.Ring.Pow

/-!
Ticks and seconds in floats (C155): how far the float times of ticks are from the exact ones.
-/

namespace NGC

/-! ### Relative error after `k` roundings -/

/-- The relative error of one rounding. -/
def u64 : ℚ := 1 / 2 ^ (53 : Nat)

/-- `y` is within `k` relative roundings of `x`. -/
def Rel (k : Nat) (x y : ℚ) : Prop := x * (1 - u64) ^ k ≤ y ∧ y ≤ x * (1 + u64) ^ k

theorem u64_pos : 0 < u64 := by unfold u64; norm_num
theorem u64_small : u64 ≤ 1 / 4 := by unfold u64; norm_num

theorem lo_pos (k : Nat) : 0 < (1 - u64) ^ k := pow_pos (by linarith [u64_small]) k
theorem lo_le_one (k : Nat) : (1 - u64) ^ k ≤ 1 := pow_le_one₀ (by linarith [u64_small]) (by linarith [u64_pos])
theorem hi_ge_one (k : Nat) : 1 ≤ (1 + u64) ^ k := one_le_pow₀ (by linarith [u64_pos])

theorem Rel.refl (x : ℚ) : Rel 0 x x := by simp [Rel]

theorem Rel.nonneg {k : Nat} {x y : ℚ} (h : Rel k x y) (hx : 0 ≤ x) : 0 ≤ y :=
  le_trans (mul_nonneg hx (lo_pos k).le) h.1

theorem Rel.pos {k : Nat} {x y : ℚ} (h : Rel k x y) (hx : 0 < x) : 0 < y :=
  lt_of_lt_of_le (mul_pos hx (lo_pos k)) h.1

theorem Rel.mono {k l : Nat} {x y : ℚ} (h : Rel k x y) (hx : 0 ≤ x) (hkl : k ≤ l) : Rel l x y := by
  constructor
  · refine le_trans (mul_le_mul_of_nonneg_left ?_ hx) h.1
    exact pow_le_pow_of_le_one (by linarith [u64_small]) (by linarith [u64_pos]) hkl
  · refine le_trans h.2 (mul_le_mul_of_nonneg_left ?_ hx)
    exact pow_le_pow_right₀ (by linarith [u64_pos]) hkl

theorem Rel.trans {k l : Nat} {x y z : ℚ} (h : Rel k x y) (g : Rel l y z) : Rel (k + l) x z := by
  constructor
  · rw [pow_add, ← mul_assoc]
    exact le_trans (mul_le_mul_of_nonneg_right h.1 (lo_pos l).le) g.1
  · rw [pow_add, ← mul_assoc]
    exact le_trans g.2 (mul_le_mul_of_nonneg_right h.2 (by linarith [hi_ge_one l]))

theorem Rel.add {k : Nat} {x y x' y' : ℚ} (h : Rel k x y) (g : Rel k x' y') : Rel k (x + x') (y + y') := by
  constructor
  · rw [add_mul]; exact add_le_add h.1 g.1
  · rw [add_mul]; exact add_le_add h.2 g.2

theorem Rel.mul_right {k : Nat} {x y : ℚ} (h : Rel k x y) {c : ℚ} (hc : 0 ≤ c) : Rel k (x * c) (y * c) := by
  constructor
  · rw [mul_right_comm]; exact mul_le_mul_of_nonneg_right h.1 hc
  · rw [mul_right_comm]; exact mul_le_mul_of_nonneg_right h.2 hc

theorem b64_rel {x : ℚ} (hx : 0 ≤ x) : Rel 1 x (b64 x) := by
  have e := b64_err x
  rw [abs_of_nonneg hx, abs_le] at e
  unfold Rel u64
  rw [pow_one, pow_one]
  constructor <;> linarith [e.1, e.2]

theorem inv_lo (k : Nat) : (1 - u64) ^ (2 * k) * (1 + u64) ^ k ≤ 1 := by
  rw [pow_mul, ← mul_pow]
  refine pow_le_one₀ ?_ ?_
  · have := u64_small; have := u64_pos; positivity
  · have h1 := u64_small; have h2 := u64_pos
    nlinarith [mul_pos h2 h2, mul_pos h2 (mul_pos h2 h2)]

theorem inv_hi (k : Nat) : 1 ≤ (1 + u64) ^ (2 * k) * (1 - u64) ^ k := by
  rw [pow_mul, ← mul_pow]
  refine one_le_pow₀ ?_
  have h1 := u64_small; have h2 := u64_pos
  nlinarith [mul_pos h2 h2, mul_pos h2 (mul_pos h2 h2)]

theorem Rel.div {k : Nat} {x y : ℚ} (h : Rel k x y) (hx : 0 < x) {a : ℚ} (ha : 0 ≤ a) : Rel (2 * k) (a / x) (a / y) := by
  have hy := h.pos hx
  constructor
  · rw [div_mul_eq_mul_div, div_le_div_iff₀ hx hy, mul_assoc]
    refine mul_le_mul_of_nonneg_left ?_ ha
    calc (1 - u64) ^ (2 * k) * y ≤ (1 - u64) ^ (2 * k) * (x * (1 + u64) ^ k) := mul_le_mul_of_nonneg_left h.2 (lo_pos _).le
      _ = x * ((1 - u64) ^ (2 * k) * (1 + u64) ^ k) := by ring
      _ ≤ x * 1 := mul_le_mul_of_nonneg_left (inv_lo k) hx.le
      _ = x := mul_one x
  · rw [div_mul_eq_mul_div, div_le_div_iff₀ hy hx, mul_assoc]
    refine mul_le_mul_of_nonneg_left ?_ ha
    have p : 0 ≤ (1 + u64) ^ (2 * k) := by linarith [hi_ge_one (2 * k)]
    calc x = x * 1 := (mul_one x).symm
      _ ≤ x * ((1 + u64) ^ (2 * k) * (1 - u64) ^ k) := mul_le_mul_of_nonneg_left (inv_hi k) hx.le
      _ = (1 + u64) ^ (2 * k) * (x * (1 - u64) ^ k) := by ring
      _ ≤ (1 + u64) ^ (2 * k) * y := mul_le_mul_of_nonneg_left h.1 p

/-- The readable form of `Rel`: `k` roundings cost at most `k` parts in 2^52. -/
theorem Rel.err {k : Nat} {x y : ℚ} (h : Rel k x y) (hx : 0 ≤ x) (hk : k ≤ 2 ^ (52 : Nat)) :
    |y - x| ≤ x * (k / 2 ^ (52 : Nat)) := by
  have hkq : (k : ℚ) ≤ 2 ^ (52 : Nat) := by exact_mod_cast hk
  have k0 : (0 : ℚ) ≤ k := Nat.cast_nonneg k
  have lo : 1 - k * u64 ≤ (1 - u64) ^ k := by
    have := one_add_mul_le_pow (a := -u64) (by linarith [u64_small]) k
    have e1 : 1 + (k : ℚ) * -u64 = 1 - k * u64 := by ring
    have e2 : 1 + -u64 = 1 - u64 := by ring
    rw [e1, e2] at this
    exact this
  have ku : (k : ℚ) * u64 ≤ 1 / 2 := by
    unfold u64
    rw [mul_one_div, div_le_iff₀ (by norm_num)]
    exact le_trans hkq (by norm_num)
  have ku0 : 0 ≤ (k : ℚ) * u64 := mul_nonneg k0 u64_pos.le
  have hi : (1 + u64) ^ k ≤ 1 + 2 * (k * u64) := by
    have p : (1 + u64) ^ k * (1 - u64) ^ k ≤ 1 := by
      rw [← mul_pow]
      refine pow_le_one₀ ?_ ?_
      · have := u64_small; have := u64_pos; exact mul_nonneg (by linarith) (by linarith)
      · nlinarith [u64_pos]
    have q : (1 + u64) ^ k * (1 - k * u64) ≤ 1 := le_trans (mul_le_mul_of_nonneg_left lo (by linarith [hi_ge_one k])) p
    have r : 1 ≤ (1 + 2 * (k * u64)) * (1 - k * u64) := by nlinarith
    have s : 0 < 1 - (k : ℚ) * u64 := by linarith
    exact le_of_mul_le_mul_right (le_trans q r) s
  have e : (k : ℚ) / 2 ^ (52 : Nat) = 2 * (k * u64) := by unfold u64; ring
  rw [e, abs_le]
  constructor
  · have := le_trans (mul_le_mul_of_nonneg_left lo hx) h.1
    nlinarith
  · have := le_trans h.2 (mul_le_mul_of_nonneg_left hi hx)
    nlinarith

/-! ### The float scale of a tempo -/

/-- The float seconds per tick of a tempo. -/
def scaleF (res tempo : Nat) : ℚ := b64 (60 / b64 (b64 (60000000 / (tempo : ℚ)) * res))

theorem tickScaleF_eq (res tempo : Nat) (hr : 0 < res) (ht : tempo ≠ 0) : tickScaleF res tempo = .ok (scaleF res tempo) := by
  unfold tickScaleF
  rw [if_neg (by omega)]
  rfl

theorem scaleF_default (res : Nat) : b64 (60 / b64 (120 * (res : ℚ))) = scaleF res 500000 := by
  unfold scaleF
  have : b64 (60000000 / ((500000 : Nat) : ℚ)) = 120 := by decide +kernel
  rw [this]

/-- C155: the float seconds per tick are five roundings from the exact ones. -/
theorem scaleF_rel (res tempo : Nat) (hr : 0 < res) (ht : tempo ≠ 0) : Rel 5 (Spec.perTick res tempo) (scaleF res tempo) := by
  have h1 : (0 : ℚ) < res := by exact_mod_cast hr
  have h2 : (0 : ℚ) < tempo := by exact_mod_cast (by omega : 0 < tempo)
  have p1 : (0 : ℚ) < 60000000 / (tempo : ℚ) := by positivity
  have a := (b64_rel p1.le).mul_right h1.le
  have p2 : 0 < b64 (60000000 / (tempo : ℚ)) * res := mul_pos (b64_pos p1) h1
  have b := a.trans (b64_rel p2.le)
  have c := b.div (mul_pos p1 h1) (a := 60) (by norm_num)
  have d := c.trans (b64_rel (div_nonneg (by norm_num) (b64_nonneg p2.le)))
  have e : (60 : ℚ) / (60000000 / (tempo : ℚ) * res) = Spec.perTick res tempo := by
    unfold Spec.perTick
    field_simp
    norm_num
  rw [e] at d
  exact d

/-- Different tempi below 2^24 (three bytes in a MIDI file) have different float scales. -/
theorem scaleF_lt (res s t : Nat) (hr : 0 < res) (hs : s ≠ 0) (hst : s < t) (ht : t ≤ 2 ^ (24 : Nat)) :
    scaleF res s < scaleF res t := by
  have a := ((scaleF_rel res s hr hs).err (perTick_pos res s hr hs).le (by norm_num))
  have b := ((scaleF_rel res t hr (by omega)).err (perTick_pos res t hr (by omega)).le (by norm_num))
  have ps := perTick_pos res s hr hs
  have h1 : (0 : ℚ) < res := by exact_mod_cast hr
  have e : ∀ x : Nat, Spec.perTick res x = x * Spec.perTick res 1 := by
    intro x; unfold Spec.perTick; push_cast; ring
  have p1 := perTick_pos res 1 hr (by decide)
  rw [e s, e t] at *
  generalize Spec.perTick res 1 = c at *
  have hsq : (s : ℚ) + 1 ≤ t := by exact_mod_cast hst
  have htq : (t : ℚ) ≤ 2 ^ (24 : Nat) := by exact_mod_cast ht
  rw [abs_le] at a b
  have sc : (s : ℚ) * c + c ≤ t * c := by nlinarith
  have tc : (t : ℚ) * c ≤ 2 ^ (24 : Nat) * c := mul_le_mul_of_nonneg_right htq p1.le
  norm_num at a b tc ⊢
  linarith [a.1, a.2, b.1, b.2]

theorem scaleF_inj (res s t : Nat) (hr : 0 < res) (hs : s ≠ 0) (ht : t ≠ 0) (hs2 : s ≤ 2 ^ (24 : Nat)) (ht2 : t ≤ 2 ^ (24 : Nat)) :
    scaleF res s = scaleF res t ↔ s = t := by
  constructor
  · intro h
    rcases Nat.lt_trichotomy s t with g | g | g
    · have := scaleF_lt res s t hr hs g ht2; linarith
    · exact g
    · have := scaleF_lt res t s hr ht g hs2; linarith
  · rintro rfl; rfl

theorem perTick_inj (res s t : Nat) (hr : 0 < res) : Spec.perTick res s = Spec.perTick res t ↔ s = t := by
  have h1 : (res : ℚ) ≠ 0 := by exact_mod_cast (by omega : res ≠ 0)
  unfold Spec.perTick
  constructor
  · intro h
    have h2 : (s : ℚ) = t := by
      have := congrArg (fun q : ℚ => q * res * 1000000) h
      field_simp at this
      exact this
    exact_mod_cast h2
  · rintro rfl; rfl

/-! ### The tempo map -/

/-- A MIDI tempo: three bytes, not zero. -/
def TempoOk (e : Msg) : Prop := ∀ t, e.body = .setTempo t → t ≠ 0 ∧ t ≤ 2 ^ (24 : Nat)

theorem tempoFold (res : Nat) (hr : 0 < res) (track : List Msg) : (∀ e ∈ track, TempoOk e) → ∀ T : List (Nat × Nat), T ≠ [] →
    (∀ p ∈ T, p.2 ≠ 0 ∧ p.2 ≤ 2 ^ (24 : Nat)) →
    ∃ T' : List (Nat × Nat), (∀ p ∈ T', p.2 ≠ 0 ∧ p.2 ≤ 2 ^ (24 : Nat)) ∧
      track.foldlM (tempoStep res) (T.map (fun p => (p.1, Spec.perTick res p.2))) =
        .ok (T'.map (fun p => (p.1, Spec.perTick res p.2))) ∧
      track.foldlM (tempoStepF res) (T.map (fun p => (p.1, scaleF res p.2))) =
        .ok (T'.map (fun p => (p.1, scaleF res p.2))) := by
  induction track with
  | nil => intro _ T _ h; exact ⟨T, h, rfl, rfl⟩
  | cons e es ih =>
    intro hok T hne hT
    have hes : ∀ x ∈ es, TempoOk x := fun x hx => hok x (List.mem_cons_of_mem _ hx)
    have step : ∃ T1 : List (Nat × Nat), T1 ≠ [] ∧ (∀ p ∈ T1, p.2 ≠ 0 ∧ p.2 ≤ 2 ^ (24 : Nat)) ∧
        tempoStep res (T.map (fun p => (p.1, Spec.perTick res p.2))) e = .ok (T1.map (fun p => (p.1, Spec.perTick res p.2))) ∧
        tempoStepF res (T.map (fun p => (p.1, scaleF res p.2))) e = .ok (T1.map (fun p => (p.1, scaleF res p.2))) := by
      by_cases hb : ∃ t, e.body = .setTempo t
      · obtain ⟨t, ht⟩ := hb
        obtain ⟨t0, t2⟩ := hok e List.mem_cons_self t ht
        obtain ⟨p, hp⟩ : ∃ p, T.getLast? = some p := ⟨_, List.getLast?_eq_some_getLast hne⟩
        have hpT := hT p (List.mem_of_getLast? hp)
        have l1 : (T.map (fun p => (p.1, Spec.perTick res p.2))).getLast? = some (p.1, Spec.perTick res p.2) := by
          rw [List.getLast?_map, hp]; rfl
        have l2 : (T.map (fun p => (p.1, scaleF res p.2))).getLast? = some (p.1, scaleF res p.2) := by
          rw [List.getLast?_map, hp]; rfl
        have s1 : tempoStep res (T.map (fun p => (p.1, Spec.perTick res p.2))) e =
            if e.time = 0 then .ok [(0, Spec.perTick res t)]
            else if Spec.perTick res t ≠ Spec.perTick res p.2 then
              .ok (T.map (fun p => (p.1, Spec.perTick res p.2)) ++ [(e.time.toNat, Spec.perTick res t)])
            else .ok (T.map (fun p => (p.1, Spec.perTick res p.2))) := by
          unfold tempoStep
          simp only [ht, tickScale_eq res t hr t0, bind, Except.bind, l1]
        have s2 : tempoStepF res (T.map (fun p => (p.1, scaleF res p.2))) e =
            if e.time = 0 then .ok [(0, scaleF res t)]
            else if scaleF res t ≠ scaleF res p.2 then
              .ok (T.map (fun p => (p.1, scaleF res p.2)) ++ [(e.time.toNat, scaleF res t)])
            else .ok (T.map (fun p => (p.1, scaleF res p.2))) := by
          unfold tempoStepF
          simp only [ht, tickScaleF_eq res t hr t0, bind, Except.bind, l2]
        rw [s1, s2]
        by_cases hz : e.time = 0
        · rw [if_pos hz, if_pos hz]
          refine ⟨[(0, t)], by simp, ?_, rfl, rfl⟩
          intro q hq
          simp only [List.mem_singleton] at hq
          subst hq
          exact ⟨t0, t2⟩
        · rw [if_neg hz, if_neg hz]
          by_cases hpt : t = p.2
          · rw [if_neg (by rw [hpt]; simp), if_neg (by rw [hpt]; simp)]
            exact ⟨T, hne, hT, rfl, rfl⟩
          · rw [if_pos (fun h => hpt ((perTick_inj res _ _ hr).1 h)),
              if_pos (fun h => hpt ((scaleF_inj res _ _ hr t0 hpT.1 t2 hpT.2).1 h))]
            refine ⟨T ++ [(e.time.toNat, t)], by simp, ?_, by simp, by simp⟩
            intro q hq
            rcases List.mem_append.1 hq with hq | hq
            · exact hT q hq
            · simp only [List.mem_singleton] at hq
              subst hq
              exact ⟨t0, t2⟩
      · refine ⟨T, hne, hT, ?_, ?_⟩
        · unfold tempoStep
          split
          · rename_i t ht; exact absurd ⟨t, ht⟩ hb
          · rfl
        · unfold tempoStepF
          split
          · rename_i t ht; exact absurd ⟨t, ht⟩ hb
          · rfl
    obtain ⟨T1, n1, h1, e1, e2⟩ := step
    obtain ⟨T2, h2, f1, f2⟩ := ih hes T1 n1 h1
    refine ⟨T2, h2, ?_, ?_⟩
    · rw [List.foldlM_cons, e1]; exact f1
    · rw [List.foldlM_cons, e2]; exact f2

theorem scaleAt_map (T : List (Nat × Nat)) (g : Nat → ℚ) (k : Nat) :
    Spec.scaleAt (T.map (fun p => (p.1, g p.2))) k = (((T.filter (fun p => decide (p.1 ≤ k))).getLast?).map (fun p => g p.2)).getD 0 := by
  unfold Spec.scaleAt
  rw [List.filter_map, List.getLast?_map, Option.map_map]
  rfl

/-- C155: loading the tempo events in floats gives the same ticks as exact arithmetic (rounding never merges two different tempi nor
separates equal ones), with scales five roundings from the exact ones; the result is a tempo map, and at every tick the scale in force
is within 5 parts in 2^52 of the tempo in force. -/
theorem C155_tempo_map (res : Nat) (hr : 0 < res) (track : List Msg) (hg : Spec.GoodTrack track) (hok : ∀ e ∈ track, TempoOk e) :
    ∃ sE sF, loadTempo res track = .ok sE ∧ loadTempoF res track = .ok sF ∧
      sF.map Prod.fst = sE.map Prod.fst ∧ Spec.TempoMap sF ∧
      (∀ k, Rel 5 (Spec.tempoInForce res track k) (Spec.scaleAt sF k)) ∧
      (∀ k, |Spec.scaleAt sF k - Spec.tempoInForce res track k| ≤ Spec.tempoInForce res track k * (5 / 2 ^ (52 : Nat))) := by
  obtain ⟨sE, hE, hm, _, hs⟩ := C60_tempo_map res hr track hg
  have hrq : (res : ℚ) ≠ 0 := by exact_mod_cast (by omega : res ≠ 0)
  obtain ⟨T, hT, h1, h2⟩ := tempoFold res hr track hok [(0, 500000)] (by simp) (by
    intro p hp; simp only [List.mem_singleton] at hp; subst hp; exact ⟨by norm_num, by norm_num⟩)
  have d1 : (60 : ℚ) / (120 * res) = Spec.perTick res 500000 := by
    unfold Spec.perTick; field_simp; norm_num
  have e1 : loadTempo res track = .ok (T.map (fun p => (p.1, Spec.perTick res p.2))) := by
    unfold loadTempo; rw [if_neg (by omega), d1]; exact h1
  have e2 : loadTempoF res track = .ok (T.map (fun p => (p.1, scaleF res p.2))) := by
    unfold loadTempoF; rw [if_neg (by omega), scaleF_default]; exact h2
  have eE : sE = T.map (fun p => (p.1, Spec.perTick res p.2)) := Except.ok.inj (hE.symm.trans e1)
  have hrel : ∀ k, Rel 5 (Spec.tempoInForce res track k) (Spec.scaleAt (T.map (fun p => (p.1, scaleF res p.2))) k) := by
    intro k
    rw [← hs k, eE, scaleAt_map, scaleAt_map]
    cases hl : (T.filter (fun p => decide (p.1 ≤ k))).getLast? with
    | none => simp [Rel]
    | some p =>
      have := (List.mem_filter.1 (List.mem_of_getLast? hl)).1
      exact scaleF_rel res p.2 hr (hT p this).1
  have hpos : ∀ k, 0 < Spec.tempoInForce res track k := fun k => by rw [← hs k]; exact scaleAt_pos sE hm k
  refine ⟨sE, _, hE, e2, ?_, ⟨?_, ?_, ?_⟩, hrel, ?_⟩
  · rw [eE, List.map_map, List.map_map]; rfl
  · obtain ⟨c, rest, e0⟩ := hm.zero
    rw [eE] at e0
    cases T with
    | nil => simp at e0
    | cons p T =>
      simp only [List.map_cons, List.cons.injEq, Prod.mk.injEq] at e0
      exact ⟨scaleF res p.2, _, by rw [List.map_cons, e0.1.1]⟩
  · have := hm.order
    rw [eE, List.pairwise_map] at this
    rw [List.pairwise_map]
    exact this
  · intro p hp
    obtain ⟨q, hq, rfl⟩ := List.mem_map.1 hp
    exact (scaleF_rel res q.2 hr (hT q hq).1).pos (perTick_pos res q.2 hr (hT q hq).1)
  · intro k
    have := (hrel k).err (hpos k).le (by norm_num)
    simpa using this

/-! ### The tick table -/

/-- The float time of tick `i`, reading the tempo map from entry `(s, c)` on, with `last` the float time of tick `s`. -/
def secF : List (Nat × ℚ) → ℚ → Nat → ℚ
  | [], last, _ => last
  | [(s, c)], last, i => b64 (last + b64 (c * ((i - s : Nat) : ℚ)))
  | (s, c) :: (e, c') :: rest, last, i =>
    if i < e then b64 (last + b64 (c * ((i - s : Nat) : ℚ)))
    else secF ((e, c') :: rest) (b64 (last + b64 (c * ((e - s : Nat) : ℚ)))) i

theorem fillTableF_spec (M : Nat) : ∀ (suf : List (Nat × ℚ)) (s : Nat) (c last : ℚ) (arr : List ℚ),
    ((s, c) :: suf).Pairwise (fun a b => a.1 ≤ b.1) → (∀ p ∈ (s, c) :: suf, p.1 ≤ M) → arr.length = M + 1 →
    (fillTableF M ((s, c) :: suf) last arr).length = M + 1 ∧
    ∀ i, i ≤ M → (fillTableF M ((s, c) :: suf) last arr)[i]? = if i < s then arr[i]? else some (secF ((s, c) :: suf) last i) := by
  intro suf
  induction suf with
  | nil =>
    intro s c last arr _ hM hlen
    rw [fillTableF]
    refine ⟨by rw [sliceSet_length, hlen], ?_⟩
    intro i hi
    rw [sliceSet_get _ _ _ _ _ (by omega)]
    by_cases hsi : s ≤ i
    · rw [if_pos ⟨hsi, by omega⟩, if_neg (by omega)]
      rfl
    · rw [if_neg (by omega), if_pos (by omega), List.getElem?_eq_getElem (by omega)]
  | cons q rest ih =>
    obtain ⟨e, c'⟩ := q
    intro s c last arr ho hM hlen
    rw [fillTableF]
    have hse : s ≤ e := (List.pairwise_cons.1 ho).1 (e, c') (by simp)
    have heM : e ≤ M := hM (e, c') (by simp)
    have hval : ∀ i, i ≤ e → (sliceSet arr s (e + 1 - s) (fun i => b64 (last + b64 (c * (i : ℚ)))))[i]? =
        if i < s then arr[i]? else some (b64 (last + b64 (c * ((i - s : Nat) : ℚ)))) := by
      intro i hi
      rw [sliceSet_get _ _ _ _ _ (by omega)]
      by_cases hsi : s ≤ i
      · rw [if_pos ⟨hsi, by omega⟩, if_neg (by omega)]
      · rw [if_neg (by omega), if_pos (by omega), List.getElem?_eq_getElem (by omega)]
    have hg : (sliceSet arr s (e + 1 - s) (fun i => b64 (last + b64 (c * (i : ℚ))))).getD e 0 =
        b64 (last + b64 (c * ((e - s : Nat) : ℚ))) := by
      have := hval e (Nat.le_refl _)
      rw [if_neg (by omega)] at this
      simp [List.getD, this]
    rw [hg]
    obtain ⟨k1, k2⟩ := ih e c' (b64 (last + b64 (c * ((e - s : Nat) : ℚ))))
      (sliceSet arr s (e + 1 - s) (fun i => b64 (last + b64 (c * (i : ℚ))))) (List.pairwise_cons.1 ho).2
      (fun p hp => hM p (List.mem_cons_of_mem _ hp)) (by rw [sliceSet_length, hlen])
    refine ⟨k1, ?_⟩
    intro i hi
    rw [k2 i hi]
    by_cases hie : i < e
    · rw [if_pos hie, hval i (by omega)]
      by_cases his : i < s
      · rw [if_pos his, if_pos his]
      · rw [if_neg his, if_neg his, secF, if_pos hie]
    · rw [if_neg hie, if_neg (by omega), secF, if_neg hie]

theorem tickTableF_eq (scales : List (Nat × ℚ)) (h : Spec.TempoMap scales) (m : Nat) :
    ∃ M, m ≤ M ∧ (∀ p ∈ scales, p.1 ≤ M) ∧ (M = m ∨ ∃ p ∈ scales, M = p.1) ∧
      tickTableF scales m = (List.range (M + 1)).map (fun k => secF scales 0 k) := by
  obtain ⟨c, rest, e⟩ := h.zero
  obtain ⟨h1, h2⟩ := foldl_max_nat (scales.map (fun p => p.1)) m
  have h3 : ∀ (l : List Nat) (x : Nat), l.foldl max x = x ∨ l.foldl max x ∈ l := by
    intro l
    induction l with
    | nil => intro x; exact Or.inl rfl
    | cons y ys ih =>
      intro x
      rw [List.foldl_cons]
      rcases ih (max x y) with g | g
      · rcases max_choice x y with k | k
        · rw [k] at g ⊢; exact Or.inl g
        · rw [k] at g ⊢; right; rw [g]; exact List.mem_cons_self
      · exact Or.inr (List.mem_cons_of_mem _ g)
  refine ⟨_, h1, fun p hp => h2 p.1 (List.mem_map_of_mem hp), ?_, ?_⟩
  · rcases h3 (scales.map (fun p => p.1)) m with g | g
    · exact Or.inl g
    · obtain ⟨p, hp, he⟩ := List.mem_map.1 g
      exact Or.inr ⟨p, hp, he.symm⟩
  · generalize hM : (scales.map (fun p => p.1)).foldl max m = M at *
    have hb : ∀ p ∈ (0, c) :: rest, p.1 ≤ M := fun p hp => by
      rw [← e] at hp; exact h2 p.1 (List.mem_map_of_mem hp)
    obtain ⟨k1, k2⟩ := fillTableF_spec M rest 0 c 0 (List.replicate (M + 1) 0) (by rw [← e]; exact h.order) hb (by simp)
    unfold tickTableF
    simp only [hM]
    rw [e]
    apply List.ext_getElem?
    intro i
    by_cases hi : i ≤ M
    · rw [k2 i hi, if_neg (by omega), List.getElem?_map, List.getElem?_range (by omega)]
      rfl
    · rw [List.getElem?_eq_none (by omega), List.getElem?_eq_none (by simp; omega)]

/-! ### Error of a table entry -/

theorem secF_rel (full : List (Nat × ℚ)) (hfull : Spec.TempoMap full) : ∀ (suf : List (Nat × ℚ)) (s : Nat) (c : ℚ) (pre : List (Nat × ℚ)) (last : ℚ),
    full = pre ++ (s, c) :: suf → Rel pre.length (Spec.seconds full s) last → (pre = [] → last = 0) →
    ∀ i, s ≤ i → Rel full.length (Spec.seconds full i) (secF ((s, c) :: suf) last i) := by
  have sec0 : ∀ i, 0 ≤ Spec.seconds full i := by
    intro i
    rcases Nat.eq_zero_or_pos i with rfl | hi
    · rw [seconds_zero]
    · have := seconds_strictMono full hfull hi
      rw [seconds_zero] at this
      exact this.le
  intro suf
  induction suf with
  | nil =>
    intro s c pre last hf hl h0 i hi
    have hc : 0 < c := hfull.pos (s, c) (by rw [hf]; simp)
    have hpre : ∀ p ∈ pre, p.1 ≤ s := by
      intro p hp
      have ho := hfull.order
      rw [hf, List.pairwise_append] at ho
      exact ho.2.2 p hp (s, c) (by simp)
    have hlin := seconds_linear pre s c [] (i - s) hpre (by simp)
    rw [← hf, show s + (i - s) = i by omega] at hlin
    have hn : (0 : ℚ) ≤ ((i - s : Nat) : ℚ) := Nat.cast_nonneg _
    have hlen : full.length = pre.length + 1 := by rw [hf]; simp
    rw [secF, hlin, hlen]
    have r1 := b64_rel (mul_nonneg hc.le hn)
    cases pre with
    | nil =>
      rw [h0 rfl, zero_add, b64_idem]
      have hs0 : s = 0 := by
        obtain ⟨c1, rest, e⟩ := hfull.zero
        rw [hf] at e
        simp only [List.nil_append, List.cons.injEq, Prod.mk.injEq] at e
        exact e.1.1
      rw [hs0, seconds_zero, zero_add]
      rw [hs0] at r1
      exact r1
    | cons p pre =>
      have r2 := r1.mono (mul_nonneg hc.le hn) (show 1 ≤ (p :: pre).length by simp)
      have r3 := hl.add r2
      exact r3.trans (b64_rel (r3.nonneg (add_nonneg (sec0 s) (mul_nonneg hc.le hn))))
  | cons q rest ih =>
    obtain ⟨e, c'⟩ := q
    intro s c pre last hf hl h0 i hi
    have hc : 0 < c := hfull.pos (s, c) (by rw [hf]; simp)
    have ho := hfull.order
    rw [hf, List.pairwise_append] at ho
    have hpre : ∀ p ∈ pre, p.1 ≤ s := fun p hp => ho.2.2 p hp (s, c) (by simp)
    have hse : s ≤ e := (List.pairwise_cons.1 ho.2.1).1 (e, c') (by simp)
    have hrest : ∀ p ∈ (e, c') :: rest, e ≤ p.1 := by
      intro p hp
      rcases List.mem_cons.1 hp with rfl | hp
      · exact Nat.le_refl _
      · exact (List.pairwise_cons.1 (List.pairwise_cons.1 ho.2.1).2).1 p hp
    have hseg : ∀ j, s ≤ j → j ≤ e → Rel (pre.length + 1) (Spec.seconds full j) (b64 (last + b64 (c * ((j - s : Nat) : ℚ)))) := by
      intro j hj hje
      have hlin := seconds_linear pre s c ((e, c') :: rest) (j - s) hpre (fun p hp => by have := hrest p hp; omega)
      rw [← hf, show s + (j - s) = j by omega] at hlin
      have hn : (0 : ℚ) ≤ ((j - s : Nat) : ℚ) := Nat.cast_nonneg _
      rw [hlin]
      have r1 := b64_rel (mul_nonneg hc.le hn)
      cases pre with
      | nil =>
        rw [h0 rfl, zero_add, b64_idem]
        have hs0 : s = 0 := by
          obtain ⟨c1, rest', e'⟩ := hfull.zero
          rw [hf] at e'
          simp only [List.nil_append, List.cons.injEq, Prod.mk.injEq] at e'
          exact e'.1.1
        rw [hs0, seconds_zero, zero_add]
        rw [hs0] at r1
        exact r1
      | cons p pre =>
        have r2 := r1.mono (mul_nonneg hc.le hn) (show 1 ≤ (p :: pre).length by simp)
        have r3 := hl.add r2
        exact r3.trans (b64_rel (r3.nonneg (add_nonneg (sec0 s) (mul_nonneg hc.le hn))))
    rw [secF]
    by_cases hie : i < e
    · rw [if_pos hie]
      exact (hseg i hi hie.le).mono (sec0 i) (by rw [hf]; simp)
    · rw [if_neg hie]
      refine ih e c' (pre ++ [(s, c)]) _ (by rw [hf]; simp) ?_ (by simp) i (by omega)
      have := hseg e hse (Nat.le_refl _)
      simpa using this

theorem secF_full (scales : List (Nat × ℚ)) (h : Spec.TempoMap scales) (k : Nat) :
    Rel scales.length (Spec.seconds scales k) (secF scales 0 k) := by
  obtain ⟨c, rest, e⟩ := h.zero
  have := secF_rel scales h rest 0 c [] 0 (by rw [e]; rfl) (by rw [seconds_zero]; simp [Rel]) (fun _ => rfl) k (Nat.zero_le _)
  rwa [← e] at this

theorem seconds_nonneg' (scales : List (Nat × ℚ)) (h : Spec.TempoMap scales) (k : Nat) : 0 ≤ Spec.seconds scales k := by
  rcases Nat.eq_zero_or_pos k with rfl | hi
  · rw [seconds_zero]
  · have := seconds_strictMono scales h hi
    rw [seconds_zero] at this
    exact this.le

/-! ### Order of the table entries -/

theorem secF_start : ∀ (suf : List (Nat × ℚ)) (s : Nat) (c last : ℚ), b64 last = last →
    ((s, c) :: suf).Pairwise (fun a b => a.1 ≤ b.1) → secF ((s, c) :: suf) last s = last := by
  intro suf
  induction suf with
  | nil => intro s c last hl _; rw [secF, Nat.sub_self]; simp [b64_zero, hl]
  | cons q rest ih =>
    obtain ⟨e, c'⟩ := q
    intro s c last hl ho
    have hse : s ≤ e := (List.pairwise_cons.1 ho).1 (e, c') (by simp)
    rw [secF]
    by_cases h : s < e
    · rw [if_pos h, Nat.sub_self]; simp [b64_zero, hl]
    · have he : e = s := by omega
      rw [if_neg h, he, Nat.sub_self]
      have : b64 (last + b64 (c * ((0 : Nat) : ℚ))) = last := by simp [b64_zero, hl]
      rw [this]
      rw [he] at ho
      exact ih s c' last hl (List.pairwise_cons.1 ho).2

/-- One tick within a segment: never backwards; forwards if the tick is not lost in rounding. -/
theorem tick_forward (last c : ℚ) (n : Nat) (hl : 0 ≤ last) (hc : 0 < c) :
    b64 (last + b64 (c * (n : ℚ))) ≤ b64 (last + b64 (c * ((n + 1 : Nat) : ℚ))) ∧
    (b64 (last + b64 (c * ((n + 1 : Nat) : ℚ))) ≤ 2 ^ (49 : Nat) * c →
      b64 (last + b64 (c * (n : ℚ))) < b64 (last + b64 (c * ((n + 1 : Nat) : ℚ)))) := by
  have n0 : (0 : ℚ) ≤ n := Nat.cast_nonneg n
  have le1 : c * (n : ℚ) ≤ c * ((n + 1 : Nat) : ℚ) := by push_cast; nlinarith
  refine ⟨b64_mono (by linarith [b64_mono le1]), fun hT => ?_⟩
  have x0 : 0 ≤ c * (n : ℚ) := mul_nonneg hc.le n0
  have y0 : 0 ≤ c * ((n + 1 : Nat) : ℚ) := le_trans x0 le1
  have hxy : c * ((n + 1 : Nat) : ℚ) = c * n + c := by push_cast; ring
  rw [hxy] at y0 hT ⊢
  clear le1 hxy
  generalize c * (n : ℚ) = x at *
  have e1 := b64_err x
  have e2 := b64_err (x + c)
  have pA := b64_nonneg x0
  have pB := b64_nonneg y0
  rw [abs_of_nonneg x0, abs_le] at e1
  rw [abs_of_nonneg y0, abs_le] at e2
  generalize b64 x = A at *
  generalize b64 (x + c) = B at *
  have e3 := b64_err (last + A)
  have e4 := b64_err (last + B)
  rw [abs_of_nonneg (add_nonneg hl pA), abs_le] at e3
  rw [abs_of_nonneg (add_nonneg hl pB), abs_le] at e4
  generalize b64 (last + A) = X at *
  generalize b64 (last + B) = Y at *
  norm_num at *
  linarith [e1.1, e1.2, e2.1, e2.2, e3.1, e3.2, e4.1, e4.2]

theorem secF_succ : ∀ (suf : List (Nat × ℚ)) (s : Nat) (c last : ℚ), 0 ≤ last → b64 last = last →
    ((s, c) :: suf).Pairwise (fun a b => a.1 ≤ b.1) → (∀ p ∈ (s, c) :: suf, 0 < p.2) → ∀ i, s ≤ i →
    secF ((s, c) :: suf) last i ≤ secF ((s, c) :: suf) last (i + 1) ∧
    ((∀ p ∈ (s, c) :: suf, secF ((s, c) :: suf) last (i + 1) ≤ 2 ^ (49 : Nat) * p.2) →
      secF ((s, c) :: suf) last i < secF ((s, c) :: suf) last (i + 1)) := by
  intro suf
  induction suf with
  | nil =>
    intro s c last hl _ _ hp i hi
    have hc := hp (s, c) (by simp)
    rw [secF, secF, show i + 1 - s = (i - s) + 1 by omega]
    have := tick_forward last c (i - s) hl hc
    exact ⟨this.1, fun h => this.2 (h (s, c) (by simp))⟩
  | cons q rest ih =>
    obtain ⟨e, c'⟩ := q
    intro s c last hl hfl ho hp i hi
    have hc : 0 < c := hp (s, c) (by simp)
    have hse : s ≤ e := (List.pairwise_cons.1 ho).1 (e, c') (by simp)
    have ho' := (List.pairwise_cons.1 ho).2
    have lp : 0 ≤ b64 (last + b64 (c * ((e - s : Nat) : ℚ))) :=
      b64_nonneg (add_nonneg hl (b64_nonneg (mul_nonneg hc.le (Nat.cast_nonneg _))))
    have lf : b64 (b64 (last + b64 (c * ((e - s : Nat) : ℚ)))) = b64 (last + b64 (c * ((e - s : Nat) : ℚ))) := b64_idem _
    by_cases h1 : i + 1 < e
    · have e1 : secF ((s, c) :: (e, c') :: rest) last i = b64 (last + b64 (c * ((i - s : Nat) : ℚ))) := by
        rw [secF, if_pos (by omega)]
      have e2 : secF ((s, c) :: (e, c') :: rest) last (i + 1) = b64 (last + b64 (c * (((i - s) + 1 : Nat) : ℚ))) := by
        rw [secF, if_pos h1, show i + 1 - s = (i - s) + 1 by omega]
      rw [e1, e2]
      have := tick_forward last c (i - s) hl hc
      exact ⟨this.1, fun h => this.2 (h (s, c) (by simp))⟩
    · by_cases h2 : i < e
      · have hie : i + 1 = e := by omega
        have e1 : secF ((s, c) :: (e, c') :: rest) last i = b64 (last + b64 (c * ((i - s : Nat) : ℚ))) := by
          rw [secF, if_pos h2]
        have e2 : secF ((s, c) :: (e, c') :: rest) last (i + 1) = b64 (last + b64 (c * (((i - s) + 1 : Nat) : ℚ))) := by
          rw [secF, if_neg h1, hie, secF_start rest e c' _ lf ho', show e - s = (i - s) + 1 by omega]
        rw [e1, e2]
        have := tick_forward last c (i - s) hl hc
        exact ⟨this.1, fun h => this.2 (h (s, c) (by simp))⟩
      · have e1 : secF ((s, c) :: (e, c') :: rest) last i = secF ((e, c') :: rest) (b64 (last + b64 (c * ((e - s : Nat) : ℚ)))) i := by
          rw [secF, if_neg h2]
        have e2 : secF ((s, c) :: (e, c') :: rest) last (i + 1) =
            secF ((e, c') :: rest) (b64 (last + b64 (c * ((e - s : Nat) : ℚ)))) (i + 1) := by
          rw [secF, if_neg h1]
        rw [e1, e2]
        have := ih e c' _ lp lf ho' (fun p hp' => hp p (List.mem_cons_of_mem _ hp')) i (by omega)
        exact ⟨this.1, fun h => this.2 (fun p hp' => h p (List.mem_cons_of_mem _ hp'))⟩

theorem secF_mono (scales : List (Nat × ℚ)) (h : Spec.TempoMap scales) {i j : Nat} (hij : i ≤ j) :
    secF scales 0 i ≤ secF scales 0 j := by
  obtain ⟨c, rest, e⟩ := h.zero
  induction j with
  | zero => rw [Nat.le_zero.1 hij]
  | succ j ih =>
    rcases Nat.le_succ_iff.1 hij with g | g
    · refine le_trans (ih g) ?_
      rw [e]
      exact (secF_succ rest 0 c 0 (le_refl _) b64_zero (by rw [← e]; exact h.order) (by rw [← e]; exact h.pos) j (Nat.zero_le _)).1
    · rw [g]

theorem secF_strict (scales : List (Nat × ℚ)) (h : Spec.TempoMap scales) (M : Nat)
    (hb : ∀ p ∈ scales, secF scales 0 M ≤ 2 ^ (49 : Nat) * p.2) {i j : Nat} (hij : i < j) (hj : j ≤ M) :
    secF scales 0 i < secF scales 0 j := by
  obtain ⟨c, rest, e⟩ := h.zero
  have step : secF scales 0 i < secF scales 0 (i + 1) := by
    have hle : secF scales 0 (i + 1) ≤ secF scales 0 M := secF_mono scales h (by omega)
    have hb' : ∀ p ∈ scales, secF scales 0 (i + 1) ≤ 2 ^ (49 : Nat) * p.2 := fun p hp => le_trans hle (hb p hp)
    rw [e] at hb' ⊢
    exact (secF_succ rest 0 c 0 (le_refl _) b64_zero (by rw [← e]; exact h.order) (by rw [← e]; exact h.pos) i (Nat.zero_le _)).2 hb'
  exact lt_of_lt_of_le step (secF_mono scales h hij)

end NGC
