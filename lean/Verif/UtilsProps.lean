import Verif.Utils
import Mathlib.Tactic.Linarith
import Mathlib.Tactic.FieldSimp
import Mathlib.Tactic.Ring
import Mathlib.Tactic.Positivity
import Mathlib.Algebra.Order.Floor.Ring
import Mathlib.Algebra.Order.Archimedean.Basic

/-!
C72 – C74: conversions, quantizers and frames of `midi_utils.py`.
-/

namespace NGC

/-! ### C72: conversions -/

/-- C72 (agreement): steps per second from a tempo and a resolution is the same function as from steps
per quarter and quarters per minute, and the version with beats per measure divides the tempo first. -/
theorem C72_agree (bpm r k : ℚ) (hk : k ≠ 0) :
    stepsPerSecondFromBpm bpm r = fromSpqToSps r bpm ∧
    fromBpmSpqToSps r bpm k = .ok (fromSpqToSps r (bpm / k)) ∧
    fromBpmSpqToSps r bpm 0 = .error .zeroDiv := by
  refine ⟨?_, ?_, ?_⟩
  · unfold stepsPerSecondFromBpm fromSpqToSps; ring
  · rw [fromBpmSpqToSps, if_neg hk]; rfl
  · rw [fromBpmSpqToSps, if_pos rfl]

/-- C72 (meaning): in `t` seconds a piece at `bpm` beats per minute has `bpm * t / 60` beats of
`resolution` steps each. -/
theorem C72_meaning (bpm r t : ℚ) : stepsPerSecondFromBpm bpm r * t = r * (bpm * t / 60) := by
  unfold stepsPerSecondFromBpm; ring

/-- C72 (linear, increasing and positive). -/
theorem C72_linear (a b r c : ℚ) (hr : 0 < r) :
    stepsPerSecondFromBpm (a + b) r = stepsPerSecondFromBpm a r + stepsPerSecondFromBpm b r ∧
    stepsPerSecondFromBpm (c * a) r = c * stepsPerSecondFromBpm a r ∧
    bpmToQpm (a + b) r = bpmToQpm a r + bpmToQpm b r ∧ bpmToQpm (c * a) r = c * bpmToQpm a r ∧
    (a < b → stepsPerSecondFromBpm a r < stepsPerSecondFromBpm b r ∧ bpmToQpm a r < bpmToQpm b r ∧
      qpmToBpm a r < qpmToBpm b r) ∧
    (0 < a → 0 < stepsPerSecondFromBpm a r ∧ 0 < bpmToQpm a r ∧ 0 < qpmToBpm a r) := by
  unfold stepsPerSecondFromBpm bpmToQpm qpmToBpm
  refine ⟨by ring, by ring, by ring, by ring, ?_, ?_⟩
  · intro h
    have := mul_lt_mul_of_pos_right h hr
    refine ⟨?_, ?_, this⟩
    · exact div_lt_div_of_pos_right this (by norm_num)
    · have e : ∀ x : ℚ, x / 60 * r = x * r / 60 := fun x => by ring
      rw [e, e]
      exact div_lt_div_of_pos_right this (by norm_num)
  · intro h
    exact ⟨by positivity, by positivity, by positivity⟩

/-- C72 (round trip, refuted in general): converting quarters per minute to beats and back multiplies
by `quarter * beats / 60`; it is the identity exactly when `quarter * beats = 60`. With the defaults 4
and 4 the tempo comes back multiplied by 4/15. -/
theorem C72_round_trip (quarter beats : ℚ) :
    (∀ q, bpmToQpm (qpmToBpm q quarter) beats = q * (quarter * beats / 60)) ∧
    ((∀ q, bpmToQpm (qpmToBpm q quarter) beats = q) ↔ quarter * beats = 60) ∧
    (∀ q, bpmToQpm (qpmToBpm q 4) 4 = q * (4 / 15)) := by
  have e : ∀ quarter beats q, bpmToQpm (qpmToBpm q quarter) beats = q * (quarter * beats / 60) := by
    intro a b q; unfold bpmToQpm qpmToBpm; ring
  refine ⟨e quarter beats, ⟨?_, ?_⟩, ?_⟩
  · intro h
    have := h 1
    rw [e] at this
    linarith
  · intro h q
    rw [e, h]; ring
  · intro q; rw [e]; ring

/-- C72 (rounded variant): `bpm_to_qpm_np` differs from `bpm_to_qpm` by at most half of the tenth
decimal, and is increasing. -/
theorem C72_np (bpm beats : ℚ) :
    |bpmToQpmNp bpm beats - bpmToQpm bpm beats| ≤ 1 / (2 * 10 ^ 10) ∧
    (∀ b', 0 ≤ beats → bpm ≤ b' → bpmToQpmNp bpm beats ≤ bpmToQpmNp b' beats) := by
  constructor
  · have h := roundHE_spec (bpm * beats / 60 * 10 ^ 10)
    unfold bpmToQpmNp bpmToQpm
    rw [abs_le] at h ⊢
    have hp : (0 : ℚ) < 10 ^ 10 := by positivity
    constructor
    · rw [neg_le_sub_iff_le_add, ← sub_le_iff_le_add, le_div_iff₀ hp]
      have : (bpm / 60 * beats - 1 / (2 * 10 ^ 10)) * 10 ^ 10 = bpm * beats / 60 * 10 ^ 10 - 1 / 2 := by
        field_simp
      rw [this]; linarith [h.2]
    · rw [sub_le_iff_le_add, div_le_iff₀ hp]
      have : (1 / (2 * 10 ^ 10) + bpm / 60 * beats) * 10 ^ 10 = bpm * beats / 60 * 10 ^ 10 + 1 / 2 := by
        field_simp; ring
      rw [this]; linarith [h.1]
  · intro b' hb h
    unfold bpmToQpmNp
    apply div_le_div_of_nonneg_right _ (by positivity)
    exact_mod_cast roundHE_mono (by
      apply mul_le_mul_of_nonneg_right _ (by positivity)
      apply div_le_div_of_nonneg_right _ (by norm_num)
      exact mul_le_mul_of_nonneg_right h hb)

example : stepsPerSecondFromBpm 120 480 = 960 := by norm_num [stepsPerSecondFromBpm]

/-! ### C73: `ft_quantize_to_nearest_step` -/

/-- The value for non-negative times. -/
theorem ftQuantize_nonneg (time sps thr : ℚ) (hs : 0 < sps) (h0 : 0 ≤ thr) (h1 : thr < 1)
    (ht : 0 ≤ time) :
    ftQuantize time sps thr =
      .ok (⌊time * sps⌋ + if sps * thr ≤ Int.fract (time * sps) then 1 else 0) := by
  have hx : 0 ≤ time * sps := by positivity
  rw [ftQuantize, if_neg (not_le.2 hs), if_neg (by push Not; exact ⟨h0, h1⟩)]
  simp only [not_lt.2 hx, if_false, pyInt, hx, if_true]
  split <;> simp

/-- C73 (odd): quantizing the opposite time gives the opposite step. -/
theorem C73_ft_odd (time sps thr : ℚ) (hs : 0 < sps) (h0 : 0 ≤ thr) (h1 : thr < 1) (ht : 0 < time) :
    ∃ k, ftQuantize time sps thr = .ok k ∧ ftQuantize (-time) sps thr = .ok (-k) := by
  refine ⟨_, ftQuantize_nonneg time sps thr hs h0 h1 ht.le, ?_⟩
  have hx : 0 < time * sps := by positivity
  rw [ftQuantize, if_neg (not_le.2 hs), if_neg (by push Not; exact ⟨h0, h1⟩)]
  have hneg : -time * sps < 0 := by linarith [neg_mul time sps]
  have habs : |-time * sps| = time * sps := by
    rw [neg_mul, abs_neg, abs_of_pos hx]
  simp only [hneg, if_true, habs, pyInt, not_le.2 hneg, if_false]
  have hc : ⌈-time * sps⌉ = -⌊time * sps⌋ := by rw [neg_mul, Int.ceil_neg]
  rw [hc]
  split
  · congr 1; omega
  · congr 1; omega

/-- C73 (when it is the nearest step): with `steps_per_second * rounding_threshold = 1/2` every
non-negative time goes to a nearest step; for every other admissible pair of parameters some time goes
to a step more than half a step away. So the default threshold 0.5 rounds to nearest only at one step
per second. -/
theorem C73_ft_nearest (sps thr : ℚ) (hs : 0 < sps) (h0 : 0 ≤ thr) (h1 : thr < 1) :
    (∀ time, 0 ≤ time → ∃ k, ftQuantize time sps thr = .ok k ∧ |time * sps - k| ≤ 1 / 2) ↔
      sps * thr = 1 / 2 := by
  constructor
  · intro h
    by_contra hne
    rcases lt_or_gt_of_ne hne with hlt | hgt
    · -- the midpoint between the threshold and one half is rounded up
      have hτ : 0 ≤ sps * thr := by positivity
      set x : ℚ := (sps * thr + 1 / 2) / 2 with hx
      have hx0 : 0 ≤ x := by rw [hx]; linarith
      have hx1 : x < 1 / 2 := by rw [hx]; linarith
      have hxt : sps * thr ≤ x := by rw [hx]; linarith
      obtain ⟨k, hk, hd⟩ := h (x / sps) (by positivity)
      rw [ftQuantize_nonneg _ _ _ hs h0 h1 (by positivity), div_mul_cancel₀ _ hs.ne'] at hk
      rw [div_mul_cancel₀ _ hs.ne'] at hd
      have hfl : ⌊x⌋ = 0 := Int.floor_eq_zero_iff.2 ⟨hx0, by linarith⟩
      have hfr : Int.fract x = x := Int.fract_eq_self.2 ⟨hx0, by linarith⟩
      rw [hfl, hfr, if_pos hxt] at hk
      cases hk
      rw [abs_le] at hd
      push_cast at hd
      linarith [hd.1]
    · -- a fractional part between one half and the threshold is rounded down
      set x : ℚ := min ((sps * thr + 1 / 2) / 2) (3 / 4) with hx
      have hx0 : 1 / 2 < x := by rw [hx, lt_min_iff]; constructor <;> linarith
      have hx1 : x < 1 := lt_of_le_of_lt (min_le_right _ _) (by norm_num)
      have hxt : ¬ sps * thr ≤ x := by
        rw [not_le]
        exact lt_of_le_of_lt (min_le_left _ _) (by linarith)
      have hx00 : 0 ≤ x := by linarith
      obtain ⟨k, hk, hd⟩ := h (x / sps) (by positivity)
      rw [ftQuantize_nonneg _ _ _ hs h0 h1 (by positivity), div_mul_cancel₀ _ hs.ne'] at hk
      rw [div_mul_cancel₀ _ hs.ne'] at hd
      have hfl : ⌊x⌋ = 0 := Int.floor_eq_zero_iff.2 ⟨hx00, hx1⟩
      have hfr : Int.fract x = x := Int.fract_eq_self.2 ⟨hx00, hx1⟩
      rw [hfl, hfr, if_neg hxt] at hk
      cases hk
      rw [abs_le] at hd
      push_cast at hd
      linarith [hd.2]
  · intro h time ht
    refine ⟨_, ftQuantize_nonneg time sps thr hs h0 h1 ht, ?_⟩
    rw [h]
    have hfr := Int.self_sub_floor (time * sps)
    have hn := Int.fract_nonneg (time * sps)
    have hl := Int.fract_lt_one (time * sps)
    rw [abs_le]
    split
    · rename_i hge
      push_cast
      constructor <;> linarith
    · rename_i hge
      rw [not_le] at hge
      push_cast
      constructor <;> linarith

/-- C73 (documented threshold, refuted): the documentation compares the fractional part with the
threshold itself; the code compares it with the threshold times the steps per second. From two steps
per second on, the default threshold never rounds up. -/
theorem C73_ft_default_truncates (time sps thr : ℚ) (hs : 0 < sps) (h0 : 0 ≤ thr) (h1 : thr < 1)
    (h : 1 ≤ sps * thr) (ht : 0 ≤ time) : ftQuantize time sps thr = .ok ⌊time * sps⌋ := by
  rw [ftQuantize_nonneg _ _ _ hs h0 h1 ht, if_neg]
  · simp
  · have := Int.fract_lt_one (time * sps)
    linarith

/-- The repository's own example: 0.3 s at 16 steps per second is 4.8 steps and goes to 4. -/
example : ftQuantize (3/10) 16 (1/2) = .ok 4 := by decide +kernel

/-- C73 (order and error): later times never get earlier steps, and a step is at most one off. -/
theorem C73_ft_mono (a b sps thr : ℚ) (hs : 0 < sps) (h0 : 0 ≤ thr) (h1 : thr < 1) (ha : 0 ≤ a)
    (hab : a ≤ b) : ∃ j k, ftQuantize a sps thr = .ok j ∧ ftQuantize b sps thr = .ok k ∧ j ≤ k ∧
      |a * sps - j| ≤ 1 := by
  refine ⟨_, _, ftQuantize_nonneg a sps thr hs h0 h1 ha,
    ftQuantize_nonneg b sps thr hs h0 h1 (ha.trans hab), ?_, ?_⟩
  · have hx : a * sps ≤ b * sps := mul_le_mul_of_nonneg_right hab hs.le
    have hf := Int.floor_mono hx
    rcases hf.lt_or_eq with hlt | heq
    · split <;> split <;> omega
    · have h2 : Int.fract (a * sps) ≤ Int.fract (b * sps) := by
        unfold Int.fract; rw [heq]; linarith
      rw [heq]
      split
      · rename_i h3; rw [if_pos (h3.trans h2)]
      · split <;> omega
  · have hfr := Int.self_sub_floor (a * sps)
    have hn := Int.fract_nonneg (a * sps)
    have hl := Int.fract_lt_one (a * sps)
    rw [abs_le]
    split <;> push_cast <;> constructor <;> linarith

/-- Arguments that are refused. -/
theorem C73_ft_errors (time sps thr : ℚ) (h : sps ≤ 0 ∨ thr < 0 ∨ 1 ≤ thr) :
    ftQuantize time sps thr = .error .value := by
  unfold ftQuantize
  split
  · rfl
  · rw [if_pos]
    rcases h with h | h
    · contradiction
    · exact h

/-! ### C73: `quantize_to_nearest_step` -/

theorem ticksPerStep_pos (step num : ℚ) (hs : 0 < step) (hn : 1 ≤ num) : 0 < ticksPerStep step num := by
  unfold ticksPerStep
  split
  · rename_i h
    rw [h, div_one]
    exact lt_of_lt_of_le (by norm_num) (Int.le_floor.2 (show ((480 : Int) : ℚ) ≤ 480 * num by
      push_cast; linarith))
  · exact Int.ceil_pos.2 (by positivity)

/-- The duration of a step in seconds, as the code computes it. -/
def stepSeconds (step tempo num : ℚ) : ℚ := (ticksPerStep step num : ℚ) / (480 * tempo / 60)

theorem quantizeToNearestStep_eq (time step tempo num : ℚ) (hs : 0 < step) (ht : 0 < tempo)
    (hn : 1 ≤ num) :
    quantizeToNearestStep time step tempo num =
      .ok (roundHE (time / stepSeconds step tempo num) * stepSeconds step tempo num) := by
  have hp := ticksPerStep_pos step num hs hn
  have hp' : (0 : ℚ) < ticksPerStep step num := by exact_mod_cast hp
  have ht2 : (480 : ℚ) * tempo / 60 ≠ 0 := by positivity
  unfold quantizeToNearestStep
  simp only [hs.ne', if_false, hp.ne', ht2]
  rw [if_neg]
  · have e : time * (480 * tempo / 60) / (ticksPerStep step num : ℚ) =
        time / stepSeconds step tempo num := by
      unfold stepSeconds; field_simp
    rw [e]
    congr 1
    unfold stepSeconds
    push_cast
    ring
  · rintro ⟨_, h⟩
    exact h (Int.mul_emod_left _ _)

/-- C73 (nearest grid line): for every time, positive step and tempo and a measure of at least one beat
the result is a multiple of the step duration and no multiple is closer; the assertion in the code
never fails; quantizing again changes nothing; the order is kept. -/
theorem C73_nearest (time step tempo num : ℚ) (hs : 0 < step) (ht : 0 < tempo) (hn : 1 ≤ num) :
    0 < stepSeconds step tempo num ∧
    ∃ q, quantizeToNearestStep time step tempo num = .ok q ∧
      (∃ k : Int, q = k * stepSeconds step tempo num) ∧
      |time - q| ≤ stepSeconds step tempo num / 2 ∧
      quantizeToNearestStep q step tempo num = .ok q ∧
      (∀ t', time ≤ t' → ∃ q', quantizeToNearestStep t' step tempo num = .ok q' ∧ q ≤ q') := by
  have hp' : (0 : ℚ) < ticksPerStep step num := by exact_mod_cast ticksPerStep_pos step num hs hn
  have hd : 0 < stepSeconds step tempo num := by unfold stepSeconds; positivity
  refine ⟨hd, _, quantizeToNearestStep_eq time step tempo num hs ht hn, ⟨_, rfl⟩, ?_, ?_, ?_⟩
  · have h := roundHE_spec (time / stepSeconds step tempo num)
    have e : time - roundHE (time / stepSeconds step tempo num) * stepSeconds step tempo num =
        (time / stepSeconds step tempo num - roundHE (time / stepSeconds step tempo num)) *
          stepSeconds step tempo num := by
      field_simp
    rw [e, abs_mul, abs_of_pos hd]
    calc _ ≤ 1 / 2 * stepSeconds step tempo num := mul_le_mul_of_nonneg_right h hd.le
      _ = _ := by ring
  · rw [quantizeToNearestStep_eq _ step tempo num hs ht hn, mul_div_cancel_right₀ _ hd.ne', roundHE_int]
  · intro t' h
    refine ⟨_, quantizeToNearestStep_eq t' step tempo num hs ht hn, ?_⟩
    apply mul_le_mul_of_nonneg_right _ hd.le
    exact_mod_cast roundHE_mono (div_le_div_of_nonneg_right h hd.le)

example : quantizeToNearestStep (13/10) 4 120 4 = .ok (3/2) := by decide +kernel

/-- C73 (unit of the step, refuted): the step size is documented to be in beats. When it divides the
measure evenly the step lasts `num / step` beats: larger step sizes give finer grids, and the
documented length is met exactly when `step * step = num`. -/
theorem C73_step_unit (tempo num : ℚ) (step : ℚ) (hs : 0 < step) (ht : 0 < tempo) (hn : 0 < num)
    (hdiv : ∃ k : Int, 480 * num / step = k) :
    stepSeconds step tempo num = num / step * (60 / tempo) ∧
    (stepSeconds step tempo num = step * (60 / tempo) ↔ step * step = num) := by
  have e : stepSeconds step tempo num = num / step * (60 / tempo) := by
    obtain ⟨k, hk⟩ := hdiv
    have : (ticksPerStep step num : ℚ) = 480 * num / step := by
      unfold ticksPerStep
      rw [hk]
      simp
    unfold stepSeconds
    rw [this]
    field_simp
  refine ⟨e, ?_⟩
  rw [e]
  have hb : 60 / tempo ≠ 0 := by positivity
  constructor
  · intro h
    have := mul_right_cancel₀ hb h
    rw [div_eq_iff hs.ne'] at this
    exact this.symm
  · intro h
    congr 1
    rw [div_eq_iff hs.ne', h]

example : ∃ k : Int, (480 : ℚ) * 4 / 8 = k := ⟨240, by norm_num⟩

/-! ### C73: `quantize_to_nearest_step_alt` -/

theorem roundHalfAway_spec (q : ℚ) : |q - roundHalfAway q| ≤ 1 / 2 := by
  unfold roundHalfAway
  split
  · have h1 := Int.floor_le (q + 1 / 2)
    have h2 := Int.lt_floor_add_one (q + 1 / 2)
    rw [abs_le]; constructor <;> linarith
  · have h1 := Int.floor_le (-q + 1 / 2)
    have h2 := Int.lt_floor_add_one (-q + 1 / 2)
    rw [abs_le]; push_cast; constructor <;> linarith

/-- C73 (alternative version): it rounds to a nearest step exactly when the threshold is 0; the
threshold shifts the time. -/
theorem C73_alt_nearest (sps thr : ℚ) (hs : 0 < sps) :
    (∀ time, |time * sps - quantizeAlt time sps thr| ≤ 1 / 2) ↔ thr = 0 := by
  constructor
  · intro h
    by_contra hne
    rcases lt_or_gt_of_ne hne with hlt | hgt
    · -- y slightly above -1/2 goes to 0, the time is below -1/2
      set d : ℚ := min (-thr / 2) (1 / 4) with hd
      have hd0 : 0 < d := by rw [hd, lt_min_iff]; constructor <;> linarith
      have hd1 : d ≤ 1 / 4 := min_le_right _ _
      have hd2 : d ≤ -thr / 2 := min_le_left _ _
      have h' := h ((-(1 / 2) + d + thr) / sps)
      unfold quantizeAlt at h'
      rw [div_mul_cancel₀ _ hs.ne'] at h'
      have e : -(1 / 2 : ℚ) + d + thr - thr = -(1 / 2) + d := by ring
      rw [e] at h'
      have hz : roundHalfAway (-(1 / 2) + d) = 0 := by
        unfold roundHalfAway
        rw [if_neg (by linarith)]
        have : ⌊-(-(1 / 2 : ℚ) + d) + 1 / 2⌋ = 0 := Int.floor_eq_zero_iff.2 ⟨by linarith, by linarith⟩
        rw [this]; rfl
      rw [hz, abs_le] at h'
      push_cast at h'
      linarith [h'.1]
    · set d : ℚ := min (thr / 2) (1 / 4) with hd
      have hd0 : 0 < d := by rw [hd, lt_min_iff]; constructor <;> linarith
      have hd1 : d ≤ 1 / 4 := min_le_right _ _
      have hd2 : d ≤ thr / 2 := min_le_left _ _
      have h' := h ((1 / 2 - d + thr) / sps)
      unfold quantizeAlt at h'
      rw [div_mul_cancel₀ _ hs.ne'] at h'
      have e : (1 / 2 : ℚ) - d + thr - thr = 1 / 2 - d := by ring
      rw [e] at h'
      have hz : roundHalfAway (1 / 2 - d) = 0 := by
        unfold roundHalfAway
        rw [if_pos (by linarith)]
        exact Int.floor_eq_zero_iff.2 ⟨by linarith, by linarith⟩
      rw [hz, abs_le] at h'
      push_cast at h'
      linarith [h'.2]
  · rintro rfl time
    unfold quantizeAlt
    rw [sub_zero]
    exact roundHalfAway_spec _

/-- C73 (alternative version, threshold 1/2): it rounds down from half a step on, and time 0 goes to
step −1. -/
theorem C73_alt_half (time sps : ℚ) :
    (1 / 2 ≤ time * sps → quantizeAlt time sps (1 / 2) = ⌊time * sps⌋) ∧
    quantizeAlt 0 sps (1 / 2) = -1 := by
  constructor
  · intro h
    unfold quantizeAlt roundHalfAway
    rw [if_pos (by linarith)]
    congr 1; ring
  · unfold quantizeAlt roundHalfAway
    rw [zero_mul, if_neg (by norm_num)]
    norm_num

/-! ### C73: `vector_quantize` -/

theorem argminFrom_spec (f : ℚ → ℚ) (l : List ℚ) (b : ℚ) :
    argminFrom f l b ∈ b :: l ∧ ∀ y ∈ b :: l, f (argminFrom f l b) ≤ f y := by
  induction l generalizing b with
  | nil => simp [argminFrom]
  | cons x xs ih =>
    unfold argminFrom
    split
    · rename_i h
      obtain ⟨h1, h2⟩ := ih x
      refine ⟨List.mem_cons_of_mem _ h1, ?_⟩
      intro y hy
      rcases List.mem_cons.1 hy with rfl | hy
      · exact (h2 x (by simp)).trans h.le
      · exact h2 y hy
    · rename_i h
      rw [not_lt] at h
      obtain ⟨h1, h2⟩ := ih b
      refine ⟨?_, ?_⟩
      · rcases List.mem_cons.1 h1 with e | e
        · rw [e]; simp
        · simp [e]
      · intro y hy
        rcases List.mem_cons.1 hy with rfl | hy
        · exact h2 y (by simp)
        · rcases List.mem_cons.1 hy with rfl | hy
          · exact (h2 b (by simp)).trans h
          · exact h2 y (by simp [hy])

/-- C73 (`vector_quantize`): for any metric and any non-empty grid every note goes to a point of the
grid at minimal distance; an empty grid is a ValueError unless there are no notes. -/
theorem C73_vector (metric : ℚ → ℚ → ℚ) (grid notes : List ℚ) (hg : grid ≠ []) :
    ∃ out, vectorQuantize metric grid notes = .ok out ∧
      List.Forall₂ (fun n q => q ∈ grid ∧ ∀ p ∈ grid, metric n q ≤ metric n p) notes out := by
  induction notes with
  | nil => exact ⟨[], rfl, .nil⟩
  | cons n ns ih =>
    obtain ⟨out, e, h⟩ := ih
    cases grid with
    | nil => exact absurd rfl hg
    | cons g gs =>
      refine ⟨argminFrom (metric n) gs g :: out, ?_, .cons (argminFrom_spec (metric n) gs g) h⟩
      simp only [vectorQuantize, nearestPoint, bind, Except.bind, e]

theorem C73_vector_empty (metric : ℚ → ℚ → ℚ) (n : ℚ) (ns : List ℚ) :
    vectorQuantize metric [] (n :: ns) = .error .value ∧ vectorQuantize metric [] [] = .ok [] :=
  ⟨rfl, rfl⟩

/-- C73 (idempotent): with a metric that is positive off the diagonal, quantizing twice is quantizing
once. -/
theorem C73_vector_idem (metric : ℚ → ℚ → ℚ) (h0 : ∀ x, metric x x = 0)
    (hpos : ∀ x y, x ≠ y → 0 < metric x y) (grid notes out : List ℚ)
    (h : vectorQuantize metric grid notes = .ok out) : vectorQuantize metric grid out = .ok out := by
  induction notes generalizing out with
  | nil => cases h; rfl
  | cons n ns ih =>
    simp only [vectorQuantize, bind, Except.bind] at h
    cases grid with
    | nil => cases h
    | cons g gs =>
      simp only [nearestPoint] at h
      split at h
      · cases h
      · rename_i more e
        cases h
        simp only [vectorQuantize, nearestPoint, bind, Except.bind, ih _ e]
        obtain ⟨h1, _⟩ := argminFrom_spec (metric n) gs g
        obtain ⟨_, h2⟩ := argminFrom_spec (metric (argminFrom (metric n) gs g)) gs g
        have := h2 _ h1
        rw [h0] at this
        have heq : argminFrom (metric (argminFrom (metric n) gs g)) gs g = argminFrom (metric n) gs g := by
          by_contra hne
          exact absurd this (not_le.2 (hpos _ _ (Ne.symm hne)))
        rw [heq]

example : vectorQuantize (fun a b => |a - b|) [0, 1/2, 1] [1/5, 3/10, 9] = .ok [0, 1/2, 1] := by
  decide +kernel

/-- `quantize_and_snap_to_grid` raises for every input: ValueError without notes, NameError with. -/
theorem C73_snap_raises {α : Type} (notes : List α) (grid : ℚ) :
    quantizeAndSnap notes grid = .error (if notes.isEmpty then .value else .name) := by
  cases notes <;> rfl

/-! ### C73: `quantize_note_to_step_grid` -/

/-- The time a step index is sent to. -/
def gridPos (step grid : ℚ) (s : Int) : ℚ :=
  (s / ⌊grid / step⌋ : Int) * grid + (s % ⌊grid / step⌋ : Int) * step

theorem quantizeNoteToGrid_eq (start stop step grid : ℚ) (h0 : 0 ≤ start) (h1 : 0 ≤ stop)
    (hs : 0 < step) (hg : step ≤ grid) :
    quantizeNoteToGrid start stop step grid =
      .ok (gridPos step grid (roundHE (start / step)), gridPos step grid (roundHE (stop / step))) := by
  have hq : 0 ≤ grid / step := by have := hs.le.trans hg; positivity
  have h1g : (1 : Int) ≤ ⌊grid / step⌋ := Int.le_floor.2 (by rw [le_div_iff₀ hs]; push_cast; linarith)
  unfold quantizeNoteToGrid gridPos
  rw [if_neg (by push Not; exact ⟨h0, h1⟩), if_neg hs.ne']
  simp only [pyInt, hq, if_true]
  rw [if_neg (by omega), Int.fdiv_eq_ediv_of_nonneg _ (by omega), Int.fdiv_eq_ediv_of_nonneg _ (by omega),
    Int.fmod_eq_emod_of_nonneg _ (by omega), Int.fmod_eq_emod_of_nonneg _ (by omega)]

/-- The position is the multiple of the step, plus the part of the grid that the steps do not fill,
once for every grid passed. -/
theorem gridPos_eq (step grid : ℚ) (s : Int) :
    gridPos step grid s = s * step + (s / ⌊grid / step⌋ : Int) * (grid - ⌊grid / step⌋ * step) := by
  have h := Int.emod_add_mul_ediv s ⌊grid / step⌋
  have h' : ((s % ⌊grid / step⌋ : Int) : ℚ) = s - ⌊grid / step⌋ * (s / ⌊grid / step⌋ : Int) := by
    rw [eq_sub_iff_add_eq]; exact_mod_cast h
  unfold gridPos
  rw [h']; ring

/-- C73 (step grid): when the grid is a whole number of steps, both ends go to the nearest multiple of
the step. -/
theorem C73_grid_nearest (start stop step grid : ℚ) (h0 : 0 ≤ start) (h1 : 0 ≤ stop) (hs : 0 < step)
    (n : Int) (hn : 1 ≤ n) (hg : grid = n * step) :
    ∃ a b : Int, quantizeNoteToGrid start stop step grid = .ok (a * step, b * step) ∧
      |start - a * step| ≤ step / 2 ∧ |stop - b * step| ≤ step / 2 := by
  have hfl : ⌊grid / step⌋ = n := by rw [hg, mul_div_cancel_right₀ _ hs.ne', Int.floor_intCast]
  have hle : step ≤ grid := by
    rw [hg]
    have : (1 : ℚ) ≤ n := by exact_mod_cast hn
    nlinarith
  have near : ∀ t, |t - roundHE (t / step) * step| ≤ step / 2 := by
    intro t
    have h := roundHE_spec (t / step)
    have e : t - roundHE (t / step) * step = (t / step - roundHE (t / step)) * step := by field_simp
    rw [e, abs_mul, abs_of_pos hs]
    calc _ ≤ 1 / 2 * step := mul_le_mul_of_nonneg_right h hs.le
      _ = _ := by ring
  refine ⟨roundHE (start / step), roundHE (stop / step), ?_, near _, near _⟩
  rw [quantizeNoteToGrid_eq _ _ _ _ h0 h1 hs hle, gridPos_eq, gridPos_eq, hfl, hg]
  congr 2 <;> ring

/-- C73 (step grid, refuted otherwise): if the grid is not a whole number of steps, the displacement
grows without bound: for every bound some time already on a step is moved further than it. -/
theorem C73_grid_drift (step grid bound : ℚ) (hs : 0 < step) (hg : step ≤ grid)
    (hno : ∀ n : Int, grid ≠ n * step) :
    ∃ t q, 0 ≤ t ∧ (∃ k : Int, t = k * step) ∧ quantizeNoteToGrid t t step grid = .ok (q, q) ∧
      bound < q - t := by
  have h1g : (1 : Int) ≤ ⌊grid / step⌋ := Int.le_floor.2 (by rw [le_div_iff₀ hs]; push_cast; linarith)
  have hd : 0 < grid - ⌊grid / step⌋ * step := by
    have h1 : (⌊grid / step⌋ : ℚ) * step ≤ grid := by
      rw [← le_div_iff₀ hs]; exact Int.floor_le _
    have h2 := hno ⌊grid / step⌋
    rcases h1.lt_or_eq with h | h
    · linarith
    · exact absurd h.symm h2
  obtain ⟨m, hm⟩ := exists_nat_gt (bound / (grid - ⌊grid / step⌋ * step))
  have h1q : (1 : ℚ) ≤ ⌊grid / step⌋ := by exact_mod_cast h1g
  have ht0 : (0 : ℚ) ≤ ((m * ⌊grid / step⌋ : Int) : ℚ) * step := by
    push_cast
    have : (0 : ℚ) ≤ m := by positivity
    have h3 : (0 : ℚ) ≤ ⌊grid / step⌋ := by linarith
    positivity
  refine ⟨((m * ⌊grid / step⌋ : Int) : ℚ) * step, _, ht0, ⟨_, rfl⟩,
    quantizeNoteToGrid_eq _ _ _ _ ht0 ht0 hs hg, ?_⟩
  rw [mul_div_cancel_right₀ _ hs.ne', roundHE_int, gridPos_eq, Int.mul_ediv_cancel _ (by omega),
    add_sub_cancel_left]
  rw [div_lt_iff₀ hd] at hm
  exact_mod_cast hm

/-- C73 (step grid, order): a note never ends before it starts, whatever the grid; it can end up with
no length: two times in the same step become equal. -/
theorem C73_grid_order (start stop step grid : ℚ) (h0 : 0 ≤ start) (hle : start ≤ stop) (hs : 0 < step)
    (hg : step ≤ grid) :
    ∃ a b, quantizeNoteToGrid start stop step grid = .ok (a, b) ∧ a ≤ b ∧
      (roundHE (start / step) = roundHE (stop / step) → a = b) := by
  refine ⟨_, _, quantizeNoteToGrid_eq _ _ _ _ h0 (h0.trans hle) hs hg, ?_, fun h => by rw [h]⟩
  have h1g : (1 : Int) ≤ ⌊grid / step⌋ := Int.le_floor.2 (by rw [le_div_iff₀ hs]; push_cast; linarith)
  have hr := roundHE_mono (div_le_div_of_nonneg_right hle hs.le)
  rw [gridPos_eq, gridPos_eq]
  have hd : 0 ≤ grid - ⌊grid / step⌋ * step := by
    have h1 : (⌊grid / step⌋ : ℚ) * step ≤ grid := by
      rw [← le_div_iff₀ hs]; exact Int.floor_le _
    linarith
  have h2 : ((roundHE (start / step) : Int) : ℚ) ≤ roundHE (stop / step) := by exact_mod_cast hr
  have h3 : ((roundHE (start / step) / ⌊grid / step⌋ : Int) : ℚ) ≤
      (roundHE (stop / step) / ⌊grid / step⌋ : Int) := by
    exact_mod_cast Int.ediv_le_ediv (by omega) hr
  have := mul_le_mul_of_nonneg_right h2 hs.le
  have := mul_le_mul_of_nonneg_right h3 hd
  linarith

/-- Refused arguments: negative times are a ValueError; a zero step, and a grid smaller than the step,
divide by zero. -/
theorem C73_grid_errors (start stop step grid : ℚ) :
    (start < 0 ∨ stop < 0 → quantizeNoteToGrid start stop step grid = .error .value) ∧
    (0 ≤ start → 0 ≤ stop → 0 < step → 0 ≤ grid → grid < step →
      quantizeNoteToGrid start stop step grid = .error .zeroDiv) ∧
    (0 ≤ start → 0 ≤ stop → quantizeNoteToGrid start stop 0 grid = .error .zeroDiv) := by
  refine ⟨?_, ?_, ?_⟩
  · intro h; rw [quantizeNoteToGrid, if_pos h]
  · intro h0 h1 hs hg0 hg
    rw [quantizeNoteToGrid, if_neg (by push Not; exact ⟨h0, h1⟩), if_neg hs.ne']
    have hq : 0 ≤ grid / step := by positivity
    have : ⌊grid / step⌋ = 0 := Int.floor_eq_zero_iff.2 ⟨hq, by rw [div_lt_one hs]; exact hg⟩
    simp only [pyInt, hq, if_true, this]
  · intro h0 h1
    rw [quantizeNoteToGrid, if_neg (by push Not; exact ⟨h0, h1⟩), if_pos rfl]

example : quantizeNoteToGrid (6/5) (14/5) 1 4 = .ok (1, 3) := by decide +kernel
example : ∀ n : Int, (5/2 : ℚ) ≠ n * 1 := by
  intro n h
  have h2 : (5 : ℚ) = 2 * n := by linarith
  have : (5 : Int) = 2 * n := by exact_mod_cast h2
  omega

/-- C73 (`interpolates_quantize`, refuted): step indices are counted in ticks but the result adds them
in seconds. Even when the grid is a whole number `n` of steps, the result is the interpolated time plus
the position in the grid times `step * (1 - 1/ticks_per_second)`; it is that time exactly when the note
starts on a grid line (or a tick is a second). -/
theorem C73_interpolate (start step grid tempo : ℚ) (hs : 0 < step) (ht : 0 < tempo)
    (n : Int) (hn : 1 ≤ n) (hg : grid / step * (8 * tempo) = n) :
    ∃ (q : ℚ) (k : Int), interpolatesQuantize start start step grid tempo = .ok (q, q) ∧
      k = roundHE (start * (8 * tempo) / step) ∧
      q = k * step / (8 * tempo) + (k % n : Int) * (step * (1 - 1 / (8 * tempo))) ∧
      (q = k * step / (8 * tempo) ↔ (k % n = 0 ∨ 8 * tempo = 1)) := by
  have e8 : (480 : ℚ) * tempo / 60 = 8 * tempo := by ring
  have h8 : (0 : ℚ) < 8 * tempo := by positivity
  set k := roundHE (start * (8 * tempo) / step) with hk
  have hgrid : grid = n * step / (8 * tempo) := by
    rw [eq_div_iff h8.ne', ← hg]; field_simp
  have hpy : pyInt (n : ℚ) = n := by
    unfold pyInt
    rw [if_pos (by exact_mod_cast (by omega : (0:Int) ≤ n)), Int.floor_intCast]
  have hm : ((k % n : Int) : ℚ) = k - n * (k / n : Int) := by
    rw [eq_sub_iff_add_eq]; exact_mod_cast Int.emod_add_mul_ediv k n
  have key : ((k / n : Int) : ℚ) * grid + ((k % n : Int) : ℚ) * step =
      k * step / (8 * tempo) + ((k % n : Int) : ℚ) * (step * (1 - 1 / (8 * tempo))) := by
    rw [hgrid]
    have : ((k : Int) : ℚ) = ((k % n : Int) : ℚ) + n * ((k / n : Int) : ℚ) := by rw [hm]; ring
    rw [this]
    field_simp
    ring
  refine ⟨_, k, ?_, rfl, key, ?_⟩
  · unfold interpolatesQuantize
    rw [if_neg hs.ne']
    simp only [e8, hg, hpy, ← hk]
    rw [if_neg h8.ne', if_neg (by omega), Int.fdiv_eq_ediv_of_nonneg _ (by omega),
      Int.fmod_eq_emod_of_nonneg _ (by omega)]
  · rw [key]
    constructor
    · intro h
      have h2 : ((k % n : Int) : ℚ) * (step * (1 - 1 / (8 * tempo))) = 0 := by linarith
      rcases mul_eq_zero.1 h2 with h3 | h3
      · left; exact_mod_cast h3
      · right
        rcases mul_eq_zero.1 h3 with h4 | h4
        · exact absurd h4 hs.ne'
        · have : 1 / (8 * tempo) = 1 := by linarith
          rw [div_eq_one_iff_eq h8.ne'] at this
          exact this.symm
    · rintro (h | h)
      · rw [h]; push_cast; ring
      · rw [h]; ring

example : (1 : ℚ) / 240 * (8 * 120) = ((4 : Int) : ℚ) := by norm_num

/-! ### C74: frames -/

/-- C74 (without occupancy): for non-negative times with `start < end` and a positive rate the result
is a non-empty range of frames that covers the note, and it is the smallest one: the first and the last
frame both meet the note. -/
theorem C74_covers (start stop fps occ : ℚ) (h0 : 0 ≤ start) (h1 : start < stop) (hf : 0 < fps)
    (ho : occ ≤ 0) :
    ∃ s e : Int, framesFromTimes start stop fps occ = .ok (s, e) ∧ 0 ≤ s ∧ s < e ∧
      (s : ℚ) / fps ≤ start ∧ start < ((s : ℚ) + 1) / fps ∧ ((e : ℚ) - 1) / fps < stop ∧
      stop ≤ (e : ℚ) / fps := by
  have hlt : start * fps < stop * fps := mul_lt_mul_of_pos_right h1 hf
  have hse : ⌊start * fps⌋ < ⌈stop * fps⌉ := by
    have a := Int.floor_le (start * fps)
    have b := Int.le_ceil (stop * fps)
    have : ((⌊start * fps⌋ : Int) : ℚ) < (⌈stop * fps⌉ : Int) := by linarith
    exact_mod_cast this
  refine ⟨⌊start * fps⌋, ⌈stop * fps⌉, ?_, ?_, hse, ?_, ?_, ?_, ?_⟩
  · rw [framesFromTimes, if_neg (by push Not; exact ⟨h0, by linarith⟩)]
    simp only [not_le.2 hse, if_false, not_lt.2 ho]
  · exact Int.floor_nonneg.2 (by positivity)
  · rw [div_le_iff₀ hf]; exact Int.floor_le _
  · rw [lt_div_iff₀ hf]; exact Int.lt_floor_add_one _
  · rw [div_lt_iff₀ hf]
    have := Int.ceil_lt_add_one (stop * fps)
    linarith
  · rw [le_div_iff₀ hf]; exact Int.le_ceil _

/-- C74 (errors): exactly negative times and an empty frame range are refused. In particular a note
with `end < start` inside one frame is accepted. -/
theorem C74_errors (start stop fps occ : ℚ) :
    (raises (framesFromTimes start stop fps occ) ↔
      start < 0 ∨ stop < 0 ∨ ⌈stop * fps⌉ ≤ ⌊start * fps⌋) ∧
    (raises (framesFromTimes start stop fps occ) → framesFromTimes start stop fps occ = .error .value) := by
  by_cases h : start < 0 ∨ stop < 0
  · have e : framesFromTimes start stop fps occ = .error .value := by rw [framesFromTimes, if_pos h]
    refine ⟨⟨fun _ => ?_, fun _ => ⟨_, e⟩⟩, fun _ => e⟩
    rcases h with h | h
    · exact .inl h
    · exact .inr (.inl h)
  · by_cases h2 : ⌈stop * fps⌉ ≤ ⌊start * fps⌋
    · have e : framesFromTimes start stop fps occ = .error .value := by
        rw [framesFromTimes, if_neg h]; simp only [h2, if_true]
      exact ⟨⟨fun _ => .inr (.inr h2), fun _ => ⟨_, e⟩⟩, fun _ => e⟩
    · have e : ∃ r, framesFromTimes start stop fps occ = .ok r := by
        rw [framesFromTimes, if_neg h]; simp only [h2, if_false]
        by_cases h3 : 0 < occ
        · simp only [h3, if_true]; exact ⟨_, rfl⟩
        · simp only [h3, if_false]; exact ⟨_, rfl⟩
      obtain ⟨r, hr⟩ := e
      have no : ¬ raises (framesFromTimes start stop fps occ) := by
        rintro ⟨x, hx⟩; rw [hr] at hx; cases hx
      refine ⟨⟨fun hx => absurd hx no, ?_⟩, fun hx => absurd hx no⟩
      rintro (h3 | h3 | h3)
      · exact absurd (.inl h3) h
      · exact absurd (.inr h3) h
      · exact absurd h3 h2

example : framesFromTimes (3/4) (1/4) 1 0 = .ok (0, 1) := by decide +kernel

/-- C74 (with occupancy): the range is ordered (`start_frame ≤ end_frame`), possibly empty; the end
frame is never the covering one: at least one frame at the end of the note is dropped, even when the
note fills it completely. -/
theorem C74_occupancy (start stop fps occ : ℚ) (hf : 0 < fps) (ho : 0 < occ) (s e : Int)
    (h : framesFromTimes start stop fps occ = .ok (s, e)) :
    s ≤ e ∧ (s < e → e < ⌈stop * fps⌉) ∧ (s < e → (e : ℚ) / fps < stop) := by
  unfold framesFromTimes at h
  split at h
  · cases h
  · simp only at h
    split at h
    · cases h
    · simp only [ho, if_true, Except.ok.injEq, Prod.mk.injEq] at h
      obtain ⟨h1, h2⟩ := h
      rw [h1] at h2
      have hle : s ≤ e := by rw [← h2]; exact le_max_left _ _
      have hdrop : 1 ≤ ⌈occ - (stop * fps - (⌈stop * fps⌉ : Int)) / fps⌉ := by
        rw [Int.one_le_ceil_iff]
        have : (stop * fps - (⌈stop * fps⌉ : Int)) / fps ≤ 0 :=
          div_nonpos_of_nonpos_of_nonneg (by linarith [Int.le_ceil (stop * fps)]) hf.le
        linarith
      have hlt : s < e → e < ⌈stop * fps⌉ := by
        intro hlt
        rw [← h2] at hlt ⊢
        rcases max_choice s (⌈stop * fps⌉ - ⌈occ - (stop * fps - (⌈stop * fps⌉ : Int)) / fps⌉) with hm | hm
        · rw [hm] at hlt; omega
        · rw [hm]; omega
      refine ⟨hle, hlt, ?_⟩
      intro hse
      have := hlt hse
      rw [div_lt_iff₀ hf]
      have h3 : e ≤ ⌈stop * fps⌉ - 1 := by omega
      have h4 : (e : ℚ) ≤ ⌈stop * fps⌉ - 1 := by exact_mod_cast h3
      linarith [Int.ceil_lt_add_one (stop * fps)]

/-- C74 (occupancy moves the start, refuted below one frame per second): with at least one frame per
second and an occupancy below 1 the start frame stays or moves one frame later, the latter exactly when
the note occupies less than the wanted time of its first frame; -/
theorem C74_start (start stop fps occ : ℚ) (hf : 1 ≤ fps) (ho : 0 < occ) (ho1 : occ ≤ 1) (s e : Int)
    (h : framesFromTimes start stop fps occ = .ok (s, e)) :
    s = ⌊start * fps⌋ + if ((⌊start * fps⌋ : ℚ) + 1) / fps - start < occ then 1 else 0 := by
  have hf0 : 0 < fps := by linarith
  unfold framesFromTimes at h
  split at h
  · cases h
  · simp only at h
    split at h
    · cases h
    · simp only [ho, if_true, Except.ok.injEq, Prod.mk.injEq] at h
      rw [← h.1]
      congr 1
      have e1 : ((⌊start * fps⌋ : ℚ) + 1 - start * fps) / fps = ((⌊start * fps⌋ : ℚ) + 1) / fps - start := by
        field_simp
      rw [e1]
      have hpos : 0 < ((⌊start * fps⌋ : ℚ) + 1) / fps - start := by
        rw [← e1]
        apply div_pos _ hf0
        linarith [Int.lt_floor_add_one (start * fps)]
      have hle1 : ((⌊start * fps⌋ : ℚ) + 1) / fps - start ≤ 1 := by
        rw [← e1, div_le_one hf0]
        linarith [Int.floor_le (start * fps)]
      split
      · rename_i hlt
        rw [Int.ceil_eq_iff]
        push_cast
        constructor <;> linarith
      · rename_i hge
        rw [not_lt] at hge
        rw [Int.ceil_eq_iff]
        push_cast
        constructor <;> linarith

/-- C74 (slow rates, refuted): below one frame per second the start frame moves backwards, to negative
numbers: at one frame in ten seconds, a note of the first ten seconds with occupancy 1/2 gets frame
−9 as its start. -/
theorem C74_negative_frame :
    framesFromTimes 0 10 (1/10) (1/2) = .ok (-9, 0) := by decide +kernel

example : framesFromTimes (1/2) (5/2) 2 (1/10) = .ok (1, 4) := by decide +kernel

end NGC
