import Verif.FloatUtils
import Verif.FloatGridProps
import Verif.FloatClockProps2

/-! C200: the quantizers of `midi_utils` in floats. -/

namespace NGC

/-! ### `ft_quantize_to_nearest_step` -/

theorem ftQuantizeF_nonneg (time sps thr : ℚ) (hs : 0 < sps) (h0 : 0 ≤ thr) (h1 : thr < 1) (ht : 0 ≤ time) :
    ftQuantizeF time sps thr =
      .ok (if b64 (sps * thr) ≤ Int.fract (b64 (time * sps)) then ⌊b64 (time * sps)⌋ + 1 else ⌊b64 (time * sps)⌋) := by
  have hx : 0 ≤ b64 (time * sps) := b64_nonneg (by positivity)
  rw [ftQuantizeF, if_neg (not_le.2 hs), if_neg (by push Not; exact ⟨h0, h1⟩)]
  simp only [not_lt.2 hx, if_false, pyInt, hx, if_true]
  split <;> rfl

/-- **C200, the step of a time.** The time in steps is multiplied once (`x`); the step is one of its two neighbours, upwards from the threshold on. A later time never gets an earlier step. -/
theorem C200_ft_mono (a b sps thr : ℚ) (hs : 0 < sps) (h0 : 0 ≤ thr) (h1 : thr < 1) (ha : 0 ≤ a) (hab : a ≤ b) :
    ∃ j k, ftQuantizeF a sps thr = .ok j ∧ ftQuantizeF b sps thr = .ok k ∧ j ≤ k ∧ |b64 (a * sps) - j| ≤ 1 := by
  refine ⟨_, _, ftQuantizeF_nonneg a sps thr hs h0 h1 ha, ftQuantizeF_nonneg b sps thr hs h0 h1 (ha.trans hab), ?_, ?_⟩
  · have hx : b64 (a * sps) ≤ b64 (b * sps) := b64_mono (mul_le_mul_of_nonneg_right hab hs.le)
    obtain ⟨x, hxx⟩ : ∃ x, x = b64 (a * sps) := ⟨_, rfl⟩
    obtain ⟨y, hyy⟩ : ∃ y, y = b64 (b * sps) := ⟨_, rfl⟩
    rw [← hxx, ← hyy] at hx ⊢
    have hf := Int.floor_mono hx
    rcases hf.lt_or_eq with hlt | heq
    · split <;> split <;> omega
    · have hfr : Int.fract x ≤ Int.fract y := by
        unfold Int.fract; rw [heq]; linarith
      split
      · rename_i h
        rw [if_pos (h.trans hfr)]; omega
      · split <;> omega
  · obtain ⟨x, hxx⟩ : ∃ x, x = b64 (a * sps) := ⟨_, rfl⟩
    rw [← hxx]
    have e1 := Int.floor_le x
    have e2 := Int.lt_floor_add_one x
    split
    · push_cast; rw [abs_le]; constructor <;> linarith
    · rw [abs_le]; constructor <;> linarith

/-- **C200, negative times** are mirrored. -/
theorem C200_ft_odd (time sps thr : ℚ) (hs : 0 < sps) (h0 : 0 ≤ thr) (h1 : thr < 1) (ht : 0 < time) :
    ∃ k, ftQuantizeF time sps thr = .ok k ∧ ftQuantizeF (-time) sps thr = .ok (-k) := by
  refine ⟨_, ftQuantizeF_nonneg time sps thr hs h0 h1 ht.le, ?_⟩
  have hx : 0 < b64 (time * sps) := b64_pos (by positivity)
  have hn : b64 (-time * sps) = -b64 (time * sps) := by rw [neg_mul, b64_neg]
  rw [ftQuantizeF, if_neg (not_le.2 hs), if_neg (by push Not; exact ⟨h0, h1⟩), hn]
  obtain ⟨x, hxx⟩ : ∃ x, x = b64 (time * sps) := ⟨_, rfl⟩
  rw [← hxx] at hx ⊢
  have hneg : -x < 0 := by linarith
  simp only [hneg, if_true, abs_neg, abs_of_pos hx, pyInt, not_le.2 hneg, if_false, Int.ceil_neg]
  split <;> congr 1 <;> ring

/-- **C200, from two steps per second on the default threshold cuts off.** The threshold is multiplied by the rate: whenever the product is at least 1 nothing is rounded up. -/
theorem C200_ft_truncates (time sps thr : ℚ) (hs : 0 < sps) (h0 : 0 ≤ thr) (h1 : thr < 1) (ht : 0 ≤ time) (h : 1 ≤ sps * thr) :
    ftQuantizeF time sps thr = .ok ⌊b64 (time * sps)⌋ := by
  have hb : 1 ≤ b64 (sps * thr) := by
    have := b64_mono h
    have e : b64 1 = 1 := by have := b64_int 1 (by norm_num); simpa using this
    rwa [e] at this
  rw [ftQuantizeF_nonneg _ _ _ hs h0 h1 ht, if_neg]
  have := Int.fract_lt_one (b64 (time * sps))
  linarith

/-- **C200, grid times.** At a rate that is a sum of two powers of two the float nearest to the time of step `k` gets step `k`, with every threshold above 0. -/
theorem C200_ft_grid (k : Nat) (sps : Int) (thr : ℚ) (hk : k < 2 ^ (52 : Nat)) (hs : Spec.TwoPowers sps) (hs2 : sps ≤ 2 ^ (53 : Nat)) (h0 : 0 < thr) (h1 : thr < 1) :
    ftQuantizeF (b64 (k / sps)) sps thr = .ok k := by
  have hpos : 0 < sps := by
    rcases hs with h | ⟨i, j, h⟩ <;> rw [h] <;> positivity
  have hq : (0 : ℚ) < sps := by exact_mod_cast hpos
  have hkey : b64 (b64 ((k : ℚ) / sps) * sps) = k := by
    rcases hs with h | ⟨i, j, h⟩
    · rw [h]
      have : |(k : ℤ)| ≤ 2 ^ (53 : Nat) := by
        rw [abs_of_nonneg (by positivity)]
        have : k ≤ 2 ^ 53 := by omega
        exact_mod_cast this
      have e := b64_int k this
      push_cast at e ⊢
      rw [div_one, mul_one, e, e]
    · rw [h]
      push_cast
      exact div_mul_two_powers k i j hk
  rw [ftQuantizeF_nonneg _ _ _ hq h0.le h1 (b64_nonneg (by positivity)), hkey, if_neg]
  · simp
  · simp only [Int.fract_natCast, not_le]
    exact b64_pos (by positivity)

/-- **C200, errors.** -/
theorem C200_ft_errors (time sps thr : ℚ) : (∃ k, ftQuantizeF time sps thr = .ok k) ↔ 0 < sps ∧ 0 ≤ thr ∧ thr < 1 := by
  constructor
  · rintro ⟨k, h⟩
    unfold ftQuantizeF at h
    split at h
    · cases h
    · split at h
      · cases h
      · rename_i a b
        push Not at a b
        exact ⟨a, b.1, b.2⟩
  · rintro ⟨a, b, c⟩
    rw [ftQuantizeF, if_neg (not_le.2 a), if_neg (by push Not; exact ⟨b, c⟩)]
    simp only
    split <;> split <;> exact ⟨_, rfl⟩

/-- 0.29 seconds are step 29 at 100 steps per second; the result is 28. The repository's own `check_for_nearest` announces 17 results and gets 15 of them. -/
theorem C200_ft_defects :
    ftQuantizeF (b64 0.29) 100 0.5 = .ok 28 ∧ nearestLines.length = 17 ∧
    nearestLines.filter (fun l => l.2 ≠ .ok l.1) = [(3, .ok 2), (2, .ok 1)] := by
  refine ⟨by decide +kernel, by decide +kernel, by decide +kernel⟩

/-! ### `quantize_note_to_step_grid` -/

/-- **C200, powers of two.** If the step is a power of two of a second (1, 0.5, 0.25, …) and the grid `n` steps, the quantized times are the exact nearest steps: nothing is lost. -/
theorem C200_grid_exact (start stop : ℚ) (p : ℤ) (n : Nat) (hn : 1 ≤ n) (hn2 : n ≤ 2 ^ (53 : Nat)) (h0 : 0 ≤ start) (h1 : 0 ≤ stop) (f0 : b64 start = start) (f1 : b64 stop = stop)
    (b0 : start / 2 ^ p ≤ 2 ^ (52 : Nat)) (b1 : stop / 2 ^ p ≤ 2 ^ (52 : Nat)) :
    ∃ i j : Nat, quantizeNoteToGridF start stop (2 ^ p) (n * 2 ^ p) = .ok (i * 2 ^ p, j * 2 ^ p) ∧
      |start - i * 2 ^ p| ≤ 2 ^ p / 2 ∧ |stop - j * 2 ^ p| ≤ 2 ^ p / 2 ∧ (start ≤ stop → i ≤ j) := by
  have hp : (0 : ℚ) < 2 ^ p := zpow_pos (by norm_num) _
  have hnq : (1 : ℚ) ≤ n := by exact_mod_cast hn
  have hspg : pyInt (b64 ((n : ℚ) * 2 ^ p / 2 ^ p)) = n := by
    rw [mul_div_assoc, div_self hp.ne', mul_one]
    have e := b64_int n (by rw [abs_of_nonneg (by positivity)]; exact_mod_cast hn2)
    push_cast at e
    rw [e, pyInt, if_pos (by positivity)]
    simp
  have hdiv : ∀ t : ℚ, b64 t = t → b64 (t / 2 ^ p) = t / 2 ^ p := by
    intro t ht
    have : t / 2 ^ p = t * 2 ^ (-p) := by rw [zpow_neg]; rfl
    rw [this, b64_scale, ht]
  have hstep : ∀ t : ℚ, 0 ≤ t → t / 2 ^ p ≤ 2 ^ (52 : Nat) → ∃ k : Nat, roundHE (t / 2 ^ p) = k ∧ k ≤ 2 ^ (53 : Nat) ∧ |t - k * 2 ^ p| ≤ 2 ^ p / 2 := by
    intro t ht hb
    have a : 0 ≤ roundHE (t / 2 ^ p) := by
      have := roundHE_mono (a := 0) (b := t / 2 ^ p) (by positivity)
      have z : roundHE 0 = 0 := by decide +kernel
      rwa [z] at this
    obtain ⟨k, hk⟩ := Int.eq_ofNat_of_zero_le a
    have sp := roundHE_spec (t / 2 ^ p)
    rw [hk] at sp
    push_cast at sp
    refine ⟨k, hk, ?_, ?_⟩
    · rw [abs_le] at sp
      have : (k : ℚ) ≤ 9007199254740992 := by norm_num at hb; linarith [sp.1]
      exact_mod_cast this
    · have e : t - k * 2 ^ p = (t / 2 ^ p - k) * 2 ^ p := by rw [sub_mul, div_mul_cancel₀ _ hp.ne']
      rw [e, abs_mul, abs_of_pos hp]
      nlinarith
  have htime : ∀ k : Nat, k ≤ 2 ^ (53 : Nat) → gridTimeOf k n (2 ^ p) (n * 2 ^ p) = k * 2 ^ p := by
    intro k hk
    have hfd : Int.fdiv (k : ℤ) n = ((k / n : ℕ) : ℤ) := by
      rw [Int.fdiv_eq_ediv_of_nonneg _ (by positivity)]; rfl
    have hfm : Int.fmod (k : ℤ) n = ((k % n : ℕ) : ℤ) := by
      rw [Int.fmod_eq_emod_of_nonneg _ (by positivity)]; rfl
    have hdm := Nat.div_add_mod k n
    have c1 : k / n ≤ k := Nat.div_le_self _ _
    have c2 : k / n * n ≤ k := Nat.div_mul_le_self _ _
    have c3 : k % n ≤ k := Nat.mod_le _ _
    have i1 := b64_int ((k / n : ℕ) : ℤ) (by rw [abs_of_nonneg (by positivity)]; exact_mod_cast (by omega : k / n ≤ 2 ^ 53))
    have i2 := b64_int ((k % n : ℕ) : ℤ) (by rw [abs_of_nonneg (by positivity)]; exact_mod_cast (by omega : k % n ≤ 2 ^ 53))
    have r1 := b64_repr ((k / n * n : ℕ) : ℤ) p (by rw [abs_of_nonneg (by positivity)]; exact_mod_cast (by omega : k / n * n ≤ 2 ^ 53))
    have r2 := b64_repr ((k % n : ℕ) : ℤ) p (by rw [abs_of_nonneg (by positivity)]; exact_mod_cast (by omega : k % n ≤ 2 ^ 53))
    have r3 := b64_repr ((k : ℕ) : ℤ) p (by rw [abs_of_nonneg (by positivity)]; exact_mod_cast hk)
    have e1 : (((k / n : ℕ) : ℤ) : ℚ) * (n * 2 ^ p) = ((((k / n * n : ℕ) : ℤ)) : ℚ) * 2 ^ p := by push_cast; ring
    have e3 : ((((k / n * n : ℕ) : ℤ)) : ℚ) * 2 ^ p + (((k % n : ℕ) : ℤ) : ℚ) * 2 ^ p = ((k : ℤ) : ℚ) * 2 ^ p := by
      rw [← add_mul]
      congr 1
      have : k / n * n + k % n = k := by rw [Nat.mul_comm]; exact hdm
      exact_mod_cast this
    unfold gridTimeOf
    rw [hfd, hfm, i1, i2, e1, r1, r2, e3, r3]
    push_cast; rfl
  obtain ⟨i, hi, hib, hie⟩ := hstep start h0 b0
  obtain ⟨j, hj, hjb, hje⟩ := hstep stop h1 b1
  refine ⟨i, j, ?_, hie, hje, ?_⟩
  · rw [quantizeNoteToGridF, if_neg (by push Not; exact ⟨h0, h1⟩), if_neg hp.ne']
    simp only [hspg, hdiv _ f0, hdiv _ f1, hi, hj]
    rw [if_neg (by exact_mod_cast (by omega : n ≠ 0)), htime i hib, htime j hjb]
  · intro hle
    have := roundHE_mono (div_le_div_of_nonneg_right hle hp.le)
    rw [hi, hj] at this
    exact_mod_cast this

/-- The rounding of one quantized time. -/
theorem gridTimeOf_err (s d : Nat) (step grid : ℚ) (hs : s ≤ 2 ^ (53 : Nat)) (h0 : 0 ≤ step) (h1 : 0 ≤ grid) :
    |gridTimeOf s d step grid - ((s / d : ℕ) * grid + (s % d : ℕ) * step)| ≤ ((s / d : ℕ) * grid + (s % d : ℕ) * step) / 2 ^ (51 : Nat) := by
  have hfd : Int.fdiv (s : ℤ) d = ((s / d : ℕ) : ℤ) := by
    rw [Int.fdiv_eq_ediv_of_nonneg _ (by positivity)]; rfl
  have hfm : Int.fmod (s : ℤ) d = ((s % d : ℕ) : ℤ) := by
    rw [Int.fmod_eq_emod_of_nonneg _ (by positivity)]; rfl
  have c1 : s / d ≤ s := Nat.div_le_self _ _
  have c3 : s % d ≤ s := Nat.mod_le _ _
  have i1 := b64_int ((s / d : ℕ) : ℤ) (by rw [abs_of_nonneg (by positivity)]; exact_mod_cast (by omega : s / d ≤ 2 ^ 53))
  have i2 := b64_int ((s % d : ℕ) : ℤ) (by rw [abs_of_nonneg (by positivity)]; exact_mod_cast (by omega : s % d ≤ 2 ^ 53))
  unfold gridTimeOf
  rw [hfd, hfm, i1, i2]
  rw [Int.cast_natCast, Int.cast_natCast]
  have ha : (0 : ℚ) ≤ ((s / d : ℕ) : ℚ) * grid := by positivity
  have hb : (0 : ℚ) ≤ ((s % d : ℕ) : ℚ) * step := by positivity
  generalize ((s / d : ℕ) : ℚ) * grid = a at *
  generalize ((s % d : ℕ) : ℚ) * step = b at *
  have ea := b64_err a
  have eb := b64_err b
  have ec := b64_err (b64 a + b64 b)
  have na := b64_nonneg ha
  have nb := b64_nonneg hb
  rw [abs_of_nonneg ha] at ea
  rw [abs_of_nonneg hb] at eb
  rw [abs_of_nonneg (by linarith : 0 ≤ b64 a + b64 b)] at ec
  rw [abs_le] at ea eb ec ⊢
  norm_num at ea eb ec ⊢
  constructor <;> linarith [ea.1, ea.2, eb.1, eb.2, ec.1, ec.2]

/-- **C200, the grid that does not come out.** Steps of 0.1 seconds and a grid of 0.3: `int(0.3 / 0.1)` is 2, so the third step of every grid cell is taken for the first of the next cell. The time of
step `k` is sent to that of step `k + k/2`: from 0.2 seconds on every time is moved to about one and a half times itself. -/
theorem C200_grid_lost (k : Nat) (hk : k ≤ 2 ^ (49 : Nat)) :
    ∃ t, quantizeNoteToGridF (b64 (k / 10)) (b64 (k / 10)) (b64 (1/10)) (b64 (3/10)) = .ok (t, t) ∧
      |t - ((k + k / 2 : ℕ) : ℚ) / 10| ≤ (k + k / 2 : ℕ) / 2 ^ (53 : Nat) := by
  have hspg : pyInt (b64 (b64 (3/10) / b64 (1/10))) = (2 : ℕ) := by decide +kernel
  have hp : 0 < b64 (1/10) := b64_pos (by norm_num)
  have hg : 0 < b64 (3/10) := b64_pos (by norm_num)
  have hk0 : (0 : ℚ) ≤ k / 10 := by positivity
  have hkq : (k : ℚ) ≤ 562949953421312 := by exact_mod_cast hk
  have hround : roundHE (b64 (b64 ((k : ℚ) / 10) / b64 (1/10))) = (k : ℕ) := by
    apply roundHE_of_near
    have e1 := b64_err ((k : ℚ) / 10)
    have e2 := b64_err (1/10)
    have e3 := b64_err (b64 ((k : ℚ) / 10) / b64 (1/10))
    have n1 := b64_nonneg hk0
    rw [abs_of_nonneg hk0] at e1
    rw [abs_of_pos (by norm_num : (0 : ℚ) < 1/10)] at e2
    have hq : b64 ((k : ℚ) / 10) / b64 (1/10) * b64 (1/10) = b64 ((k : ℚ) / 10) := div_mul_cancel₀ _ hp.ne'
    have hqn : 0 ≤ b64 ((k : ℚ) / 10) / b64 (1/10) := by positivity
    rw [abs_of_nonneg hqn] at e3
    generalize b64 ((k : ℚ) / 10) / b64 (1/10) = q at *
    generalize b64 ((k : ℚ) / 10) = a at *
    generalize b64 (1/10 : ℚ) = st at *
    have hkk : (0 : ℚ) ≤ k := by positivity
    rw [abs_le] at e1 e2 e3
    rw [abs_lt]
    norm_num at e1 e2 e3
    -- q is within k·2^-51 of k
    have u1 : q ≤ k + k / 2 ^ (51 : Nat) := by
      by_contra hc
      rw [not_le] at hc
      norm_num at hc
      nlinarith [mul_lt_mul_of_pos_right hc hp]
    have u2 : k - k / 2 ^ (51 : Nat) ≤ q := by
      by_contra hc
      rw [not_le] at hc
      norm_num at hc
      nlinarith [mul_lt_mul_of_pos_right hc hp]
    norm_num at u1 u2
    push_cast
    constructor <;> linarith [e3.1, e3.2]
  refine ⟨gridTimeOf (k : ℕ) (2 : ℕ) (b64 (1/10)) (b64 (3/10)), ?_, ?_⟩
  · rw [quantizeNoteToGridF, if_neg (by push Not; exact ⟨b64_nonneg hk0, b64_nonneg hk0⟩), if_neg hp.ne']
    simp only [hspg, hround]
    rw [if_neg (by norm_num)]
  · have err := gridTimeOf_err k 2 (b64 (1/10)) (b64 (3/10)) (by norm_num at hk ⊢; omega) hp.le hg.le
    have e1 := b64_err (1/10)
    have e2 := b64_err (3/10)
    rw [abs_of_pos (by norm_num : (0 : ℚ) < 1/10)] at e1
    rw [abs_of_pos (by norm_num : (0 : ℚ) < 3/10)] at e2
    have hc : ((k + k / 2 : ℕ) : ℚ) = 3 * (k / 2 : ℕ) + (k % 2 : ℕ) := by
      exact_mod_cast (by omega : k + k / 2 = 3 * (k / 2) + k % 2)
    rw [hc]
    have g1 : (0 : ℚ) ≤ (k / 2 : ℕ) := by positivity
    have g2 : (0 : ℚ) ≤ (k % 2 : ℕ) := by positivity
    generalize ((k / 2 : ℕ) : ℚ) = u at *
    generalize ((k % 2 : ℕ) : ℚ) = v at *
    generalize b64 (1/10 : ℚ) = st at *
    generalize b64 (3/10 : ℚ) = gr at *
    generalize gridTimeOf (k : ℕ) (2 : ℕ) st gr = t at *
    rw [abs_le] at e1 e2 err ⊢
    norm_num at e1 e2 err ⊢
    have p1 := mul_le_mul_of_nonneg_left e1.1 g2
    have p2 := mul_le_mul_of_nonneg_left e1.2 g2
    have p3 := mul_le_mul_of_nonneg_left e2.1 g1
    have p4 := mul_le_mul_of_nonneg_left e2.2 g1
    constructor <;> linarith [err.1, err.2]

/-- 0.6 seconds on a grid of 0.3 seconds become 0.8999999999999999. -/
example : (quantizeNoteToGridF (b64 0.6) (b64 0.6) (b64 0.1) (b64 0.3)).toOption = some (2026619832316723 / 2251799813685248, 2026619832316723 / 2251799813685248) := by
  decide +kernel

/-- **C200, errors.** A negative time, a zero step, or a grid (in floats) shorter than a step. -/
theorem C200_grid_errors (start stop step grid : ℚ) :
    ((start < 0 ∨ stop < 0) → quantizeNoteToGridF start stop step grid = .error .value) ∧
    (0 ≤ start → 0 ≤ stop → quantizeNoteToGridF start stop 0 grid = .error .zeroDiv) ∧
    (0 ≤ start → 0 ≤ stop → 0 < step → 0 ≤ grid → (quantizeNoteToGridF start stop step grid = .error .zeroDiv ↔ b64 (grid / step) < 1)) := by
  refine ⟨fun h => by rw [quantizeNoteToGridF, if_pos h], fun a b => by rw [quantizeNoteToGridF, if_neg (by push Not; exact ⟨a, b⟩), if_pos rfl], ?_⟩
  intro a b c d
  have hn : 0 ≤ b64 (grid / step) := b64_nonneg (by positivity)
  rw [quantizeNoteToGridF, if_neg (by push Not; exact ⟨a, b⟩), if_neg c.ne']
  simp only
  have hz : pyInt (b64 (grid / step)) = 0 ↔ b64 (grid / step) < 1 := by
    rw [pyInt, if_pos hn, Int.floor_eq_zero_iff]
    constructor
    · exact fun h => h.2
    · exact fun h => ⟨hn, h⟩
  split
  · rename_i h; exact ⟨fun _ => hz.1 h, fun _ => rfl⟩
  · rename_i h; exact ⟨fun g => (by cases g), fun g => absurd (hz.2 g) h⟩

/-- The repository's own `check_grid_quantization` passes. -/
theorem C200_check_passes : checkGridQuantization = .ok () := by decide +kernel

/-! ### `frames_from_times` -/

theorem floor_b64_between (x : ℚ) (h0 : 0 ≤ x) (h1 : x ≤ 2 ^ (52 : Nat)) : ⌊x⌋ ≤ ⌊b64 x⌋ ∧ ⌊x⌋ ≤ ⌈b64 x⌉ ∧ ⌊b64 x⌋ ≤ ⌈x⌉ ∧ ⌈b64 x⌉ ≤ ⌈x⌉ := by
  have f0 : 0 ≤ ⌊x⌋ := Int.floor_nonneg.2 h0
  have f1 : ⌈x⌉ ≤ 2 ^ (52 : Nat) := Int.ceil_le.2 (by push_cast; exact h1)
  have f2 : ⌊x⌋ ≤ ⌈x⌉ := Int.floor_le_ceil x
  have a := b64_mono (Int.floor_le x)
  have b := b64_mono (Int.le_ceil x)
  rw [b64_int _ (by rw [abs_of_nonneg f0]; omega)] at a
  rw [b64_int _ (by rw [abs_of_nonneg (by omega)]; omega)] at b
  refine ⟨Int.le_floor.2 a, ?_, ?_, Int.ceil_le.2 b⟩
  · have := Int.le_ceil (b64 x); exact_mod_cast a.trans this
  · have := Int.floor_le (b64 x); exact_mod_cast this.trans b

/-- **C200, frames.** Compared with the exact computation the first frame can only be the next one, and the last only the one before: rounding never makes the frames start before the note or end after the
frames the note touches. -/
theorem C200_frames (start stop fps : ℚ) (s e : Int) (h0 : 0 ≤ start) (h1 : 0 ≤ stop) (hf : 0 < fps) (b0 : start * fps ≤ 2 ^ (52 : Nat)) (b1 : stop * fps ≤ 2 ^ (52 : Nat))
    (h : framesFromTimesF start stop fps = .ok (s, e)) :
    s < e ∧ (s = ⌊start * fps⌋ ∨ s = ⌈start * fps⌉) ∧ (e = ⌈stop * fps⌉ ∨ e = ⌊stop * fps⌋) := by
  rw [framesFromTimesF, if_neg (by push Not; exact ⟨h0, h1⟩)] at h
  simp only at h
  split at h
  · cases h
  · rename_i hlt
    cases h
    obtain ⟨a, _, c, _⟩ := floor_b64_between (start * fps) (by positivity) b0
    obtain ⟨_, a', _, c'⟩ := floor_b64_between (stop * fps) (by positivity) b1
    have d1 := Int.ceil_le_floor_add_one (start * fps)
    have d2 := Int.ceil_le_floor_add_one (stop * fps)
    refine ⟨by omega, ?_, ?_⟩ <;> omega

/-- **C200, a note of a frame or more always has frames.** -/
theorem C200_frames_ok (start stop fps : ℚ) (h0 : 0 ≤ start) (hf : 0 < fps) (b1 : stop * fps ≤ 2 ^ (52 : Nat)) (hd : start * fps + 1 < stop * fps) :
    ∃ s e, framesFromTimesF start stop fps = .ok (s, e) ∧ s < e := by
  have hs : 0 ≤ start * fps := by positivity
  have hst : 0 ≤ stop := by
    by_contra hc
    rw [not_le] at hc
    have := mul_neg_of_neg_of_pos hc hf
    linarith
  rw [framesFromTimesF, if_neg (by push Not; exact ⟨h0, hst⟩)]
  simp only
  have hlt : ⌊b64 (start * fps)⌋ < ⌈b64 (stop * fps)⌉ := by
    obtain ⟨_, _, c, _⟩ := floor_b64_between (start * fps) hs (by linarith)
    obtain ⟨_, a', _, _⟩ := floor_b64_between (stop * fps) (by linarith) b1
    by_contra hc
    rw [not_lt] at hc
    have g : ⌊stop * fps⌋ ≤ ⌈start * fps⌉ := by omega
    have g2 : ⌈start * fps⌉ ≤ ⌊stop * fps⌋ := by
      have q := Int.ceil_lt_add_one (start * fps)
      exact Int.le_floor.2 (by linarith)
    -- a whole number N between: start·fps ≤ N ≤ stop·fps; both rounded to N
    have h3 : ⌊b64 (start * fps)⌋ = ⌊stop * fps⌋ := by omega
    have h4 : ⌈b64 (stop * fps)⌉ = ⌊stop * fps⌋ := by omega
    have l1 : ((⌊stop * fps⌋ : ℤ) : ℚ) ≤ b64 (start * fps) := by rw [← h3]; exact Int.floor_le _
    have l2 : b64 (stop * fps) ≤ ((⌊stop * fps⌋ : ℤ) : ℚ) := by rw [← h4]; exact Int.le_ceil _
    have l3 : b64 (start * fps) ≤ b64 (stop * fps) := b64_mono (by linarith)
    have e1 := b64_err (start * fps)
    have e2 := b64_err (stop * fps)
    rw [abs_of_nonneg hs, abs_le] at e1
    rw [abs_of_nonneg (by linarith : 0 ≤ stop * fps), abs_le] at e2
    norm_num at e1 e2 b1
    linarith [e1.1, e1.2, e2.1, e2.2]
  rw [if_neg (by omega)]
  exact ⟨_, _, rfl, hlt⟩

/-- **C200, frames of grid times.** At a frame rate that is a sum of two powers of two, the floats nearest to the times of the frames `i < j` give the frames from `i` to `j`. -/
theorem C200_frames_grid (i j : Nat) (fps : Int) (hij : i < j) (hj : j < 2 ^ (52 : Nat)) (hs : Spec.TwoPowers fps) :
    framesFromTimesF (b64 (i / fps)) (b64 (j / fps)) fps = .ok ((i : Int), (j : Int)) := by
  have hpos : 0 < fps := by
    rcases hs with h | ⟨i, j, h⟩ <;> rw [h] <;> positivity
  have hq : (0 : ℚ) < fps := by exact_mod_cast hpos
  have hkey : ∀ k : Nat, k < 2 ^ (52 : Nat) → b64 (b64 ((k : ℚ) / fps) * fps) = k := by
    intro k hk
    rcases hs with h | ⟨i, j, h⟩
    · rw [h]
      have : |(k : ℤ)| ≤ 2 ^ (53 : Nat) := by
        rw [abs_of_nonneg (by positivity)]
        have : k ≤ 2 ^ 53 := by omega
        exact_mod_cast this
      have e := b64_int k this
      push_cast at e ⊢
      rw [div_one, mul_one, e, e]
    · rw [h]
      push_cast
      exact div_mul_two_powers k i j hk
  rw [framesFromTimesF, if_neg (by push Not; exact ⟨b64_nonneg (by positivity), b64_nonneg (by positivity)⟩)]
  simp only [hkey i (by omega), hkey j hj]
  simp only [Int.floor_natCast, Int.ceil_natCast]
  rw [if_neg (by omega)]

/-- Rounding can help: 0.1 is a little above a tenth, so at 10 frames per second it touches two frames; in floats the end is frame 1. -/
example : (framesFromTimesF 0 (b64 0.1) 10).toOption = some (0, 1) ∧ (framesFromTimes 0 (b64 0.1) 10 0).toOption = some (0, 2) := by
  refine ⟨by decide +kernel, by decide +kernel⟩

/-- The hypotheses are met. -/
example : ftQuantizeF (b64 (7 / 10)) 10 (1/2) = .ok 7 ∧ (framesFromTimesF (b64 (3 / 10)) (b64 (7 / 10)) 10).toOption = some (3, 7) ∧
    (quantizeNoteToGridF (b64 1.2) (b64 2.8) (2 ^ (0 : ℤ)) ((4 : ℕ) * 2 ^ (0 : ℤ))).toOption = some (1, 3) := by
  refine ⟨by decide +kernel, by decide +kernel, by decide +kernel⟩

end NGC
