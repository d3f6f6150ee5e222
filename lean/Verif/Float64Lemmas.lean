import Verif.Float64

/-! Facts about rounding to binary64. -/

namespace NGC

theorem ulp64_pos (q : ℚ) : 0 < ulp64 q := by unfold ulp64; exact zpow_pos (by norm_num) _

theorem two_cast : ((2 : ℕ) : ℚ) = 2 := by norm_num

theorem ulp64_le {q : ℚ} (hq : q ≠ 0) : 2 ^ (52 : Nat) * ulp64 q ≤ |q| := by
  have h := Int.zpow_log_le_self (b := 2) (r := |q|) (by norm_num) (abs_pos.2 hq)
  rw [two_cast] at h
  unfold ulp64
  rw [← zpow_natCast, ← zpow_add₀ (by norm_num)]
  have : ((52 : ℕ) : ℤ) + (Int.log 2 |q| - 52) = Int.log 2 |q| := by push_cast; ring
  rw [this]
  exact h

theorem ulp64_lt (q : ℚ) : |q| < 2 ^ (53 : Nat) * ulp64 q := by
  have h := Int.lt_zpow_succ_log_self (b := 2) (by norm_num) |q|
  rw [two_cast] at h
  unfold ulp64
  rw [← zpow_natCast, ← zpow_add₀ (by norm_num)]
  have : ((53 : ℕ) : ℤ) + (Int.log 2 |q| - 52) = Int.log 2 |q| + 1 := by push_cast; ring
  rw [this]
  exact h

theorem roundHE_neg (q : ℚ) : roundHE (-q) = -roundHE q := by
  have h1 := Int.floor_le q
  have h2 := Int.lt_floor_add_one q
  by_cases hi : q = ⌊q⌋
  · rw [hi, ← Int.cast_neg, roundHE_int, roundHE_int]
  · have hlt : (⌊q⌋ : ℚ) < q := lt_of_le_of_ne h1 (Ne.symm hi)
    have hf : ⌊-q⌋ = -⌊q⌋ - 1 := by
      rw [Int.floor_eq_iff]
      push_cast
      constructor <;> linarith
    unfold roundHE
    simp only [hf]
    push_cast
    split_ifs <;> first | omega | (exfalso; linarith)

theorem b64_zero : b64 0 = 0 := by unfold b64; rw [if_pos rfl]

theorem b64_neg (q : ℚ) : b64 (-q) = -b64 q := by
  unfold b64
  by_cases h : q = 0
  · subst h; simp
  · rw [if_neg h, if_neg (by simpa using h)]
    have : ulp64 (-q) = ulp64 q := by unfold ulp64; rw [abs_neg]
    rw [this, neg_div, roundHE_neg]
    push_cast
    ring

theorem b64_err_ulp (q : ℚ) : |q - b64 q| ≤ ulp64 q / 2 := by
  unfold b64
  by_cases h : q = 0
  · rw [if_pos h, h]
    have := ulp64_pos 0
    simp
    linarith
  · rw [if_neg h]
    have hu := ulp64_pos q
    have hr := roundHE_spec (q / ulp64 q)
    have : q - roundHE (q / ulp64 q) * ulp64 q = (q / ulp64 q - roundHE (q / ulp64 q)) * ulp64 q := by field_simp
    rw [this, abs_mul, abs_of_pos hu]
    nlinarith

/-- The relative error of one rounding. -/
theorem b64_err (q : ℚ) : |q - b64 q| ≤ |q| / 2 ^ (53 : Nat) := by
  by_cases h : q = 0
  · subst h; rw [b64_zero]; simp
  · have h1 := b64_err_ulp q
    have h2 := ulp64_le h
    refine h1.trans ?_
    rw [le_div_iff₀ (by positivity)]
    linarith

theorem b64_nonneg {q : ℚ} (h : 0 ≤ q) : 0 ≤ b64 q := by
  have := b64_err q
  rw [abs_of_nonneg h, abs_le] at this
  have h2 : q / 2 ^ (53 : Nat) ≤ q := div_le_self h (by norm_num)
  linarith [this.2]

theorem b64_pos {q : ℚ} (h : 0 < q) : 0 < b64 q := by
  have := b64_err q
  rw [abs_of_pos h, abs_le] at this
  have h2 : q / 2 ^ (53 : Nat) < q := div_lt_self h (by norm_num)
  linarith [this.2]

theorem b64_mono_pos {x y : ℚ} (hx : 0 < x) (h : x ≤ y) : b64 x ≤ b64 y := by
  have hy : 0 < y := lt_of_lt_of_le hx h
  have hlog : Int.log 2 |x| ≤ Int.log 2 |y| := by
    rw [abs_of_pos hx, abs_of_pos hy]; exact Int.log_mono_right hx h
  have hux := ulp64_pos x
  have huy := ulp64_pos y
  rcases hlog.eq_or_lt with he | hlt
  · have hu : ulp64 x = ulp64 y := by unfold ulp64; rw [he]
    unfold b64
    rw [if_neg hx.ne', if_neg hy.ne', hu]
    have : roundHE (x / ulp64 y) ≤ roundHE (y / ulp64 y) := roundHE_mono (by
      rw [div_le_div_iff_of_pos_right huy]; exact h)
    have : (roundHE (x / ulp64 y) : ℚ) ≤ roundHE (y / ulp64 y) := by exact_mod_cast this
    exact mul_le_mul_of_nonneg_right this huy.le
  · have e1 : b64 x ≤ 2 ^ (53 : Nat) * ulp64 x := by
      unfold b64
      rw [if_neg hx.ne']
      have h1 := ulp64_lt x
      rw [abs_of_pos hx] at h1
      have : roundHE (x / ulp64 x) ≤ roundHE (((2 ^ (53 : Nat) : ℤ)) : ℚ) := roundHE_mono (by
        rw [div_le_iff₀ hux]; push_cast; exact h1.le)
      rw [roundHE_int] at this
      have : (roundHE (x / ulp64 x) : ℚ) ≤ ((2 ^ (53 : Nat) : ℤ) : ℚ) := by exact_mod_cast this
      push_cast at this
      exact mul_le_mul_of_nonneg_right this hux.le
    have e2 : 2 ^ (52 : Nat) * ulp64 y ≤ b64 y := by
      unfold b64
      rw [if_neg hy.ne']
      have h1 := ulp64_le hy.ne'
      rw [abs_of_pos hy] at h1
      have : roundHE (((2 ^ (52 : Nat) : ℤ)) : ℚ) ≤ roundHE (y / ulp64 y) := roundHE_mono (by
        rw [le_div_iff₀ huy]; push_cast; exact h1)
      rw [roundHE_int] at this
      have : ((2 ^ (52 : Nat) : ℤ) : ℚ) ≤ (roundHE (y / ulp64 y) : ℚ) := by exact_mod_cast this
      push_cast at this
      exact mul_le_mul_of_nonneg_right this huy.le
    have e3 : 2 * ulp64 x ≤ ulp64 y := by
      unfold ulp64
      rw [← zpow_one_add₀ (by norm_num : (2 : ℚ) ≠ 0)]
      exact zpow_le_zpow_right₀ (by norm_num) (by omega)
    calc b64 x ≤ 2 ^ (53 : Nat) * ulp64 x := e1
      _ = 2 ^ (52 : Nat) * (2 * ulp64 x) := by ring
      _ ≤ 2 ^ (52 : Nat) * ulp64 y := by apply mul_le_mul_of_nonneg_left e3; positivity
      _ ≤ b64 y := e2

/-- Rounding keeps order. -/
theorem b64_mono {x y : ℚ} (h : x ≤ y) : b64 x ≤ b64 y := by
  rcases lt_trichotomy x 0 with hx | hx | hx
  · rcases lt_trichotomy y 0 with hy | hy | hy
    · have := b64_mono_pos (x := -y) (y := -x) (by linarith) (by linarith)
      rw [b64_neg, b64_neg] at this
      linarith
    · subst hy
      have := b64_nonneg (q := -x) (by linarith)
      rw [b64_neg] at this
      rw [b64_zero]
      linarith
    · have h1 := b64_nonneg (q := -x) (by linarith)
      rw [b64_neg] at h1
      have := b64_nonneg hy.le
      linarith
  · subst hx; rw [b64_zero]; exact b64_nonneg h
  · exact b64_mono_pos hx h

/-- Numbers with at most 53 bits are floats. -/
theorem b64_repr (m s : ℤ) (hm : |m| ≤ 2 ^ (53 : Nat)) : b64 ((m : ℚ) * 2 ^ s) = (m : ℚ) * 2 ^ s := by
  by_cases h0 : m = 0
  · subst h0; simp [b64_zero]
  have hp : (0 : ℚ) < 2 ^ s := zpow_pos (by norm_num) _
  have hq : (m : ℚ) * 2 ^ s ≠ 0 := mul_ne_zero (by exact_mod_cast h0) hp.ne'
  unfold b64
  rw [if_neg hq]
  have hu := ulp64_pos ((m : ℚ) * 2 ^ s)
  suffices h : ∃ k : ℤ, (m : ℚ) * 2 ^ s / ulp64 ((m : ℚ) * 2 ^ s) = k by
    obtain ⟨k, hk⟩ := h
    rw [hk, roundHE_int, ← hk]
    field_simp
  have habs : |(m : ℚ) * 2 ^ s| = (|m| : ℤ) * 2 ^ s := by
    rw [abs_mul, abs_of_pos hp, Int.cast_abs]
  rcases hm.lt_or_eq with hlt | heq
  · have hlog : Int.log 2 |(m : ℚ) * 2 ^ s| < 53 + s := by
      rw [← Int.lt_zpow_iff_log_lt (by norm_num) (abs_pos.2 hq), two_cast, habs, zpow_add₀ (by norm_num)]
      apply mul_lt_mul_of_pos_right _ hp
      have h3 : ((|m| : ℤ) : ℚ) < ((2 ^ (53 : Nat) : ℤ) : ℚ) := Int.cast_lt.2 hlt
      have h4 : ((2 ^ (53 : Nat) : ℤ) : ℚ) = (2 : ℚ) ^ (53 : ℤ) := by norm_num
      rw [← h4]
      exact h3
    refine ⟨m * 2 ^ (s - (Int.log 2 |(m : ℚ) * 2 ^ s| - 52)).toNat, ?_⟩
    unfold ulp64
    generalize Int.log 2 |(m : ℚ) * 2 ^ s| = e at hlog
    push_cast
    rw [← zpow_natCast, Int.toNat_of_nonneg (by omega), mul_div_assoc, ← zpow_sub₀ (by norm_num)]
  · have hlog : Int.log 2 |(m : ℚ) * 2 ^ s| = 53 + s := by
      rw [habs, heq]
      have : (((2 ^ (53 : Nat) : ℤ)) : ℚ) * 2 ^ s = ((2 : ℕ) : ℚ) ^ ((53 : ℤ) + s) := by
        rw [two_cast, zpow_add₀ (by norm_num)]
        norm_num
      rw [this]
      exact Int.log_zpow (by norm_num) _
    have hmm : m = 2 * (m / 2) := by
      rcases abs_cases m with ⟨h, _⟩ | ⟨h, _⟩ <;> omega
    refine ⟨m / 2, ?_⟩
    unfold ulp64
    rw [hlog]
    have : (53 + s - 52 : ℤ) = s + 1 := by ring
    rw [this, zpow_add₀ (by norm_num)]
    rw [div_eq_iff (by positivity)]
    have : (m : ℚ) = 2 * ((m / 2 : ℤ) : ℚ) := by exact_mod_cast hmm
    rw [this]
    norm_num
    ring

/-- Whole numbers up to 2^53 are floats. -/
theorem b64_int (k : ℤ) (hk : |k| ≤ 2 ^ (53 : Nat)) : b64 k = k := by
  have := b64_repr k 0 hk
  simpa using this

/-- What rounding gives has at most 53 bits. -/
theorem b64_isFloat (q : ℚ) : ∃ m s : ℤ, |m| ≤ 2 ^ (53 : Nat) ∧ b64 q = (m : ℚ) * 2 ^ s := by
  by_cases h : q = 0
  · exact ⟨0, 0, by norm_num, by rw [h, b64_zero]; simp⟩
  · refine ⟨roundHE (q / ulp64 q), Int.log 2 |q| - 52, ?_, by unfold b64; rw [if_neg h]; rfl⟩
    have hu := ulp64_pos q
    have h1 := (ulp64_lt q).le
    have hle : |q / ulp64 q| ≤ 2 ^ (53 : Nat) := by
      rw [abs_div, abs_of_pos hu, div_le_iff₀ hu]; exact h1
    rw [abs_le] at hle
    have a1 := roundHE_mono (a := q / ulp64 q) (b := (((2 ^ (53 : Nat) : ℤ)) : ℚ)) (by push_cast; exact hle.2)
    have a2 := roundHE_mono (b := q / ulp64 q) (a := ((-(2 ^ (53 : Nat)) : ℤ) : ℚ)) (by push_cast; exact hle.1)
    rw [roundHE_int] at a1 a2
    rw [abs_le]
    exact ⟨a2, a1⟩

/-- Rounding a float changes nothing. -/
theorem b64_idem (q : ℚ) : b64 (b64 q) = b64 q := by
  obtain ⟨m, s, hm, h⟩ := b64_isFloat q
  rw [h]
  exact b64_repr m s hm

end NGC
