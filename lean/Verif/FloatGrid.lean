import Verif.Float64Lemmas

/-!
`(k / n) * n = k` in floats if `n` is a sum of two powers of two (W. Kahan; Goldberg 1991, theorem 7).
-/

namespace NGC

theorem roundHE_even (x : ℚ) (k : ℤ) (hk : 2 ∣ k) (h : |x - k| ≤ 1 / 2) : roundHE x = k := by
  have hf1 := Int.floor_le x
  have hf2 := Int.lt_floor_add_one x
  rw [abs_le] at h
  have hc : ⌊x⌋ = k ∨ ⌊x⌋ = k - 1 := by
    have a : k - 1 ≤ ⌊x⌋ := Int.le_floor.2 (by push_cast; linarith)
    have b : ⌊x⌋ < k + 1 := Int.floor_lt.2 (by push_cast; linarith)
    omega
  unfold roundHE
  simp only
  rcases hc with e | e
  · rw [e]
    rw [if_neg (by linarith : ¬ (1 / 2 < x - (k : ℚ))), if_pos (by omega : k % 2 = 0)]
    split <;> rfl
  · rw [e]
    push_cast
    rw [if_neg (by linarith : ¬ (x - ((k : ℚ) - 1) < 1 / 2)), if_neg (by omega : ¬ ((k - 1) % 2 = 0))]
    split <;> ring

/-- Scaling by a power of two commutes with rounding. -/
theorem b64_scale (q : ℚ) (s : ℤ) : b64 (q * 2 ^ s) = b64 q * 2 ^ s := by
  have hp : (0 : ℚ) < 2 ^ s := zpow_pos (by norm_num) _
  by_cases h : q = 0
  · subst h; simp [b64_zero]
  have hq : q * 2 ^ s ≠ 0 := mul_ne_zero h hp.ne'
  have hl : Int.log 2 |q * 2 ^ s| = Int.log 2 |q| + s := by
    have h0 : 0 < |q| := abs_pos.2 h
    have a := Int.zpow_log_le_self (b := 2) (by norm_num) h0
    have b := Int.lt_zpow_succ_log_self (b := 2) (by norm_num) |q|
    rw [two_cast] at a b
    rw [abs_mul, abs_of_pos hp]
    apply le_antisymm
    · rw [← Int.lt_add_one_iff]
      rw [← Int.lt_zpow_iff_log_lt (by norm_num) (by positivity), two_cast]
      have : Int.log 2 |q| + s + 1 = Int.log 2 |q| + 1 + s := by ring
      rw [this, zpow_add₀ (by norm_num)]
      exact mul_lt_mul_of_pos_right b hp
    · rw [← Int.zpow_le_iff_le_log (by norm_num) (by positivity), two_cast, zpow_add₀ (by norm_num)]
      exact mul_le_mul_of_nonneg_right a hp.le
  have hu : ulp64 (q * 2 ^ s) = ulp64 q * 2 ^ s := by
    unfold ulp64
    rw [hl, ← zpow_add₀ (by norm_num)]
    congr 1; ring
  unfold b64
  rw [if_neg h, if_neg hq, hu]
  have : q * 2 ^ s / (ulp64 q * 2 ^ s) = q / ulp64 q := by
    rw [mul_div_mul_right _ _ hp.ne']
  rw [this]
  ring

theorem ulp64_of_range (x : ℚ) (e : ℤ) (h1 : 2 ^ e ≤ x) (h2 : x < 2 ^ (e + 1)) : ulp64 x = 2 ^ (e - 52) := by
  have hp : (0 : ℚ) < 2 ^ e := zpow_pos (by norm_num) _
  have hx : 0 < x := by linarith
  have : Int.log 2 |x| = e := by
    rw [abs_of_pos hx]
    apply le_antisymm
    · rw [← Int.lt_add_one_iff, ← Int.lt_zpow_iff_log_lt (by norm_num) hx, two_cast]; exact h2
    · rw [← Int.zpow_le_iff_le_log (by norm_num) hx, two_cast]; exact h1
  unfold ulp64; rw [this]

/-- Near an even integer of 53 bits. -/
theorem b64_near_half (x : ℚ) (M : ℤ) (hM : 2 ∣ M) (h1 : 2 ^ (52 : Nat) < M) (h2 : M < 2 ^ (53 : Nat)) (h : |x - M| ≤ 1 / 2) : b64 x = M := by
  have hab := abs_le.1 h
  have m1 : (2 : ℚ) ^ (52 : Nat) + 1 ≤ M := by exact_mod_cast (by omega : (2 : ℤ) ^ (52 : Nat) + 1 ≤ M)
  have m2 : (M : ℚ) ≤ 2 ^ (53 : Nat) - 1 := by
    have : M ≤ 2 ^ (53 : Nat) - 1 := by omega
    exact_mod_cast this
  have hu : ulp64 x = 1 := by
    have := ulp64_of_range x 52 (by norm_num at m1 ⊢; linarith [hab.1]) (by norm_num at m2 ⊢; linarith [hab.2])
    rw [this]; norm_num
  unfold b64
  rw [if_neg (by norm_num at m1; intro h0; rw [h0] at hab; linarith [hab.1, hab.2]), hu, div_one, mul_one, roundHE_even x M hM h]

theorem b64_near_quarter (x : ℚ) (M : ℤ) (hM : 2 ∣ M) (h1 : 2 ^ (52 : Nat) ≤ M) (h2 : M < 2 ^ (53 : Nat)) (h : |x - M| ≤ 1 / 4) : b64 x = M := by
  rcases h1.lt_or_eq with g | g
  · exact b64_near_half x M hM g h2 (h.trans (by norm_num))
  · have hMq : (M : ℚ) = 2 ^ (52 : Nat) := by rw [← g]; norm_num
    have hab := abs_le.1 h
    rw [hMq] at hab
    rcases le_or_gt ((2 : ℚ) ^ (52 : Nat)) x with c | c
    · have hu : ulp64 x = 1 := by
        have := ulp64_of_range x 52 (by norm_num at c ⊢; linarith) (by norm_num at hab ⊢; linarith [hab.2])
        rw [this]; norm_num
      unfold b64
      rw [if_neg (by norm_num at c; intro h0; rw [h0] at c; linarith), hu, div_one, mul_one, roundHE_even x M hM (h.trans (by norm_num))]
    · have hu : ulp64 x = 1 / 2 := by
        have := ulp64_of_range x 51 (by norm_num at hab ⊢; linarith [hab.1]) (by norm_num at c ⊢; linarith)
        rw [this]; norm_num
      unfold b64
      rw [if_neg (by norm_num at hab; intro h0; rw [h0] at hab; linarith [hab.1]), hu]
      have : roundHE (x / (1 / 2)) = 2 * M := by
        apply roundHE_even _ _ ⟨M, rfl⟩
        push_cast
        rw [hMq, abs_le]
        constructor <;> linarith [hab.1, hab.2]
      rw [this]; push_cast; ring

/-- An error that is a multiple of `u`, at most half a `u` above a multiple of `u`. -/
theorem snap_abs (d u : ℚ) (t a : ℤ) (hu : 0 < u) (hd : d = t * u) (h : |d| ≤ a * u + u / 2) : |d| ≤ a * u := by
  rw [hd, abs_mul, abs_of_pos hu] at h ⊢
  have h2 : |(t : ℚ)| ≤ a + 1 / 2 := by
    by_contra hc
    rw [not_le] at hc
    nlinarith
  have h3 : ((|t| : ℤ) : ℚ) < ((a + 1 : ℤ) : ℚ) := by rw [Int.cast_abs]; push_cast; linarith
  have h4 : |t| ≤ a := by
    have : |t| < a + 1 := by exact_mod_cast h3
    omega
  have h5 : |(t : ℚ)| ≤ a := by rw [← Int.cast_abs]; exact_mod_cast h4
  exact mul_le_mul_of_nonneg_right h5 hu.le

/-- The core: an even integer `M` of 53 bits divided and multiplied by `2^c + 1`. -/
theorem div_mul_core (M : ℤ) (c : ℕ) (hc : 1 ≤ c) (hM : 2 ∣ M) (h1 : 2 ^ (52 : Nat) ≤ M) (h2 : M < 2 ^ (53 : Nat)) :
    b64 (b64 ((M : ℚ) / (2 ^ c + 1)) * (2 ^ c + 1)) = M := by
  have hN : (0 : ℚ) < 2 ^ c + 1 := by positivity
  have m1 : (2 : ℚ) ^ (52 : Nat) ≤ M := by exact_mod_cast h1
  have m2 : (M : ℚ) < 2 ^ (53 : Nat) := by exact_mod_cast h2
  have hMpos : (0 : ℚ) < M := by norm_num at m1; linarith
  set q : ℚ := (M : ℚ) / (2 ^ c + 1) with hq
  have hqN : q * (2 ^ c + 1) = M := by rw [hq]; field_simp
  have hq0 : 0 < q := by rw [hq]; positivity
  -- the exponent of q
  set e : ℤ := Int.log 2 |q| with he
  have le := Int.zpow_log_le_self (b := 2) (r := |q|) (by norm_num) (abs_pos.2 hq0.ne')
  rw [two_cast, abs_of_pos hq0] at le
  rw [abs_of_pos hq0] at he
  rw [← he] at le
  have hu : ulp64 q = 2 ^ (e - 52) := by unfold ulp64; rw [abs_of_pos hq0, ← he]
  have hup := ulp64_pos q
  -- f = F·u
  obtain ⟨F, hF⟩ : ∃ F : ℤ, b64 q = F * ulp64 q := ⟨roundHE (q / ulp64 q), by unfold b64; rw [if_neg hq0.ne']⟩
  have err := b64_err_ulp q
  have hdiff : |b64 q * (2 ^ c + 1) - M| ≤ (2 ^ c + 1) * (ulp64 q / 2) := by
    have : b64 q * (2 ^ c + 1) - M = -((q - b64 q) * (2 ^ c + 1)) := by rw [← hqN]; ring
    rw [this, abs_neg, abs_mul, abs_of_pos hN, mul_comm]
    exact mul_le_mul_of_nonneg_left err hN.le
  -- 2^(c+e) < 2^53
  have hce : (2 : ℚ) ^ ((c : ℤ) + e) < 2 ^ (53 : ℤ) := by
    rw [zpow_add₀ (by norm_num), zpow_natCast]
    have a : (2 : ℚ) ^ c * 2 ^ e ≤ 2 ^ c * q := mul_le_mul_of_nonneg_left le (by positivity)
    have b : (2 : ℚ) ^ c * q < M := by rw [← hqN]; nlinarith
    have d : (2 : ℚ) ^ (53 : ℤ) = 2 ^ (53 : Nat) := by norm_num
    rw [d]; linarith
  have hce' : (c : ℤ) + e < 53 := (zpow_lt_zpow_iff_right₀ (by norm_num : (1 : ℚ) < 2)).1 hce
  -- the difference is a multiple of u
  have hmul : ∃ t : ℤ, b64 q * (2 ^ c + 1) - M = t * ulp64 q := by
    refine ⟨F * (2 ^ c + 1) - M * 2 ^ (52 - e).toNat, ?_⟩
    rw [hF]
    push_cast
    have : (2 : ℚ) ^ (52 - e).toNat * ulp64 q = 1 := by
      rw [hu, ← zpow_natCast, Int.toNat_of_nonneg (by omega), ← zpow_add₀ (by norm_num)]
      have : 52 - e + (e - 52) = 0 := by ring
      rw [this, zpow_zero]
    rw [sub_mul, mul_assoc (M : ℚ), this]
    ring
  obtain ⟨t, ht⟩ := hmul
  have hcu : (2 : ℚ) ^ c * (ulp64 q / 2) = 2 ^ ((c : ℤ) + e - 53) := by
    rw [hu]
    have : (c : ℤ) + e - 53 = c + (e - 52) + (-1) := by ring
    rw [this, zpow_add₀ (by norm_num), zpow_add₀ (by norm_num), zpow_natCast]
    norm_num
    ring
  rcases (by omega : (c : ℤ) + e ≤ 51 ∨ (c : ℤ) + e = 52) with g | g
  · apply b64_near_quarter _ _ hM h1 h2
    have ha : ((2 ^ (50 - e).toNat : ℤ) : ℚ) * ulp64 q = 1 / 4 := by
      push_cast
      rw [hu, ← zpow_natCast, Int.toNat_of_nonneg (by omega), ← zpow_add₀ (by norm_num)]
      have : 50 - e + (e - 52) = -2 := by ring
      rw [this]; norm_num
    rw [← ha]
    apply snap_abs _ _ t _ hup ht
    rw [ha]
    refine hdiff.trans ?_
    have : (2 : ℚ) ^ ((c : ℤ) + e - 53) ≤ 2 ^ (-2 : ℤ) := zpow_le_zpow_right₀ (by norm_num) (by omega)
    rw [add_mul, one_mul, hcu]
    norm_num at this ⊢
    linarith
  · have hM' : 2 ^ (52 : Nat) < M := by
      rcases h1.lt_or_eq with x | x
      · exact x
      · exfalso
        have hMq : (M : ℚ) = 2 ^ (52 : Nat) := by rw [← x]; norm_num
        have a : (2 : ℚ) ^ c * 2 ^ e ≤ 2 ^ c * q := mul_le_mul_of_nonneg_left le (by positivity)
        have b : (2 : ℚ) ^ c * q < M := by rw [← hqN]; nlinarith
        have d : (2 : ℚ) ^ c * 2 ^ e = 2 ^ (52 : Nat) := by
          rw [← zpow_natCast (2 : ℚ) c, ← zpow_add₀ (by norm_num), g]; norm_num
        rw [hMq] at b
        linarith
    apply b64_near_half _ _ hM hM' h2
    have ha : ((2 ^ (51 - e).toNat : ℤ) : ℚ) * ulp64 q = 1 / 2 := by
      push_cast
      rw [hu, ← zpow_natCast, Int.toNat_of_nonneg (by omega), ← zpow_add₀ (by norm_num)]
      have : 51 - e + (e - 52) = -1 := by ring
      rw [this]; norm_num
    rw [← ha]
    apply snap_abs _ _ t _ hup ht
    rw [ha]
    refine hdiff.trans ?_
    rw [add_mul, one_mul, hcu, g]
    norm_num

/-- Dividing by a sum of two powers of two and multiplying by it gives back every whole number below 2^52. -/
theorem div_mul_two_powers (k i j : ℕ) (hk : k < 2 ^ (52 : Nat)) : b64 (b64 ((k : ℚ) / (2 ^ i + 2 ^ j)) * (2 ^ i + 2 ^ j)) = k := by
  rcases Nat.eq_zero_or_pos k with h0 | h0
  · subst h0; simp [b64_zero]
  -- order the powers
  wlog hij : i ≤ j generalizing i j
  · rw [add_comm]; exact this j i (by omega)
  have hp : (0 : ℚ) < 2 ^ i := by positivity
  rcases hij.lt_or_eq with hlt | heq
  · -- scale k to 53 bits
    have hkne : k ≠ 0 := by omega
    set l := Nat.log 2 k with hl
    have l1 : 2 ^ l ≤ k := Nat.pow_log_le_self 2 hkne
    have l2 : k < 2 ^ (l + 1) := Nat.lt_pow_succ_log_self (by norm_num) k
    have hl52 : l < 52 := (Nat.pow_lt_pow_iff_right (by norm_num : 1 < 2)).1 (lt_of_le_of_lt l1 hk)
    have core := div_mul_core ((k * 2 ^ (52 - l) : ℕ) : ℤ) (j - i) (by omega) ?_ ?_ ?_
    · have e1 : (k : ℚ) / (2 ^ i + 2 ^ j) = ((((k * 2 ^ (52 - l) : ℕ) : ℤ) : ℚ) / (2 ^ (j - i) + 1)) * 2 ^ (-((52 - l : ℕ) : ℤ) - i) := by
        rw [zpow_sub₀ (by norm_num), zpow_neg, zpow_natCast, zpow_natCast]
        push_cast
        have : (2 : ℚ) ^ j = 2 ^ i * 2 ^ (j - i) := by rw [← pow_add]; congr 1; omega
        rw [this]
        field_simp
        ring
      rw [e1, b64_scale]
      have e2 : b64 ((((k * 2 ^ (52 - l) : ℕ) : ℤ) : ℚ) / (2 ^ (j - i) + 1)) * 2 ^ (-((52 - l : ℕ) : ℤ) - i) * (2 ^ i + 2 ^ j) =
          b64 ((((k * 2 ^ (52 - l) : ℕ) : ℤ) : ℚ) / (2 ^ (j - i) + 1)) * (2 ^ (j - i) + 1) * 2 ^ (-((52 - l : ℕ) : ℤ)) := by
        have : (2 : ℚ) ^ j = 2 ^ i * 2 ^ (j - i) := by rw [← pow_add]; congr 1; omega
        rw [this, zpow_sub₀ (by norm_num), zpow_natCast]
        field_simp
        ring
      rw [e2, b64_scale, core, zpow_neg, zpow_natCast]
      push_cast
      field_simp
    · have : 52 - l = (51 - l) + 1 := by omega
      rw [this, pow_succ]
      exact_mod_cast (⟨k * 2 ^ (51 - l), by ring⟩ : 2 ∣ k * (2 ^ (51 - l) * 2))
    · have : 2 ^ 52 ≤ k * 2 ^ (52 - l) := by
        calc 2 ^ 52 = 2 ^ l * 2 ^ (52 - l) := by rw [← pow_add]; congr 1; omega
          _ ≤ k * 2 ^ (52 - l) := Nat.mul_le_mul_right _ l1
      exact_mod_cast this
    · have : k * 2 ^ (52 - l) < 2 ^ 53 := by
        calc k * 2 ^ (52 - l) < 2 ^ (l + 1) * 2 ^ (52 - l) := Nat.mul_lt_mul_of_pos_right l2 (by positivity)
          _ = 2 ^ 53 := by rw [← pow_add]; congr 1; omega
      exact_mod_cast this
  · subst heq
    have e1 : (k : ℚ) / (2 ^ i + 2 ^ i) = ((k : ℤ) : ℚ) * 2 ^ (-(i : ℤ) - 1) := by
      rw [zpow_sub₀ (by norm_num), zpow_neg, zpow_natCast]
      push_cast
      field_simp
      ring
    have hk' : |(k : ℤ)| ≤ 2 ^ (53 : Nat) := by
      rw [abs_of_nonneg (by positivity)]
      have : k ≤ 2 ^ 53 := by omega
      exact_mod_cast this
    rw [e1, b64_repr _ _ hk']
    have e2 : ((k : ℤ) : ℚ) * 2 ^ (-(i : ℤ) - 1) * (2 ^ i + 2 ^ i) = ((k : ℤ) : ℚ) := by
      rw [zpow_sub₀ (by norm_num), zpow_neg, zpow_natCast]
      field_simp
      ring
    rw [e2, b64_int _ hk']
    norm_num

end NGC
