import Verif.FloatGrid
import Verif.FloatOpsProps
import Verif.FloatClockProps2

/-! C158: notes on the grid of steps, with floats. -/

namespace NGC

/-- The rates of C158: one step per second, or a sum of two powers of two (2, 3, 4, 5, 6, 8, 9, 10, 12, 16, …). -/
def Spec.TwoPowers (sps : Int) : Prop := sps = 1 ∨ ∃ i j : Nat, sps = 2 ^ i + 2 ^ j

/-- **C158, steps.** At a rate that is a sum of two powers of two, the float nearest to the time of step `k` gets exactly step `k` with amount 1, as a start and as an end. -/
theorem C158_grid_steps (k : Nat) (sps : Int) (hk : k < 2 ^ (52 : Nat)) (hs : Spec.TwoPowers sps) (hs2 : sps ≤ 2 ^ (53 : Nat)) (fl : Bool) :
    quantizeStepF (b64 (k / sps)) sps 1 fl = .ok k := by
  have hpos : 0 < sps := by
    rcases hs with h | ⟨i, j, h⟩ <;> rw [h] <;> positivity
  have hb : b64 (sps : ℚ) = sps := b64_int sps (by rw [abs_of_pos hpos]; exact hs2)
  have hkey : b64 (b64 ((k : ℚ) / sps) * sps) = k := by
    rcases hs with h | ⟨i, j, h⟩
    · rw [h]
      have : |(k : ℤ)| ≤ 2 ^ (53 : Nat) := by
        rw [abs_of_nonneg (by positivity)]
        have : k ≤ 2 ^ 53 := by omega
        exact_mod_cast this
      have e := b64_int k this
      push_cast at e ⊢
      rw [div_one, mul_one, e, e]
    · rw [h]
      push_cast
      exact div_mul_two_powers k i j hk
  have hpos2 : stepPosF (b64 (k / sps)) sps 1 = k := by
    unfold stepPosF
    rw [hb, hkey, sub_self, b64_zero, add_zero, ← hkey, b64_idem]
  rw [quantizeStepF_ok _ _ _ _ hpos (by norm_num), hpos2]
  have f : ⌊(k : ℚ)⌋ = k := by exact_mod_cast Int.floor_natCast k
  have c : ⌈(k : ℚ)⌉ = k := by exact_mod_cast Int.ceil_natCast k
  rw [f, c]
  simp

theorem grid_around (k : Nat) (sps : Int) (h1 : 1 ≤ sps) (hd : sps ∣ 100) (hk : (k : ℚ) / sps ≤ 999999) :
    around2F (b64 (k / sps)) = b64 (k / sps) := by
  obtain ⟨c, hc⟩ := hd
  have hsq : (0 : ℚ) < sps := by exact_mod_cast (by omega : 0 < sps)
  have hcq : (100 : ℚ) = sps * c := by exact_mod_cast hc
  have e100 : (k : ℚ) / sps * 100 = ((k * c : ℤ) : ℚ) := by rw [hcq]; push_cast; field_simp
  have h0 : (0 : ℚ) ≤ k / sps := by positivity
  have r : roundHE (b64 (b64 ((k : ℚ) / sps) * 100)) = k * c := by
    apply roundHE_of_near
    have a := b64_err ((k : ℚ) / sps)
    have b := b64_err (b64 ((k : ℚ) / sps) * 100)
    have hx0 := b64_nonneg h0
    rw [abs_of_nonneg h0] at a
    rw [abs_of_nonneg (by positivity : 0 ≤ b64 ((k : ℚ) / sps) * 100)] at b
    rw [← e100]
    generalize (k : ℚ) / sps = x at *
    generalize b64 x = y at *
    generalize b64 (y * 100) = z at *
    rw [abs_le] at a b
    rw [abs_lt]
    norm_num at a b ⊢
    constructor <;> linarith [a.1, a.2, b.1, b.2]
  unfold around2F
  rw [r, ← e100]
  congr 1
  ring

/-- Moving a note on the grid. -/
theorem grid_move (n : Note) (sps : Int) (i j j' : Nat) (hs : 1 ≤ sps) (hd : sps ∣ 100) (hi : n.start = b64 (i / sps)) (hj : n.stop = b64 (j / sps)) (hij : i < j)
    (hjj : j ≤ j') (hmax : (j' : ℚ) / sps ≤ 999998) :
    n.moveTimesF sps i j' = .ok { n with stop := b64 (j' / sps) } := by
  have hsq : (1 : ℚ) ≤ sps := by exact_mod_cast hs
  have hs100 : (sps : ℚ) ≤ 100 := by exact_mod_cast Int.le_of_dvd (by norm_num) hd
  have hs0 : (0 : ℚ) < sps := by linarith
  have hle : (i : ℚ) / sps + 1 / 100 ≤ j / sps := by
    have : (i : ℚ) + 1 ≤ j := by exact_mod_cast hij
    have a : (i : ℚ) / sps + 1 / sps ≤ j / sps := by rw [← add_div]; exact div_le_div_of_nonneg_right this hs0.le
    have b : (1 : ℚ) / 100 ≤ 1 / sps := one_div_le_one_div_of_le hs0 hs100
    linarith
  have hj' : (j : ℚ) / sps ≤ j' / sps := div_le_div_of_nonneg_right (by exact_mod_cast hjj) hs0.le
  have c1 : b64 (1 / 1000) ≤ 1 / 500 := by decide +kernel
  have c0 : 0 ≤ b64 (1 / 1000) := b64_nonneg (by norm_num)
  have hi0 : (0 : ℚ) ≤ (i : ℚ) / sps := by positivity
  have ej := b64_err ((j : ℚ) / sps)
  rw [abs_of_nonneg (by linarith : (0 : ℚ) ≤ (j : ℚ) / sps), abs_le] at ej
  have hsm : (j : ℚ) / sps / 2 ^ (53 : Nat) ≤ 1 / 500 := by
    rw [div_le_iff₀ (by norm_num)]; norm_num; linarith
  have hst : b64 ((i : ℚ) / sps) ≤ b64 (n.stop - b64 (1 / 1000)) := by
    apply b64_mono
    rw [hj]
    linarith [ej.1, ej.2]
  have hend : b64 ((j' : ℚ) / sps) ≤ b64 (999999 - b64 (1 / 1000)) := by
    apply b64_mono
    linarith
  have hlt : b64 ((i : ℚ) / sps) < b64 ((j : ℚ) / sps) := by
    have ei := b64_err ((i : ℚ) / sps)
    rw [abs_of_nonneg hi0, abs_le] at ei
    have : (i : ℚ) / sps / 2 ^ (53 : Nat) ≤ 1 / 500 := by
      rw [div_le_iff₀ (by norm_num)]; norm_num; linarith
    linarith [ej.1, ej.2, ei.1, ei.2]
  have hm := b64_mono hj'
  have hz := b64_nonneg hi0
  unfold Note.moveTimesF
  simp only
  rw [grid_around i sps hs hd (by linarith), grid_around j' sps hs hd (by linarith), min_eq_left hst, min_eq_left hend, max_eq_right hz, max_eq_right (by linarith)]
  rw [if_neg (by rw [hj]; linarith), (setStop_ok_iff n _ _).2 ⟨by linarith, by rw [hi]; linarith, rfl⟩]
  show Note.setStart _ _ = _
  rw [(setStart_ok_iff _ _ _).2 ⟨hz, by show b64 _ < b64 _; linarith, rfl⟩]
  rw [← hi]

theorem grid_quantize (n : Note) (sps : Int) (amount : ℚ) (i j j' : Nat) (hs : 1 ≤ sps) (hd : sps ∣ 100) (hi : n.start = b64 (i / sps)) (hj : n.stop = b64 (j / sps)) (hij : i < j)
    (hjj : j ≤ j') (hmax : (j' : ℚ) / sps ≤ 999998) (q0 : quantizeStepF n.start sps amount true = .ok i) (q1 : quantizeStepF n.stop sps amount false = .ok j') :
    n.quantizeInPlaceF sps amount = .ok { n with qs := i, qe := j', stop := b64 (j' / sps) } := by
  have h0 : 0 ≤ n.start := by rw [hi]; exact b64_nonneg (by positivity)
  have h1 : 0 ≤ n.stop := by rw [hj]; exact b64_nonneg (by positivity)
  have hlt : (i : ℚ) < j' := by exact_mod_cast lt_of_lt_of_le hij hjj
  have ht : n.targetStepsF sps amount = .ok ((i : ℚ), (j' : ℚ)) := by
    unfold Note.targetStepsF
    rw [q0, q1]
    have hne : ¬ (sps = 1 ∧ (i : Int) = j') := by omega
    show (Except.ok _ : Py (ℚ × ℚ)) = _
    rw [if_neg hne]
    push_cast
    rfl
  have hst : n.storeStepsF sps i j' = .ok { n with qs := i, qe := j' } := by
    unfold Note.storeStepsF
    have e1 : max 0 (-n.start) = 0 := max_eq_left (by linarith)
    have e2 : max 0 (-n.stop) = 0 := max_eq_left (by linarith)
    have e3 : pyInt 0 = 0 := by decide +kernel
    rw [e1, e2, zero_mul, b64_zero, e3, Int.cast_zero, add_zero, add_zero]
    rw [(setQs_ok_iff n _ _).2 ⟨by positivity, rfl⟩]
    show Note.setQe _ _ = _
    rw [(setQe_ok_iff _ _ _).2 ⟨by positivity, rfl⟩]
  have hmv := grid_move { n with qs := (i : ℚ), qe := (j' : ℚ) } sps i j j' hs hd hi hj hij hjj hmax
  have hi0 : (0 : ℚ) ≤ i := by positivity
  unfold Note.quantizeInPlaceF
  rw [ht]
  show (do let n1 ← n.storeStepsF sps i j'; _) = _
  rw [hst]
  show (if (i : ℚ) < 0 then _ else _) = _
  rw [if_neg (by linarith)]
  show (if (j' : ℚ) < 0 then _ else _) = _
  rw [if_neg (by linarith)]
  show (if (i : ℚ) ≥ j' then _ else _) = _
  rw [if_neg (by linarith), hmv]
  show Note.setQs _ _ = _
  rw [(setQs_ok_iff _ _ _).2 ⟨le_max_left _ _, rfl⟩]
  simp only [max_eq_right hi0]

theorem grid_index (j : Nat) (sps : Int) (hs : 1 ≤ sps) (hd : sps ∣ 100) (h : (j : ℚ) / sps ≤ 999998) : j ≤ 99999800 := by
  have hsq : (1 : ℚ) ≤ sps := by exact_mod_cast hs
  have hs100 : (sps : ℚ) ≤ 100 := by exact_mod_cast Int.le_of_dvd (by norm_num) hd
  rw [div_le_iff₀ (by linarith)] at h
  have : (j : ℚ) ≤ 99999800 := by nlinarith
  exact_mod_cast this

/-- **C158, a note on the grid stays there.** At 1, 2, 4, 5, 10 or 20 steps per second, a fresh note whose times are the floats nearest to two different steps keeps both
times when it is quantized with amount 1, and gets these steps. -/
theorem C158_grid_fixed (n : Note) (sps : Int) (i j : Nat) (hs : sps ∈ [1, 2, 4, 5, 10, 20]) (hi : n.start = b64 (i / sps)) (hj : n.stop = b64 (j / sps)) (hij : i < j)
    (hmax : (j : ℚ) / sps ≤ 999998) :
    n.quantizeInPlaceF sps 1 = .ok { n with qs := i, qe := j } := by
  have hpow : Spec.TwoPowers sps := by
    simp only [List.mem_cons, List.not_mem_nil, or_false] at hs
    rcases hs with h | h | h | h | h | h <;> rw [h]
    · exact .inl rfl
    · exact .inr ⟨0, 0, by norm_num⟩
    · exact .inr ⟨1, 1, by norm_num⟩
    · exact .inr ⟨2, 0, by norm_num⟩
    · exact .inr ⟨3, 1, by norm_num⟩
    · exact .inr ⟨4, 2, by norm_num⟩
  have hd : 1 ≤ sps ∧ sps ∣ 100 := by
    simp only [List.mem_cons, List.not_mem_nil, or_false] at hs
    rcases hs with h | h | h | h | h | h <;> rw [h] <;> norm_num
  have hs2 : sps ≤ 2 ^ (53 : Nat) := le_trans (Int.le_of_dvd (by norm_num) hd.2) (by norm_num)
  have hjn := grid_index j sps hd.1 hd.2 hmax
  have q0 := C158_grid_steps i sps (by omega) hpow hs2 true
  have q1 := C158_grid_steps j sps (by omega) hpow hs2 false
  rw [← hi] at q0
  rw [← hj] at q1
  have := grid_quantize n sps 1 i j j hd.1 hd.2 hi hj hij le_rfl hmax q0 q1
  rw [this, ← hj]

/-- **C158, the default amount.** At every rate that divides 100, with amount 1/2, such a note keeps its start and its end moves to the float nearest to the next step. -/
theorem C158_default_grows (n : Note) (sps : Int) (i j : Nat) (hs : 1 ≤ sps) (hd : sps ∣ 100) (hi : n.start = b64 (i / sps)) (hj : n.stop = b64 (j / sps)) (hij : i < j)
    (hmax : ((j + 1 : Nat) : ℚ) / sps ≤ 999998) :
    n.quantizeInPlaceF sps (1/2) = .ok { n with qs := i, qe := ((j + 1 : Nat) : ℚ), stop := b64 ((j + 1 : Nat) / sps) } := by
  have hs2 : sps ≤ 2 ^ (53 : Nat) := le_trans (Int.le_of_dvd (by norm_num) hd) (by norm_num)
  have hjn := grid_index (j + 1) sps hs hd hmax
  have q0 := (C153_grid i sps (by omega) hs2 (by omega)).1
  have q1 := (C153_grid j sps (by omega) hs2 (by omega)).2
  rw [← hi] at q0
  rw [← hj] at q1
  exact grid_quantize n sps (1/2) i j (j + 1) hs hd hi hj hij (by omega) hmax q0 (by rw [q1]; push_cast; rfl)

example : ({ exNote with start := b64 (3/10), stop := b64 (7/10) } : Note).quantizeInPlaceF 10 1 =
    .ok { exNote with start := b64 (3/10), stop := b64 (7/10), qs := 3, qe := 7 } := by
  have := C158_grid_fixed { exNote with start := b64 (3/10), stop := b64 (7/10) } 10 3 7 (by simp) (by norm_num) (by norm_num) (by norm_num) (by norm_num)
  simpa using this

/-- **C158, defect.** At the other rates that divide 100, where exact arithmetic keeps every note on the grid (C09), floats do not: at 100 steps per second the step of 0.29 is 28
and the start becomes 0.28; an end at 0.07 gets step 8. Likewise at 25 (1.16, 0.28) and 50 (0.58, 0.14). -/
theorem C158_grid_lost :
    (quantizeStepF (b64 (29/100)) 100 1 true = .ok 28 ∧ quantizeStepF (b64 (7/100)) 100 1 false = .ok 8) ∧
    (quantizeStepF (b64 (29/50)) 50 1 true = .ok 28 ∧ quantizeStepF (b64 (7/50)) 50 1 false = .ok 8) ∧
    (quantizeStepF (b64 (29/25)) 25 1 true = .ok 28 ∧ quantizeStepF (b64 (7/25)) 25 1 false = .ok 8) ∧
    ({ exNote with start := b64 (29/100), stop := 1/2 } : Note).quantizeInPlaceF 100 1 =
      .ok { exNote with start := b64 (28/100), stop := 1/2, qs := 28, qe := 50 } := by
  decide +kernel

end NGC
