import Verif.VelScale
import Verif.Float64Lemmas

/-! Property theorems C196 and C197: the two ways of scaling velocities in ngc_small_graph.py. -/

namespace NGC

namespace Spec

/-- Least and greatest velocity of a list. -/
def Extremes (vs : List Int) (mn mx : Int) : Prop := mn ∈ vs ∧ mx ∈ vs ∧ ∀ v ∈ vs, mn ≤ v ∧ v ≤ mx

end Spec

/-! ### C196 -/

theorem lowest_spec (vs : List Int) : ∀ v, lowest v vs ∈ v :: vs ∧ ∀ w ∈ v :: vs, lowest v vs ≤ w := by
  induction vs with
  | nil => intro v; simp [lowest]
  | cons x xs ih =>
    intro v
    have h := ih (min v x)
    have e : lowest v (x :: xs) = lowest (min v x) xs := rfl
    rw [e]
    constructor
    · rcases List.mem_cons.1 h.1 with h1 | h1
      · rw [h1]
        rcases min_choice v x with h2 | h2 <;> rw [h2] <;> simp
      · simp [h1]
    · intro w hw
      have h0 := h.2 (min v x) (by simp)
      rcases List.mem_cons.1 hw with rfl | hw
      · exact le_trans h0 (min_le_left _ _)
      · rcases List.mem_cons.1 hw with rfl | hw
        · exact le_trans h0 (min_le_right _ _)
        · exact h.2 w (by simp [hw])

theorem highest_spec (vs : List Int) : ∀ v, highest v vs ∈ v :: vs ∧ ∀ w ∈ v :: vs, w ≤ highest v vs := by
  induction vs with
  | nil => intro v; simp [highest]
  | cons x xs ih =>
    intro v
    have h := ih (max v x)
    have e : highest v (x :: xs) = highest (max v x) xs := rfl
    rw [e]
    constructor
    · rcases List.mem_cons.1 h.1 with h1 | h1
      · rw [h1]
        rcases max_choice v x with h2 | h2 <;> rw [h2] <;> simp
      · simp [h1]
    · intro w hw
      have h0 := h.2 (max v x) (by simp)
      rcases List.mem_cons.1 hw with rfl | hw
      · exact le_trans (le_max_left _ _) h0
      · rcases List.mem_cons.1 hw with rfl | hw
        · exact le_trans (le_max_right _ _) h0
        · exact h.2 w (by simp [hw])

theorem clipVel_floor (x : ℚ) : clipVel x = min (max ⌊x⌋ 0) 127 := by
  unfold clipVel
  rcases le_total x 0 with h | h
  · rw [max_eq_right h]
    have : ⌊x⌋ ≤ 0 := by
      have := Int.floor_mono h; simpa using this
    rw [max_eq_right this]
    decide +kernel
  · rw [max_eq_left h]
    have h0 : 0 ≤ ⌊x⌋ := Int.floor_nonneg.2 h
    rw [max_eq_left h0]
    rcases le_total x 127 with h2 | h2
    · rw [min_eq_left h2]
      have : ⌊x⌋ ≤ 127 := by
        have := Int.floor_mono h2
        have e : ⌊(127 : ℚ)⌋ = 127 := by decide +kernel
        omega
      rw [min_eq_left this]
    · rw [min_eq_right h2]
      have e : ⌊(127 : ℚ)⌋ = 127 := by decide +kernel
      have := Int.floor_mono h2
      rw [e] at this ⊢
      rw [min_eq_right this]

theorem floor_quotient (a d : Int) (hd : 0 < d) : ⌊(a : ℚ) / (d : ℚ)⌋ = a / d := by
  obtain ⟨n, rfl⟩ := Int.eq_ofNat_of_zero_le hd.le
  exact_mod_cast Rat.floor_intCast_div_natCast a n

/-- A quotient of small integers, rounded, moved by an integer and rounded again, still has the same integer part. -/
theorem floor_quot_b64 (a d t : Int) (ha : 0 ≤ a) (hd : 0 < d) (hd1 : d ≤ 127) (hq : a ≤ 127 * d) (ht : 0 ≤ t) (ht1 : t ≤ 127) :
    ⌊b64 (b64 ((a : ℚ) / (d : ℚ)) + t)⌋ = a / d + t := by
  have hdq : (0 : ℚ) < d := by exact_mod_cast hd
  have hk0 : 0 ≤ a / d := Int.ediv_nonneg ha hd.le
  have hk1 : a / d ≤ 127 := by
    have := Int.ediv_le_ediv hd hq
    rwa [Int.mul_ediv_cancel _ hd.ne'] at this
  have hdm : d * (a / d) + a % d = a := Int.mul_ediv_add_emod a d
  have hm0 := Int.emod_nonneg a hd.ne'
  have hm1 := Int.emod_lt_of_pos a hd
  set k := a / d with hk
  -- the quotient lies between k and k + 1 - 1/127
  have lo : (k : ℚ) ≤ (a : ℚ) / d := by
    rw [le_div_iff₀ hdq]
    have : k * d ≤ a := by nlinarith
    exact_mod_cast this
  have hi : (a : ℚ) / d ≤ k + 1 - 1 / 127 := by
    rw [div_le_iff₀ hdq]
    have h1 : a + 1 ≤ (k + 1) * d := by nlinarith
    have h2 : (a : ℚ) + 1 ≤ (k + 1) * d := by exact_mod_cast h1
    have h3 : (d : ℚ) ≤ 127 := by exact_mod_cast hd1
    have : (d : ℚ) / 127 ≤ 1 := by linarith
    nlinarith
  have hkq : (k : ℚ) ≤ 127 := by exact_mod_cast hk1
  have hk0q : (0 : ℚ) ≤ k := by exact_mod_cast hk0
  have htq : (t : ℚ) ≤ 127 := by exact_mod_cast ht1
  have ht0q : (0 : ℚ) ≤ t := by exact_mod_cast ht
  have small : ∀ z : Int, 0 ≤ z → z ≤ 1000 → b64 (z : ℚ) = z := by
    intro z h0 h1
    apply b64_int
    rw [abs_of_nonneg h0]
    norm_num
    omega
  have b1 : (k : ℚ) ≤ b64 ((a : ℚ) / d) := by
    rw [← small k hk0 (by omega)]
    exact b64_mono lo
  have q0 : 0 ≤ (a : ℚ) / d := le_trans hk0q lo
  have b2 : b64 ((a : ℚ) / d) ≤ k + 1 - 1/127 + 128 / 2 ^ (53 : Nat) := by
    have h := b64_err ((a : ℚ) / d)
    rw [abs_of_nonneg q0, abs_le] at h
    have : (a : ℚ) / d / 2 ^ (53 : Nat) ≤ 128 / 2 ^ (53 : Nat) := by
      apply div_le_div_of_nonneg_right _ (by positivity)
      linarith
    linarith [h.1]
  have c1 : ((k + t : Int) : ℚ) ≤ b64 (b64 ((a : ℚ) / d) + t) := by
    rw [← small (k + t) (by omega) (by omega)]
    apply b64_mono
    push_cast
    linarith
  have c2 : b64 (b64 ((a : ℚ) / d) + t) < ((k + t : Int) : ℚ) + 1 := by
    have hx0 : 0 ≤ b64 ((a : ℚ) / d) + t := by linarith
    have h := b64_err (b64 ((a : ℚ) / d) + t)
    rw [abs_of_nonneg hx0, abs_le] at h
    have hx1 : b64 ((a : ℚ) / d) + t ≤ 256 := by
      have : (128 : ℚ) / 2 ^ (53 : Nat) ≤ 1/127 := by norm_num
      linarith
    have h3 : (b64 ((a : ℚ) / d) + t) / 2 ^ (53 : Nat) ≤ 256 / 2 ^ (53 : Nat) := div_le_div_of_nonneg_right hx1 (by positivity)
    have h4 : (128 : ℚ) / 2 ^ (53 : Nat) + 256 / 2 ^ (53 : Nat) < 1 / 127 := by norm_num
    push_cast
    linarith [h.1]
  rw [Int.floor_eq_iff]
  exact ⟨c1, c2⟩

/-- **C196, what comes out.** For velocities between 0 and 127, not all the same, and any target range within 0..127, each velocity is moved
linearly from the range of the list to the target range and rounded down. Floating point makes no difference. -/
theorem C196_formula (vs : List Int) (mn mx tmin tmax : Int) (he : Spec.Extremes vs mn mx) (hne : mn < mx) (h0 : 0 ≤ mn) (h1 : mx ≤ 127)
    (ht0 : 0 ≤ tmin) (ht : tmin ≤ tmax) (ht1 : tmax ≤ 127) :
    rescaleVel b64 vs tmin tmax = .ok (vs.map (fun v => some (tmin + (v - mn) * (tmax - tmin) / (mx - mn)))) ∧
    rescaleVel id vs tmin tmax = .ok (vs.map (fun v => some (tmin + (v - mn) * (tmax - tmin) / (mx - mn)))) := by
  obtain ⟨hmn, hmx, hall⟩ := he
  cases vs with
  | nil => simp at hmn
  | cons v rest =>
    have e1 : lowest v rest = mn := le_antisymm ((lowest_spec rest v).2 mn hmn) ((hall _ (lowest_spec rest v).1).1)
    have e2 : highest v rest = mx := le_antisymm ((hall _ (highest_spec rest v).1).2) ((highest_spec rest v).2 mx hmx)
    have hd : 0 < mx - mn := by omega
    have key : ∀ w ∈ v :: rest, 0 ≤ (w - mn) * (tmax - tmin) / (mx - mn) ∧ (w - mn) * (tmax - tmin) / (mx - mn) ≤ tmax - tmin := by
      intro w hw
      have := hall w hw
      refine ⟨Int.ediv_nonneg (mul_nonneg (by omega) (by omega)) hd.le, ?_⟩
      apply Int.ediv_le_of_le_mul hd
      rw [mul_comm]
      exact mul_le_mul_of_nonneg_left (by omega) (by omega)
    constructor
    · show Except.ok _ = _
      rw [e1, e2]
      refine congrArg Except.ok (List.map_congr_left ?_)
      intro w hw
      obtain ⟨k1, k2⟩ := key w hw
      have hw2 := hall w hw
      rw [if_neg (by omega), clipVel_floor, floor_quot_b64 _ _ _ (mul_nonneg (by omega) (by omega)) hd (by omega) ?_ ht0 (by omega)]
      · congr 1; omega
      · calc (w - mn) * (tmax - tmin) ≤ (mx - mn) * 127 := mul_le_mul (by omega) (by omega) (by omega) (by omega)
          _ = 127 * (mx - mn) := mul_comm _ _
    · show Except.ok _ = _
      rw [e1, e2]
      refine congrArg Except.ok (List.map_congr_left ?_)
      intro w hw
      obtain ⟨k1, k2⟩ := key w hw
      rw [if_neg (by omega), clipVel_floor]
      simp only [id]
      rw [Int.floor_add_intCast]
      have : ⌊(((w - mn) * (tmax - tmin) : Int) : ℚ) / ((mx - mn : Int) : ℚ)⌋ = (w - mn) * (tmax - tmin) / (mx - mn) :=
        floor_quotient _ _ hd
      rw [this]
      congr 1; omega

/-- **C196, what the scaling keeps.** In the same situation the lowest velocity becomes the lower end of the target range and the highest
its upper end, all others lie between, louder notes do not become softer than softer ones, and if the target range is at least as
wide as that of the list, different velocities stay different. -/
theorem C196_order (vs : List Int) (mn mx tmin tmax : Int) (he : Spec.Extremes vs mn mx) (hne : mn < mx) (h0 : 0 ≤ mn) (h1 : mx ≤ 127)
    (ht0 : 0 ≤ tmin) (ht : tmin ≤ tmax) (ht1 : tmax ≤ 127) :
    ∃ r : Int → Int, rescaleVel b64 vs tmin tmax = .ok (vs.map (fun v => some (r v))) ∧ r mn = tmin ∧ r mx = tmax ∧
      (∀ v ∈ vs, tmin ≤ r v ∧ r v ≤ tmax) ∧ (∀ v ∈ vs, ∀ w ∈ vs, v ≤ w → r v ≤ r w) ∧
      (mx - mn ≤ tmax - tmin → ∀ v ∈ vs, ∀ w ∈ vs, v < w → r v < r w) := by
  have hd : 0 < mx - mn := by omega
  have hmono : ∀ v w : Int, v ≤ w → (v - mn) * (tmax - tmin) / (mx - mn) ≤ (w - mn) * (tmax - tmin) / (mx - mn) := by
    intro v w h
    exact Int.ediv_le_ediv hd (mul_le_mul_of_nonneg_right (by omega) (by omega))
  have ha : tmin + (mn - mn) * (tmax - tmin) / (mx - mn) = tmin := by simp
  have hb : tmin + (mx - mn) * (tmax - tmin) / (mx - mn) = tmax := by
    rw [Int.mul_ediv_cancel_left _ hd.ne']; omega
  refine ⟨fun v => tmin + (v - mn) * (tmax - tmin) / (mx - mn), (C196_formula vs mn mx tmin tmax he hne h0 h1 ht0 ht ht1).1, ha, hb, ?_, ?_, ?_⟩
  · intro v hv
    have := he.2.2 v hv
    have l := hmono mn v this.1
    have u := hmono v mx this.2
    constructor
    · show tmin ≤ tmin + _
      omega
    · show tmin + _ ≤ tmax
      omega
  · intro v _ w _ h
    have := hmono v w h
    show tmin + _ ≤ tmin + _
    omega
  · intro hw v _ w _ h
    show tmin + _ < tmin + _
    have h2 : (v - mn) * (tmax - tmin) + (mx - mn) ≤ (w - mn) * (tmax - tmin) := by
      have e : (w - mn) * (tmax - tmin) = (v - mn) * (tmax - tmin) + (w - v) * (tmax - tmin) := by ring
      rw [e]
      have : 1 * (tmax - tmin) ≤ (w - v) * (tmax - tmin) := mul_le_mul_of_nonneg_right (by omega) (by omega)
      omega
    have h3 := Int.ediv_le_ediv hd h2
    have e : ((v - mn) * (tmax - tmin) + (mx - mn)) / (mx - mn) = (v - mn) * (tmax - tmin) / (mx - mn) + 1 := by
      have := Int.add_mul_ediv_right ((v - mn) * (tmax - tmin)) 1 hd.ne'
      rwa [one_mul] at this
    omega

/-- **C196, lists it cannot scale.** An empty list is a ValueError; if all velocities are the same, also if there is only one, no note gets a
number (defect). -/
theorem C196_degenerate (rnd : ℚ → ℚ) (tmin tmax : Int) :
    rescaleVel rnd [] tmin tmax = .error .value ∧
    ∀ (v : Int) (n : Nat), rescaleVel rnd (List.replicate (n + 1) v) tmin tmax = .ok (List.replicate (n + 1) none) := by
  refine ⟨rfl, ?_⟩
  intro v n
  have e1 : lowest v (List.replicate n v) = v := by
    have h := (lowest_spec (List.replicate n v) v).1
    rw [← List.replicate_succ] at h
    exact List.eq_of_mem_replicate h
  have e2 : highest v (List.replicate n v) = v := by
    have h := (highest_spec (List.replicate n v) v).1
    rw [← List.replicate_succ] at h
    exact List.eq_of_mem_replicate h
  rw [List.replicate_succ]
  show Except.ok _ = _
  rw [e1, e2]
  simp
  rfl

/-- Non-vacuity of C196: the example of the script, with its defaults. -/
theorem C196_example : rescaleVel b64 [20, 26, 23, 20, 40, 20, 60, 20, 30, 20, 20, 30] =
      .ok [some 64, some 73, some 68, some 64, some 95, some 64, some 127, some 64, some 79, some 64, some 64, some 79] ∧
    Spec.Extremes [20, 26, 23, 20, 40, 20, 60, 20, 30, 20, 20, 30] 20 60 := by
  unfold Spec.Extremes
  decide +kernel

/-! ### C197 -/

/-- **C197, exact arithmetic.** The average cancels: with a factor that is not negative each velocity is multiplied by the factor, rounded
down and cut at 127, whatever the other velocities are. -/
theorem C197_exact (vs : List Int) (factor : ℚ) (hv : ∀ v ∈ vs, 0 ≤ v) (hpos : ∃ v ∈ vs, 0 < v) (hf : 0 ≤ factor) :
    scaleVel id vs factor = vs.map (fun v : Int => some (min ⌊(v : ℚ) * factor⌋ 127)) := by
  have hs : 0 < vs.sum := by
    obtain ⟨v, h1, h2⟩ := hpos
    have := List.single_le_sum hv v h1
    omega
  have hne : vs ≠ [] := by rintro rfl; simp at hs
  have hl : (0 : ℚ) < vs.length := by exact_mod_cast List.length_pos_iff.2 hne
  have ha : (0 : ℚ) < (vs.sum : ℚ) / vs.length := div_pos (by exact_mod_cast hs) hl
  unfold scaleVel
  simp only [id]
  apply List.map_congr_left
  intro v hv'
  rw [if_neg ha.ne', clipVel_floor]
  have : (v : ℚ) / ((vs.sum : ℚ) / vs.length) * factor * ((vs.sum : ℚ) / vs.length) = v * factor := by
    field_simp
  rw [this, max_eq_left]
  have h0 : (0 : ℚ) ≤ (v : ℚ) := Int.cast_nonneg (hv v hv')
  exact Int.floor_nonneg.2 (mul_nonneg h0 hf)

/-- Three roundings and a factor that cancels. -/
theorem scale_err (v f a : ℚ) (hv : 0 ≤ v) (hf : 0 ≤ f) (ha : 0 < a) :
    |b64 (b64 (b64 (v / a) * f) * a) - v * f| ≤ v * f * (4 / 2 ^ (53 : Nat)) := by
  have e1 := b64_err (v / a)
  have q0 : 0 ≤ v / a := div_nonneg hv ha.le
  rw [abs_of_nonneg q0, abs_le] at e1
  have p0 : 0 ≤ b64 (v / a) * f := mul_nonneg (b64_nonneg q0) hf
  have e2 := b64_err (b64 (v / a) * f)
  rw [abs_of_nonneg p0, abs_le] at e2
  have r0 : 0 ≤ b64 (b64 (v / a) * f) * a := mul_nonneg (b64_nonneg p0) ha.le
  have e3 := b64_err (b64 (b64 (v / a) * f) * a)
  rw [abs_of_nonneg r0, abs_le] at e3
  have hva : v / a * a = v := div_mul_cancel₀ _ ha.ne'
  obtain ⟨u, hu⟩ : ∃ u : ℚ, u = 1 / 2 ^ (53 : Nat) := ⟨_, rfl⟩
  have hu0 : 0 < u := by rw [hu]; positivity
  have hu1 : u ≤ 1 / 1000 := by rw [hu]; norm_num
  have hdiv : ∀ x : ℚ, x / 2 ^ (53 : Nat) = x * u := fun x => by rw [hu]; ring
  rw [hdiv] at e1 e2 e3
  have four : (4 : ℚ) / 2 ^ (53 : Nat) = 4 * u := hdiv 4
  rw [four]
  set x := b64 (v / a)
  set y := b64 (x * f)
  set z := b64 (y * a)
  -- x * a near v
  have x1 : x * a ≤ v * (1 + u) := by
    calc x * a ≤ (v / a + v / a * u) * a := mul_le_mul_of_nonneg_right (by linarith [e1.1]) ha.le
      _ = v / a * a * (1 + u) := by ring
      _ = v * (1 + u) := by rw [hva]
  have x2 : v * (1 - u) ≤ x * a := by
    calc v * (1 - u) = v / a * a * (1 - u) := by rw [hva]
      _ = (v / a - v / a * u) * a := by ring
      _ ≤ x * a := mul_le_mul_of_nonneg_right (by linarith [e1.2]) ha.le
  have xa0 : 0 ≤ x * a := mul_nonneg (b64_nonneg q0) ha.le
  have y1 : y * a ≤ v * f * ((1 + u) * (1 + u)) := by
    calc y * a ≤ (x * f + x * f * u) * a := mul_le_mul_of_nonneg_right (by linarith [e2.1]) ha.le
      _ = x * a * (f * (1 + u)) := by ring
      _ ≤ v * (1 + u) * (f * (1 + u)) := mul_le_mul_of_nonneg_right x1 (by positivity)
      _ = _ := by ring
  have y2 : v * f * ((1 - u) * (1 - u)) ≤ y * a := by
    have h1u : 0 ≤ 1 - u := by linarith
    calc v * f * ((1 - u) * (1 - u)) = v * (1 - u) * (f * (1 - u)) := by ring
      _ ≤ x * a * (f * (1 - u)) := mul_le_mul_of_nonneg_right x2 (mul_nonneg hf h1u)
      _ = (x * f - x * f * u) * a := by ring
      _ ≤ y * a := mul_le_mul_of_nonneg_right (by linarith [e2.2]) ha.le
  have vf0 : 0 ≤ v * f := mul_nonneg hv hf
  have z1 : z ≤ v * f * ((1 + u) * (1 + u) * (1 + u)) := by
    calc z ≤ y * a * (1 + u) := by linarith [e3.1]
      _ ≤ v * f * ((1 + u) * (1 + u)) * (1 + u) := mul_le_mul_of_nonneg_right y1 (by positivity)
      _ = _ := by ring
  have z2 : v * f * ((1 - u) * (1 - u) * (1 - u)) ≤ z := by
    have h1u : 0 ≤ 1 - u := by linarith
    calc v * f * ((1 - u) * (1 - u) * (1 - u)) = v * f * ((1 - u) * (1 - u)) * (1 - u) := by ring
      _ ≤ y * a * (1 - u) := mul_le_mul_of_nonneg_right y2 h1u
      _ ≤ z := by linarith [e3.2]
  have hu2 : u * u ≤ u / 1000 := by nlinarith
  have hu3 : u * u * u ≤ u / 1000 := by nlinarith [mul_nonneg hu0.le hu0.le]
  have hu4 : 0 ≤ u * u := mul_nonneg hu0.le hu0.le
  have hu5 : 0 ≤ u * u * u := mul_nonneg hu4 hu0.le
  have c1 : (1 + u) * (1 + u) * (1 + u) ≤ 1 + 4 * u := by nlinarith
  have c2 : 1 - 4 * u ≤ (1 - u) * (1 - u) * (1 - u) := by nlinarith
  rw [abs_le]
  constructor
  · have := mul_le_mul_of_nonneg_left c2 vf0
    nlinarith
  · have := mul_le_mul_of_nonneg_left c1 vf0
    nlinarith

/-- **C197, in floating point.** For velocities that are not negative, not all 0, and a factor that is not negative, each result is at most one
off the factor times the velocity, rounded down and cut at 127; it is exactly that unless the product is within a millionth of a
whole number; and a note at least as loud as another stays so. -/
theorem C197_float (vs : List Int) (factor : ℚ) (hv : ∀ v ∈ vs, 0 ≤ v) (hpos : ∃ v ∈ vs, 0 < v) (hf : 0 ≤ factor) :
    ∃ r : Int → Int, scaleVel b64 vs factor = vs.map (fun v : Int => some (r v)) ∧
      (∀ v ∈ vs, 0 ≤ r v ∧ r v ≤ 127 ∧ |r v - min ⌊(v : ℚ) * factor⌋ 127| ≤ 1) ∧
      (∀ v ∈ vs, (∀ k : Int, 1 / 1000000 ≤ |(v : ℚ) * factor - k|) → r v = min ⌊(v : ℚ) * factor⌋ 127) ∧
      (∀ v w : Int, v ≤ w → r v ≤ r w) := by
  have hs : 0 < vs.sum := by
    obtain ⟨v, h1, h2⟩ := hpos
    have := List.single_le_sum hv v h1
    omega
  have hne : vs ≠ [] := by rintro rfl; simp at hs
  have hl : (0 : ℚ) < vs.length := by exact_mod_cast List.length_pos_iff.2 hne
  have ha : 0 < b64 ((vs.sum : ℚ) / vs.length) := b64_pos (div_pos (by exact_mod_cast hs) hl)
  set a := b64 ((vs.sum : ℚ) / vs.length) with hadef
  have near : ∀ v ∈ vs, (v : ℚ) * factor < 256 → |b64 (b64 (b64 ((v : ℚ) / a) * factor) * a) - v * factor| < 1 / 1000000 := by
    intro v hv' hlt
    have h0 : (0 : ℚ) ≤ v := by exact_mod_cast hv v hv'
    refine lt_of_le_of_lt (scale_err v factor a h0 hf ha) ?_
    have : (v : ℚ) * factor * (4 / 2 ^ (53 : Nat)) ≤ 256 * (4 / 2 ^ (53 : Nat)) := mul_le_mul_of_nonneg_right hlt.le (by positivity)
    refine lt_of_le_of_lt this ?_
    norm_num
  have far : ∀ v ∈ vs, 256 ≤ (v : ℚ) * factor → 127 ≤ ⌊b64 (b64 (b64 ((v : ℚ) / a) * factor) * a)⌋ ∧ 127 ≤ ⌊(v : ℚ) * factor⌋ := by
    intro v hv' hge
    have h0 : (0 : ℚ) ≤ v := by exact_mod_cast hv v hv'
    have h1 := scale_err v factor a h0 hf ha
    rw [abs_le] at h1
    have h2 : (v : ℚ) * factor * (4 / 2 ^ (53 : Nat)) ≤ v * factor * (1 / 4) :=
      mul_le_mul_of_nonneg_left (by norm_num) (by linarith)
    constructor
    · rw [Int.le_floor]; push_cast; linarith [h1.1]
    · rw [Int.le_floor]; push_cast; linarith
  refine ⟨fun v => clipVel (b64 (b64 (b64 ((v : ℚ) / a) * factor) * a)), ?_, ?_, ?_, ?_⟩
  · unfold scaleVel
    apply List.map_congr_left
    intro v _
    rw [← hadef, if_neg ha.ne']
  · intro v hv'
    have h0 : (0 : ℚ) ≤ v := by exact_mod_cast hv v hv'
    have hz : 0 ≤ ⌊b64 (b64 (b64 ((v : ℚ) / a) * factor) * a)⌋ :=
      Int.floor_nonneg.2 (b64_nonneg (mul_nonneg (b64_nonneg (mul_nonneg (b64_nonneg (div_nonneg h0 ha.le)) hf)) ha.le))
    have hvf : 0 ≤ ⌊(v : ℚ) * factor⌋ := Int.floor_nonneg.2 (mul_nonneg h0 hf)
    show 0 ≤ clipVel _ ∧ clipVel _ ≤ 127 ∧ |clipVel _ - _| ≤ 1
    rw [clipVel_floor, max_eq_left hz]
    refine ⟨by omega, by omega, ?_⟩
    rcases lt_or_ge ((v : ℚ) * factor) 256 with hlt | hge
    · have h1 := near v hv' hlt
      rw [abs_lt] at h1
      have f1 := Int.floor_le (b64 (b64 (b64 ((v : ℚ) / a) * factor) * a))
      have f2 := Int.lt_floor_add_one (b64 (b64 (b64 ((v : ℚ) / a) * factor) * a))
      have g1 := Int.floor_le ((v : ℚ) * factor)
      have g2 := Int.lt_floor_add_one ((v : ℚ) * factor)
      have k1 : ⌊b64 (b64 (b64 ((v : ℚ) / a) * factor) * a)⌋ < ⌊(v : ℚ) * factor⌋ + 2 := by
        have : (⌊b64 (b64 (b64 ((v : ℚ) / a) * factor) * a)⌋ : ℚ) < (⌊(v : ℚ) * factor⌋ : ℚ) + 2 := by linarith [h1.2]
        exact_mod_cast this
      have k2 : ⌊(v : ℚ) * factor⌋ < ⌊b64 (b64 (b64 ((v : ℚ) / a) * factor) * a)⌋ + 2 := by
        have : (⌊(v : ℚ) * factor⌋ : ℚ) < (⌊b64 (b64 (b64 ((v : ℚ) / a) * factor) * a)⌋ : ℚ) + 2 := by linarith [h1.1]
        exact_mod_cast this
      rw [abs_le]
      omega
    · obtain ⟨h1, h2⟩ := far v hv' hge
      rw [min_eq_right h1, min_eq_right h2]
      simp
  · intro v hv' hk
    have h0 : (0 : ℚ) ≤ v := by exact_mod_cast hv v hv'
    have hz : 0 ≤ ⌊b64 (b64 (b64 ((v : ℚ) / a) * factor) * a)⌋ :=
      Int.floor_nonneg.2 (b64_nonneg (mul_nonneg (b64_nonneg (mul_nonneg (b64_nonneg (div_nonneg h0 ha.le)) hf)) ha.le))
    show clipVel _ = _
    rw [clipVel_floor, max_eq_left hz]
    rcases lt_or_ge ((v : ℚ) * factor) 256 with hlt | hge
    · have h1 := near v hv' hlt
      rw [abs_lt] at h1
      have g1 := Int.floor_le ((v : ℚ) * factor)
      have g2 := Int.lt_floor_add_one ((v : ℚ) * factor)
      have l1 := hk ⌊(v : ℚ) * factor⌋
      have l2 := hk (⌊(v : ℚ) * factor⌋ + 1)
      rw [abs_of_nonneg (by linarith)] at l1
      push_cast at l2
      rw [abs_of_neg (by linarith)] at l2
      have : ⌊b64 (b64 (b64 ((v : ℚ) / a) * factor) * a)⌋ = ⌊(v : ℚ) * factor⌋ := by
        rw [Int.floor_eq_iff]
        constructor <;> linarith [h1.1, h1.2]
      rw [this]
    · obtain ⟨h1, h2⟩ := far v hv' hge
      rw [min_eq_right h1, min_eq_right h2]
  · intro v w hvw
    show clipVel _ ≤ clipVel _
    unfold clipVel
    apply Int.floor_mono
    refine min_le_min (max_le_max ?_ le_rfl) le_rfl
    refine b64_mono (mul_le_mul_of_nonneg_right (b64_mono (mul_le_mul_of_nonneg_right (b64_mono ?_) hf)) ha.le)
    exact div_le_div_of_nonneg_right (by exact_mod_cast hvw) ha.le

/-- **C197, defect: the default factor 1 changes velocities.** Of a note with velocity 1 and one with velocity 48 the first becomes silent; in
exact arithmetic nothing would change. -/
theorem C197_factor_one : scaleVel b64 [1, 48] = [some 0, some 48] ∧ scaleVel id [1, 48] = [some 1, some 48] ∧
    scaleVel b64 [1, 2, 14] = [some 1, some 2, some 13] := by decide +kernel

/-- Non-vacuity of C197_float's middle part: three quarters of these velocities are never whole. -/
theorem C197_example : scaleVel b64 [21, 26, 127, 90] (3/4) = [some 15, some 19, some 95, some 67] ∧
    (∀ v ∈ ([21, 26, 127, 90] : List Int), 0 ≤ v) ∧ (∃ v ∈ ([21, 26, 127, 90] : List Int), 0 < v) ∧
    scaleVel b64 [21, 26, 127, 90] 2 = [some 42, some 52, some 127, some 127] := by decide +kernel

/-- **C197, silence (defect).** If all velocities are 0, no note gets a number. -/
theorem C197_silence (n : Nat) (factor : ℚ) : scaleVel b64 (List.replicate n 0) factor = List.replicate n none := by
  unfold scaleVel
  have : (List.replicate n (0 : Int)).sum = 0 := by simp
  rw [this]
  simp [b64_zero]

end NGC
