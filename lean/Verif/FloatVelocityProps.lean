import Verif.FloatVelocity
import Verif.FloatClockProps2
import Verif.GraphProps2

/-!
C162: scaling of velocities with floats, against the exact results of `Graph.lean` (C46, C87).
-/

namespace NGC

/-- A quotient of small whole numbers plus a small whole number, in floats, has the whole part of the exact result. -/
theorem floor_quot (a w t : Int) (ha : 0 ≤ a) (hw : 0 < w) (hw2 : w ≤ 2 ^ 40) (haw : a ≤ 127 * w) (ht : 0 ≤ t) (ht2 : t ≤ 127) :
    ⌊b64 (b64 ((a : ℚ) / w) + t)⌋ = ⌊(a : ℚ) / w + t⌋ := by
  have hwq : (0 : ℚ) < w := by exact_mod_cast hw
  have hq0 : (0 : ℚ) ≤ (a : ℚ) / w := div_nonneg (by exact_mod_cast ha) hwq.le
  have hq1 : (a : ℚ) / w ≤ 127 := by rw [div_le_iff₀ hwq]; exact_mod_cast haw
  have ht0 : (0 : ℚ) ≤ t := by exact_mod_cast ht
  have ht1 : (t : ℚ) ≤ 127 := by exact_mod_cast ht2
  set q : ℚ := (a : ℚ) / w with hq
  set k : ℤ := ⌊q⌋ with hk
  have hk0 : 0 ≤ k := Int.floor_nonneg.2 hq0
  have hk1 : k ≤ 127 := by
    have : (k : ℚ) ≤ 127 := (Int.floor_le q).trans hq1
    exact_mod_cast this
  have hfl : ⌊q + t⌋ = k + t := by rw [Int.floor_add_intCast]
  rw [hfl, Int.floor_eq_iff]
  have habs : ∀ z : ℤ, 0 ≤ z → z ≤ 300 → b64 (z : ℚ) = z := by
    intro z h0 h1
    apply b64_int
    rw [abs_of_nonneg h0]
    norm_num; omega
  have hb0 : (k : ℚ) ≤ b64 q := by
    rw [← habs k hk0 (by omega)]
    exact b64_mono (Int.floor_le q)
  constructor
  · have : b64 ((k + t : ℤ) : ℚ) ≤ b64 (b64 q + t) := by
      apply b64_mono
      push_cast
      linarith
    rwa [habs (k + t) (by omega) (by omega)] at this
  · have hstep : q ≤ k + 1 - 1 / w := by
      have h1 : a < (k + 1) * w := by
        have : q < k + 1 := Int.lt_floor_add_one q
        rw [hq, div_lt_iff₀ hwq] at this
        exact_mod_cast this
      have h2 : (a : ℚ) ≤ (k + 1) * w - 1 := by exact_mod_cast (by omega : a ≤ (k + 1) * w - 1)
      rw [hq, div_le_iff₀ hwq]
      have : ((k : ℚ) + 1 - 1 / w) * w = (k + 1) * w - 1 := by field_simp
      rw [this]
      exact h2
    have hw1 : (1 : ℚ) / 2 ^ 40 ≤ 1 / w := one_div_le_one_div_of_le hwq (by exact_mod_cast hw2)
    have e1 := (abs_le.1 (b64_err q)).1
    rw [abs_of_nonneg hq0] at e1
    have hbq : b64 q ≤ 128 := by
      have : q / 2 ^ 53 ≤ 1 := by rw [div_le_one (by norm_num)]; linarith
      linarith
    have e2 := (abs_le.1 (b64_err (b64 q + t))).1
    have hs0 : 0 ≤ b64 q + t := add_nonneg (b64_nonneg hq0) ht0
    rw [abs_of_nonneg hs0] at e2
    have e3 : q / 2 ^ 53 ≤ 127 / 2 ^ 53 := div_le_div_of_nonneg_right hq1 (by norm_num)
    have e4 : (b64 q + t) / 2 ^ 53 ≤ 255 / 2 ^ 53 := div_le_div_of_nonneg_right (by linarith) (by norm_num)
    have e5 : (127 : ℚ) / 2 ^ 53 + 255 / 2 ^ 53 < 1 / 2 ^ 40 := by norm_num
    push_cast
    linarith

/-- The rounding of `a / 127 + t` in floats is that of the exact result. -/
theorem round_quot127 (a t : Int) (ha : |a| ≤ 2 ^ 40) (ht : 0 ≤ t) (ht2 : t ≤ 127) :
    roundHE (b64 (b64 ((a : ℚ) / 127) + t)) = roundHE ((a : ℚ) / 127 + t) := by
  set x : ℚ := (a : ℚ) / 127 + t with hx
  set k : ℤ := roundHE x with hk
  apply roundHE_of_near
  have hgap : |x - k| ≤ 1 / 2 - 1 / 254 := by
    have h := roundHE_spec x
    rw [← hk] at h
    have hz : x - k = ((a + 127 * (t - k) : ℤ) : ℚ) / 127 := by rw [hx]; push_cast; ring
    rw [hz, abs_div, abs_of_pos (by norm_num : (0 : ℚ) < 127)] at h ⊢
    rw [div_le_iff₀ (by norm_num)] at h ⊢
    rw [← Int.cast_abs] at h ⊢
    have h2 : 2 * |a + 127 * (t - k)| ≤ 127 := by
      have : (2 : ℚ) * ((|a + 127 * (t - k)| : ℤ) : ℚ) ≤ 127 := by linarith
      exact_mod_cast this
    have h3 : |a + 127 * (t - k)| ≤ 63 := by omega
    have : ((|a + 127 * (t - k)| : ℤ) : ℚ) ≤ 63 := by exact_mod_cast h3
    linarith
  have haq : |(a : ℚ) / 127| ≤ 2 ^ 40 := by
    rw [abs_div, abs_of_pos (by norm_num : (0 : ℚ) < 127), div_le_iff₀ (by norm_num), ← Int.cast_abs]
    have : ((|a| : ℤ) : ℚ) ≤ 2 ^ 40 := by exact_mod_cast ha
    linarith
  have ht0 : (0 : ℚ) ≤ t := by exact_mod_cast ht
  have ht1 : (t : ℚ) ≤ 127 := by exact_mod_cast ht2
  have e1 := b64_err ((a : ℚ) / 127)
  have e1' : |(a : ℚ) / 127 - b64 ((a : ℚ) / 127)| ≤ 2 ^ 40 / 2 ^ 53 :=
    e1.trans (div_le_div_of_nonneg_right haq (by norm_num))
  have hb : |b64 ((a : ℚ) / 127) + t| ≤ 2 ^ 41 := by
    have h1 := abs_le.1 haq
    have h2 := abs_le.1 e1'
    norm_num at h1 h2
    rw [abs_le]
    norm_num
    constructor <;> linarith [h1.1, h1.2, h2.1, h2.2]
  have e2 := b64_err (b64 ((a : ℚ) / 127) + t)
  have e2' : |b64 ((a : ℚ) / 127) + t - b64 (b64 ((a : ℚ) / 127) + t)| ≤ 2 ^ 41 / 2 ^ 53 :=
    e2.trans (div_le_div_of_nonneg_right hb (by norm_num))
  have h1 := abs_le.1 e1'
  have h2 := abs_le.1 e2'
  have h3 := abs_le.1 hgap
  have hx' : x = (a : ℚ) / 127 + t := hx
  rw [abs_lt]
  norm_num at h1 h2 h3
  constructor <;> linarith [h1.1, h1.2, h2.1, h2.2, h3.1, h3.2]

theorem foldl_min_cast (l : List Int) (v : Int) : ((l.foldl min v : Int) : ℚ) = (l.map (fun z : Int => (z : ℚ))).foldl min (v : ℚ) := by
  induction l generalizing v with
  | nil => rfl
  | cons a l ih => rw [List.foldl_cons, ih, List.map_cons, List.foldl_cons, Int.cast_min]

theorem foldl_max_cast (l : List Int) (v : Int) : ((l.foldl max v : Int) : ℚ) = (l.map (fun z : Int => (z : ℚ))).foldl max (v : ℚ) := by
  induction l generalizing v with
  | nil => rfl
  | cons a l ih => rw [List.foldl_cons, ih, List.map_cons, List.foldl_cons, Int.cast_max]

theorem foldl_min_int_le (l : List Int) (v : Int) : l.foldl min v ≤ v ∧ ∀ x ∈ l, l.foldl min v ≤ x := by
  induction l generalizing v with
  | nil => simp
  | cons a l ih =>
    obtain ⟨h1, h2⟩ := ih (min v a)
    simp only [List.foldl_cons]
    exact ⟨h1.trans (min_le_left _ _), fun x hx => by
      rcases List.mem_cons.1 hx with rfl | hx
      · exact h1.trans (min_le_right _ _)
      · exact h2 x hx⟩

theorem foldl_max_int_ge (l : List Int) (v : Int) : v ≤ l.foldl max v ∧ ∀ x ∈ l, x ≤ l.foldl max v := by
  induction l generalizing v with
  | nil => simp
  | cons a l ih =>
    obtain ⟨h1, h2⟩ := ih (max v a)
    simp only [List.foldl_cons]
    exact ⟨(le_max_left _ _).trans h1, fun x hx => by
      rcases List.mem_cons.1 hx with rfl | hx
      · exact (le_max_right _ _).trans h1
      · exact h2 x hx⟩

theorem foldl_min_int_abs (B : Int) (l : List Int) (v : Int) (hv : |v| ≤ B) (h : ∀ x ∈ l, |x| ≤ B) : |l.foldl min v| ≤ B := by
  induction l generalizing v with
  | nil => exact hv
  | cons a l ih =>
    refine ih _ ?_ (fun x hx => h x (List.mem_cons_of_mem _ hx))
    rcases min_choice v a with e | e <;> rw [e]
    · exact hv
    · exact h a (by simp)

theorem foldl_max_int_abs (B : Int) (l : List Int) (v : Int) (hv : |v| ≤ B) (h : ∀ x ∈ l, |x| ≤ B) : |l.foldl max v| ≤ B := by
  induction l generalizing v with
  | nil => exact hv
  | cons a l ih =>
    refine ih _ ?_ (fun x hx => h x (List.mem_cons_of_mem _ hx))
    rcases max_choice v a with e | e <;> rw [e]
    · exact hv
    · exact h a (by simp)

/-- C162 (rescaling): for whole-number velocities up to 2^30 in absolute value and targets within 0..127 the result in floats is exactly that of exact
arithmetic: rounding never shows. So C46 (monotone, in range, extremes go to the targets) holds of the program as it runs. -/
theorem C162_rescale (vs : List Int) (tmin tmax : Int) (h0 : 0 ≤ tmin) (h1 : tmin ≤ tmax) (h2 : tmax ≤ 127)
    (hv : ∀ v ∈ vs, |v| ≤ 2 ^ 30) :
    rescaleVelocitiesF vs tmin tmax = rescaleVelocities (vs.map (fun z : Int => (z : ℚ))) tmin tmax := by
  have hD : ∀ v : Int, |v| ≤ 2 ^ 31 → |v * (tmax - tmin)| ≤ 2 ^ 40 := by
    intro v hv
    rw [abs_mul, abs_of_nonneg (by omega : 0 ≤ tmax - tmin)]
    have : |v| * (tmax - tmin) ≤ 2 ^ 31 * 127 := mul_le_mul hv (by omega) (by omega) (by norm_num)
    refine this.trans (by norm_num)
  have hbig : ∀ z : Int, |z| ≤ 2 ^ 40 → b64 (z : ℚ) = z := fun z hz => b64_int z (hz.trans (by norm_num))
  match vs, hv with
  | [], _ => rfl
  | [v], hv =>
    have ha := hD v ((hv v (by simp)).trans (by norm_num))
    simp only [rescaleVelocitiesF, rescaleVelocities, List.map_cons, List.map_nil]
    rw [hbig _ ha, round_quot127 _ _ ha h0 (by omega)]
    push_cast
    rfl
  | v :: w :: rest, hv =>
    have hlo := foldl_min_int_le (w :: rest) v
    have hhi := foldl_max_int_ge (w :: rest) v
    have alo := foldl_min_int_abs (2 ^ 30) (w :: rest) v (hv v (by simp)) (fun x hx => hv x (List.mem_cons_of_mem _ hx))
    have ahi := foldl_max_int_abs (2 ^ 30) (w :: rest) v (hv v (by simp)) (fun x hx => hv x (List.mem_cons_of_mem _ hx))
    have elo := foldl_min_cast (w :: rest) v
    have ehi := foldl_max_cast (w :: rest) v
    simp only [rescaleVelocitiesF, rescaleVelocities, List.map_cons]
    rw [List.map_cons] at elo ehi
    simp only [← elo, ← ehi]
    set lo := List.foldl min v (w :: rest)
    set hi := List.foldl max v (w :: rest)
    have hc : ((hi : ℚ) - lo ≤ 0) ↔ (hi - lo ≤ 0) := by
      rw [← Int.cast_sub]; exact_mod_cast Iff.rfl
    congr 1
    by_cases hd : hi - lo ≤ 0
    · rw [if_pos hd, if_pos (hc.2 hd)]
      simp only [List.map_cons, List.map_map, Function.comp_def]
    · rw [if_neg hd, if_neg (fun h => hd (hc.1 h))]
      have hden : 0 < hi - lo := by omega
      have hden2 : |hi - lo| ≤ 2 ^ 40 := by
        refine (abs_sub _ _).trans ?_
        have : |hi| + |lo| ≤ 2 ^ 30 + 2 ^ 30 := add_le_add ahi alo
        refine this.trans (by norm_num)
      have hx : ∀ x : Int, lo ≤ x → x ≤ hi →
          pyInt (clipQ 0 127 (rescaleAtF lo (hi - lo) tmin tmax x)) =
            pyInt (clipQ 0 127 (((x : ℚ) - lo) * ((tmax : ℚ) - tmin) / ((hi : ℚ) - lo) + tmin)) := by
        intro x hx1 hx2
        set a : Int := (x - lo) * (tmax - tmin) with ha
        have ha0 : 0 ≤ a := mul_nonneg (by omega) (by omega)
        have ha1 : a ≤ 127 * (hi - lo) := by
          rw [ha, mul_comm]
          exact mul_le_mul (by omega) (by omega) (by omega) (by norm_num)
        have ha2 : |a| ≤ 2 ^ 40 := by
          have hxl : |x - lo| ≤ 2 ^ 31 := by
            rw [abs_of_nonneg (by omega : 0 ≤ x - lo)]
            have := (abs_le.1 ahi).2
            have := (abs_le.1 alo).1
            norm_num at *
            omega
          exact hD _ hxl
        have hdle : hi - lo ≤ 2 ^ 40 := (le_abs_self _).trans hden2
        have hfl := floor_quot a (hi - lo) tmin ha0 hden hdle ha1 h0 (by omega)
        have er : rescaleAtF lo (hi - lo) tmin tmax x = b64 (b64 ((a : ℚ) / ((hi - lo : Int) : ℚ)) + tmin) := by
          unfold rescaleAtF
          rw [← ha, hbig a ha2, hbig _ hden2]
        have ee : ((x : ℚ) - lo) * ((tmax : ℚ) - tmin) / ((hi : ℚ) - lo) + tmin = (a : ℚ) / ((hi - lo : Int) : ℚ) + tmin := by
          rw [ha]; push_cast; rfl
        rw [er, ee]
        have t0 : (0 : ℚ) ≤ tmin := by exact_mod_cast h0
        have q0 : (0 : ℚ) ≤ (a : ℚ) / ((hi - lo : Int) : ℚ) := div_nonneg (by exact_mod_cast ha0) (by exact_mod_cast hden.le)
        have p0 : 0 ≤ b64 (b64 ((a : ℚ) / ((hi - lo : Int) : ℚ)) + tmin) := b64_nonneg (add_nonneg (b64_nonneg q0) t0)
        have hclip : ∀ y : ℚ, 0 ≤ y → pyInt (clipQ 0 127 y) = min 127 ⌊y⌋ := by
          intro y hy
          unfold clipQ pyInt
          rw [max_eq_right hy, if_pos (le_min (by norm_num) hy), Int.floor_mono.map_min]
          congr 1
        rw [hclip _ p0, hclip _ (add_nonneg q0 t0), hfl]
      have hall : ∀ l : List Int, (∀ x ∈ l, lo ≤ x ∧ x ≤ hi) →
          (l.map (rescaleAtF lo (hi - lo) tmin tmax)).map (fun x => ((pyInt (clipQ 0 127 x) : Int) : ℚ)) =
          ((l.map (fun z : Int => (z : ℚ))).map (fun x => (x - lo) * ((tmax : ℚ) - tmin) / ((hi : ℚ) - lo) + tmin)).map
            (fun x => ((pyInt (clipQ 0 127 x) : Int) : ℚ)) := by
        intro l hl
        rw [List.map_map, List.map_map, List.map_map]
        apply List.map_congr_left
        intro x hm
        simp only [Function.comp]
        rw [hx x (hl x hm).1 (hl x hm).2]
      exact hall (v :: w :: rest) (fun x hm => by
        rcases List.mem_cons.1 hm with rfl | hm
        · exact ⟨hlo.1, hhi.1⟩
        · exact ⟨hlo.2 x hm, hhi.2 x hm⟩)

example : rescaleVelocitiesF [20, 26, 60, 20] = .ok [32, 46, 127, 32] := by
  rw [C162_rescale _ _ _ (by norm_num) (by norm_num) (by norm_num) (by decide)]; decide +kernel

/-! ### Relative scaling -/

theorem b64_rel53 {x : ℚ} (h : 0 ≤ x) : x * (1 - 1 / 2 ^ 53) ≤ b64 x ∧ b64 x ≤ x * (1 + 1 / 2 ^ 53) := by
  have e := abs_le.1 (b64_err x)
  rw [abs_of_nonneg h] at e
  have : x / 2 ^ 53 = x * (1 / 2 ^ 53) := by ring
  rw [this] at e
  constructor <;> linarith [e.1, e.2]

/-- Three roundings: the result is the exact one up to one part in 2^51. -/
theorem relativeAtF_err (m f : ℚ) (v : Int) (hm : 0 < m) (hf : 0 ≤ f) (hv : 0 ≤ v) :
    |relativeAtF m f v - v * f| ≤ v * f / 2 ^ 51 ∧ 0 ≤ relativeAtF m f v := by
  have v0 : (0 : ℚ) ≤ v := by exact_mod_cast hv
  have a0 : (0 : ℚ) ≤ (v : ℚ) / m := div_nonneg v0 hm.le
  have b0 := b64_nonneg a0
  have c0 : 0 ≤ b64 ((v : ℚ) / m) * f := mul_nonneg b0 hf
  have d0 := b64_nonneg c0
  have e0 : 0 ≤ b64 (b64 ((v : ℚ) / m) * f) * m := mul_nonneg d0 hm.le
  obtain ⟨r1, r2⟩ := b64_rel53 a0
  obtain ⟨s1, s2⟩ := b64_rel53 c0
  obtain ⟨t1, t2⟩ := b64_rel53 e0
  refine ⟨?_, b64_nonneg e0⟩
  have hvf : (v : ℚ) * f = (v : ℚ) / m * f * m := by field_simp
  have up : relativeAtF m f v ≤ (v : ℚ) * f * (1 + 1 / 2 ^ 53) ^ 3 := by
    have h1 : b64 ((v : ℚ) / m) * f ≤ (v : ℚ) / m * (1 + 1 / 2 ^ 53) * f := mul_le_mul_of_nonneg_right r2 hf
    have h2 : b64 (b64 ((v : ℚ) / m) * f) ≤ (v : ℚ) / m * (1 + 1 / 2 ^ 53) * f * (1 + 1 / 2 ^ 53) :=
      s2.trans (mul_le_mul_of_nonneg_right h1 (by norm_num))
    have h3 : b64 (b64 ((v : ℚ) / m) * f) * m ≤ (v : ℚ) / m * (1 + 1 / 2 ^ 53) * f * (1 + 1 / 2 ^ 53) * m :=
      mul_le_mul_of_nonneg_right h2 hm.le
    have h4 := t2.trans (mul_le_mul_of_nonneg_right h3 (by norm_num : (0 : ℚ) ≤ 1 + 1 / 2 ^ 53))
    unfold relativeAtF
    refine h4.trans (le_of_eq ?_)
    rw [hvf]; ring
  have lo : (v : ℚ) * f * (1 - 1 / 2 ^ 53) ^ 3 ≤ relativeAtF m f v := by
    have h1 : (v : ℚ) / m * (1 - 1 / 2 ^ 53) * f ≤ b64 ((v : ℚ) / m) * f := mul_le_mul_of_nonneg_right r1 hf
    have h2 : (v : ℚ) / m * (1 - 1 / 2 ^ 53) * f * (1 - 1 / 2 ^ 53) ≤ b64 (b64 ((v : ℚ) / m) * f) :=
      (mul_le_mul_of_nonneg_right h1 (by norm_num)).trans s1
    have h3 : (v : ℚ) / m * (1 - 1 / 2 ^ 53) * f * (1 - 1 / 2 ^ 53) * m ≤ b64 (b64 ((v : ℚ) / m) * f) * m :=
      mul_le_mul_of_nonneg_right h2 hm.le
    have h4 := (mul_le_mul_of_nonneg_right h3 (by norm_num : (0 : ℚ) ≤ 1 - 1 / 2 ^ 53)).trans t1
    unfold relativeAtF
    refine le_trans (le_of_eq ?_) h4
    rw [hvf]; ring
  have e : 0 ≤ (v : ℚ) * f := mul_nonneg v0 hf
  set E : ℚ := (v : ℚ) * f
  have n1 : (1 + 1 / 2 ^ 53 : ℚ) ^ 3 ≤ 1 + 1 / 2 ^ 51 := by norm_num
  have n2 : (1 - 1 / 2 ^ 51 : ℚ) ≤ (1 - 1 / 2 ^ 53) ^ 3 := by norm_num
  have u1 := mul_le_mul_of_nonneg_left n1 e
  have u2 := mul_le_mul_of_nonneg_left n2 e
  have : E / 2 ^ 51 = E * (1 / 2 ^ 51) := by ring
  rw [this, abs_le]
  constructor <;> linarith

theorem relativeAtF_mono (m f : ℚ) (hm : 0 < m) (hf : 0 ≤ f) {v w : Int} (h : v ≤ w) : relativeAtF m f v ≤ relativeAtF m f w := by
  have hq : (v : ℚ) ≤ w := by exact_mod_cast h
  exact b64_mono (mul_le_mul_of_nonneg_right
    (b64_mono (mul_le_mul_of_nonneg_right (b64_mono (div_le_div_of_nonneg_right hq hm.le)) hf)) hm.le)

/-- C162 (relative scaling): for velocities that are not negative and not all 0 and a factor that is not negative, one monotone function maps each velocity
`v` to its new value, a whole number in 0..127; it is the whole part of `v * factor` (at most 127) as in exact arithmetic, unless `v * factor` is
within one part in 2^51 of a whole number, and then one more or less at most. -/
theorem C162_relative (vs : List Int) (factor : ℚ) (hv : ∀ v ∈ vs, 0 ≤ v) (hs : ∃ v ∈ vs, 0 < v) (hf : 0 ≤ factor) :
    ∃ g : Int → Int, scaleRelativeF vs factor = some (vs.map (fun v => ((g v : Int) : ℚ))) ∧
      (∀ a b, a ≤ b → g a ≤ g b) ∧ (∀ v, 0 ≤ g v ∧ g v ≤ 127) ∧
      (∀ v : Int, 0 ≤ v → (∀ z : Int, z ≤ 127 → v * factor / 2 ^ 51 < |(v : ℚ) * factor - z|) →
        g v = min 127 ⌊(v : ℚ) * factor⌋) ∧
      (∀ v : Int, 0 ≤ v → |g v - min 127 ⌊(v : ℚ) * factor⌋| ≤ 1) := by
  have hsum : 0 < vs.sum := by
    obtain ⟨v, hm, hp⟩ := hs
    exact lt_of_lt_of_le hp (List.single_le_sum hv v hm)
  have hlen : 0 < vs.length := by
    obtain ⟨v, hm, _⟩ := hs
    exact List.length_pos_of_mem hm
  have hmean : 0 < meanF vs := by
    apply b64_pos
    apply div_pos
    · exact_mod_cast hsum
    · exact_mod_cast hlen
  set m := meanF vs with hmdef
  have hclip : ∀ y : ℚ, 0 ≤ y → pyInt (clipQ 0 127 y) = min 127 ⌊y⌋ := by
    intro y hy
    unfold clipQ pyInt
    rw [max_eq_right hy, if_pos (le_min (by norm_num) hy), Int.floor_mono.map_min]
    congr 1
  refine ⟨fun v => pyInt (clipQ 0 127 (relativeAtF m factor v)), ?_, ?_, ?_, ?_, ?_⟩
  · unfold scaleRelativeF
    rw [← hmdef, if_neg hmean.ne']
  · intro a b h
    exact pyInt_mono (clipQ_mono _ _ (relativeAtF_mono m factor hmean hf h))
  · intro v
    have := clipQ_range 0 127 (relativeAtF m factor v) (by norm_num)
    exact ⟨pyInt_nonneg' this.1, pyInt_le' 127 (by exact_mod_cast this.2) this.1⟩
  · intro v h0 hn
    obtain ⟨he, hp⟩ := relativeAtF_err m factor v hmean hf h0
    show pyInt (clipQ 0 127 (relativeAtF m factor v)) = _
    rw [hclip _ hp]
    have E0 : 0 ≤ (v : ℚ) * factor := mul_nonneg (by exact_mod_cast h0) hf
    set E : ℚ := (v : ℚ) * factor
    have he' := abs_le.1 he
    by_cases hE : 127 ≤ E
    · have h127 := hn 127 le_rfl
      push_cast at h127
      rw [abs_of_nonneg (by linarith : (0 : ℚ) ≤ E - 127)] at h127
      have e1 : (127 : ℤ) ≤ ⌊relativeAtF m factor v⌋ := Int.le_floor.2 (by push_cast; linarith [he'.1])
      have e2 : (127 : ℤ) ≤ ⌊E⌋ := Int.le_floor.2 (by push_cast; exact hE)
      rw [min_eq_left e1, min_eq_left e2]
    · push Not at hE
      have hk : ⌊E⌋ < 127 := Int.floor_lt.2 (by push_cast; exact hE)
      have k1 := Int.floor_le E
      have k2 := Int.lt_floor_add_one E
      have z1 := hn ⌊E⌋ (by omega)
      have z2 := hn (⌊E⌋ + 1) (by omega)
      push_cast at z2
      rw [abs_of_nonneg (by linarith : (0 : ℚ) ≤ E - ⌊E⌋)] at z1
      rw [abs_of_nonpos (by linarith : E - (⌊E⌋ + 1) ≤ 0)] at z2
      have : ⌊relativeAtF m factor v⌋ = ⌊E⌋ := by
        rw [Int.floor_eq_iff]
        constructor <;> linarith [he'.1, he'.2]
      rw [this]
  · intro v h0
    obtain ⟨he, hp⟩ := relativeAtF_err m factor v hmean hf h0
    show |pyInt (clipQ 0 127 (relativeAtF m factor v)) - _| ≤ 1
    rw [hclip _ hp]
    have E0 : 0 ≤ (v : ℚ) * factor := mul_nonneg (by exact_mod_cast h0) hf
    set E : ℚ := (v : ℚ) * factor
    have he' := abs_le.1 he
    by_cases hE : 128 ≤ E
    · have hd : E / 2 ^ 51 ≤ E / 128 := div_le_div_of_nonneg_left E0 (by norm_num) (by norm_num)
      have e1 : (127 : ℤ) ≤ ⌊relativeAtF m factor v⌋ := Int.le_floor.2 (by push_cast; linarith [he'.1])
      have e2 : (127 : ℤ) ≤ ⌊E⌋ := Int.le_floor.2 (by push_cast; linarith)
      rw [min_eq_left e1, min_eq_left e2]
      simp
    · push Not at hE
      have hd : E / 2 ^ 51 < 1 := by rw [div_lt_one (by norm_num)]; linarith
      have a1 : ⌊relativeAtF m factor v⌋ ≤ ⌊E⌋ + 1 := by
        rw [← Int.floor_add_one]
        exact Int.floor_mono (by linarith [he'.2])
      have a2 : ⌊E⌋ ≤ ⌊relativeAtF m factor v⌋ + 1 := by
        rw [← Int.floor_add_one]
        exact Int.floor_mono (by linarith [he'.1])
      rw [abs_le]
      omega

/-- C162 (factor 1): relative scaling by 1 leaves every MIDI velocity as it is or makes it one less. -/
theorem C162_identity (vs : List Int) (hv : ∀ v ∈ vs, 0 ≤ v ∧ v ≤ 127) (hs : ∃ v ∈ vs, 0 < v) :
    ∃ g : Int → Int, scaleRelativeF vs 1 = some (vs.map (fun v => ((g v : Int) : ℚ))) ∧ ∀ v ∈ vs, g v = v ∨ g v = v - 1 := by
  obtain ⟨g, h1, _, _, _, h5⟩ := C162_relative vs 1 (fun v h => (hv v h).1) hs (by norm_num)
  have hsum : 0 < vs.sum := by
    obtain ⟨v, hm, hp⟩ := hs
    exact lt_of_lt_of_le hp (List.single_le_sum (fun v h => (hv v h).1) v hm)
  have hmean : 0 < meanF vs := by
    obtain ⟨v, hm, _⟩ := hs
    have := List.length_pos_of_mem hm
    apply b64_pos
    apply div_pos
    · exact_mod_cast hsum
    · exact_mod_cast this
  refine ⟨fun v => pyInt (clipQ 0 127 (relativeAtF (meanF vs) 1 v)), ?_, ?_⟩
  · unfold scaleRelativeF
    rw [if_neg hmean.ne']
  · intro v hm
    obtain ⟨v0, v1⟩ := hv v hm
    have hg : pyInt (clipQ 0 127 (relativeAtF (meanF vs) 1 v)) = g v := by
      have e : scaleRelativeF vs 1 = some (vs.map (fun v => ((pyInt (clipQ 0 127 (relativeAtF (meanF vs) 1 v)) : Int) : ℚ))) := by
        unfold scaleRelativeF
        rw [if_neg hmean.ne']
      rw [e, Option.some.injEq] at h1
      have := (List.map_inj_left.1 h1) v hm
      exact_mod_cast this
    have h5' := h5 v v0
    rw [mul_one, Int.floor_intCast, min_eq_right v1, ← hg] at h5'
    obtain ⟨he, hp⟩ := relativeAtF_err (meanF vs) 1 v hmean (by norm_num) v0
    rw [mul_one] at he
    have hle : pyInt (clipQ 0 127 (relativeAtF (meanF vs) 1 v)) ≤ v := by
      unfold clipQ pyInt
      rw [max_eq_right hp, if_pos (le_min (by norm_num) hp)]
      apply Int.lt_add_one_iff.1
      apply Int.floor_lt.2
      refine lt_of_le_of_lt (min_le_right _ _) ?_
      have vq : (v : ℚ) ≤ 127 := by exact_mod_cast v1
      have : (v : ℚ) / 2 ^ 51 < 1 := by rw [div_lt_one (by norm_num)]; linarith
      push_cast
      linarith [(abs_le.1 he).2]
    have := abs_le.1 h5'
    show pyInt (clipQ 0 127 (relativeAtF (meanF vs) 1 v)) = v ∨ pyInt (clipQ 0 127 (relativeAtF (meanF vs) 1 v)) = v - 1
    omega

/-- Defect: the softest note of two is silenced by a scaling that should change nothing. -/
theorem C162_identity_fails : scaleRelativeF [1, 48] 1 = some [0, 48] := by decide +kernel

end NGC
