import Verif.FloatClockProps

/-!
C155: `tick_to_time` and `time_to_tick` in floats.
-/

namespace NGC

/-- A clock as the API produces it, in floats: a tempo map and the float times of the ticks 0..M, with M at least the last tick of the
map. -/
def ClockOkF (c : Clock) : Prop :=
  Spec.TempoMap c.scales ∧ ∃ M, (∀ p ∈ c.scales, p.1 ≤ M) ∧ c.times = (List.range (M + 1)).map (fun k => secF c.scales 0 k)

theorem tickToTimeF_ok (c : Clock) (h : ClockOkF c) (k : Nat) (hk : k < 1000000000) :
    ∃ c', c.tickToTimeF k = .ok (secF c.scales 0 k, c') ∧ ClockOkF c' ∧ c'.scales = c.scales ∧ c.times <+: c'.times ∧
      k < c'.times.length ∧
      (∀ N, k ≤ N → c.times.length ≤ N + 1 → (∀ p ∈ c.scales, p.1 ≤ N) → c'.times.length ≤ N + 1) := by
  obtain ⟨hm, M, hM, ht⟩ := h
  unfold Clock.tickToTimeF
  rw [if_neg (by omega)]
  by_cases hl : c.times.length ≤ k
  · simp only [hl, if_true]
    obtain ⟨M', h1, h2, h4, h3⟩ := tickTableF_eq c.scales hm k
    refine ⟨{ c with times := tickTableF c.scales k }, ?_, ⟨hm, M', h2, h3⟩, rfl, ?_, ?_, ?_⟩
    · rw [h3, List.getElem?_map, List.getElem?_range (by omega)]
      rfl
    · show c.times <+: tickTableF c.scales k
      rw [h3, ht]
      have hMM : M + 1 ≤ M' + 1 := by rw [ht] at hl; simp at hl; omega
      rw [List.prefix_iff_eq_take, ← List.map_take, List.take_range]
      simp [Nat.min_eq_left hMM]
    · show k < (tickTableF c.scales k).length
      rw [h3]; simp; omega
    · intro N hN _ hp
      show (tickTableF c.scales k).length ≤ N + 1
      rw [h3]
      simp only [List.length_map, List.length_range]
      rcases h4 with g | ⟨p, hpm, g⟩
      · omega
      · have := hp p hpm; omega
  · simp only [hl, if_false]
    refine ⟨c, ?_, ⟨hm, M, hM, ht⟩, rfl, List.prefix_rfl, by omega, fun N _ h _ => h⟩
    have : k < M + 1 := by rw [ht] at hl; simpa using hl
    rw [ht, List.getElem?_map, List.getElem?_range this]
    rfl

/-- C155, `tick_to_time` in floats. For every tick below one milliard it returns a time that is off by at most `n` parts in 2^52, with
`n` the number of entries of the tempo map; times already in the table are kept, and the object stays one of which all this holds. -/
theorem C155_tick_to_time (c : Clock) (h : ClockOkF c) (k : Nat) (hn : c.scales.length ≤ 2 ^ (52 : Nat)) :
    (k < 1000000000 → ∃ y c', c.tickToTimeF k = .ok (y, c') ∧ ClockOkF c' ∧ c'.scales = c.scales ∧ c.times <+: c'.times ∧
      |y - Spec.seconds c.scales k| ≤ Spec.seconds c.scales k * (c.scales.length / 2 ^ (52 : Nat))) ∧
    (1000000000 ≤ k → c.tickToTimeF k = .error .index) := by
  refine ⟨fun hk => ?_, fun hk => by unfold Clock.tickToTimeF; rw [if_pos hk]⟩
  obtain ⟨c', e1, e2, e3, e4, _, _⟩ := tickToTimeF_ok c h k hk
  exact ⟨_, c', e1, e2, e3, e4, (secF_full c.scales h.1 k).err (seconds_nonneg' c.scales h.1 k) hn⟩

/-- C155: rounding never puts a later tick before an earlier one, on any clock and whatever was asked in between. -/
theorem C155_order (c d : Clock) (h : ClockOkF c) (g : ClockOkF d) (e : d.scales = c.scales) (i j : Nat) (y z : ℚ) (c' d' : Clock)
    (hy : c.tickToTimeF i = .ok (y, c')) (hz : d.tickToTimeF j = .ok (z, d')) (hij : i ≤ j) : y ≤ z := by
  have hlt : ∀ (c : Clock) (k : Nat) (r : ℚ × Clock), c.tickToTimeF k = .ok r → k < 1000000000 := by
    intro c k r hr
    by_contra hc
    unfold Clock.tickToTimeF at hr
    rw [if_pos (by omega)] at hr
    cases hr
  obtain ⟨c1, e1, _⟩ := tickToTimeF_ok c h i (hlt _ _ _ hy)
  obtain ⟨d1, e2, _⟩ := tickToTimeF_ok d g j (hlt _ _ _ hz)
  have a := (Prod.mk.inj (Except.ok.inj (hy.symm.trans e1))).1
  have b := (Prod.mk.inj (Except.ok.inj (hz.symm.trans e2))).1
  rw [a, b, e]
  exact secF_mono c.scales h.1 hij

/-! ### `time_to_tick` -/

theorem searchsorted_list (l : List ℚ) (hs : l.Pairwise (· ≤ ·)) (x : ℚ) :
    searchsortedLeft l x ≤ l.length ∧
    (∀ i (hi : i < l.length), i < searchsortedLeft l x → l[i] < x) ∧
    (∀ i (hi : i < l.length), searchsortedLeft l x ≤ i → x ≤ l[i]) := by
  have hw : StrictWeakOn (fun a b : ℚ => decide (a < b)) (x :: l) := by
    constructor
    · intro a _ b _ hab
      simp only [decide_eq_true_eq, decide_eq_false_iff_not, not_lt] at *
      exact le_of_lt hab
    · intro a _ b _ d _ had
      simp only [decide_eq_true_eq] at *
      by_cases hab : a < b
      · exact Or.inl hab
      · exact Or.inr (lt_of_le_of_lt (not_lt.1 hab) had)
  have hs' : SortedLt (fun a b : ℚ => decide (a < b)) l := by
    unfold SortedLt
    refine hs.imp ?_
    intro a b hab
    simp only [decide_eq_false_iff_not, not_lt]
    exact hab
  obtain ⟨h1, h2, h3⟩ := bisectLeft_spec _ l x hw hs'
  refine ⟨h1, ?_, ?_⟩
  · intro i hl hi
    simpa using h2 i hl hi
  · intro i hl hi
    simpa using h3 i hl hi

theorem times_sorted (c : Clock) (h : ClockOkF c) : c.times.Pairwise (· ≤ ·) := by
  obtain ⟨hm, M, _, ht⟩ := h
  rw [ht, List.pairwise_map]
  exact (List.pairwise_lt_range).imp (fun hab => secF_mono c.scales hm (Nat.le_of_lt hab))

/-- C155, `time_to_tick` in floats, inside the table: the tick returned is nearest to the time, up to one part in 2^51 of the
distance. -/
theorem C155_nearest (c : Clock) (h : ClockOkF c) (t : ℚ) (hin : ∃ y ∈ c.times, t ≤ y) :
    ∃ j : Nat, c.timeToTickF t = .ok (j : Int) ∧ j < c.times.length ∧
      ∀ (i : Nat) (y z : ℚ), c.times[i]? = some y → c.times[j]? = some z → |t - z| ≤ |t - y| * (1 + 1 / 2 ^ (51 : Nat)) := by
  obtain ⟨h1, h2, h3⟩ := searchsorted_list c.times (times_sorted c h) t
  have hsort := List.pairwise_iff_getElem.1 (times_sorted c h)
  have hp : searchsortedLeft c.times t < c.times.length := by
    rcases Nat.lt_or_ge (searchsortedLeft c.times t) c.times.length with g | g
    · exact g
    · exfalso
      obtain ⟨y, hy, hty⟩ := hin
      obtain ⟨i, hi, rfl⟩ := List.mem_iff_getElem.1 hy
      have := h2 i hi (by omega)
      linarith
  unfold Clock.timeToTickF
  generalize searchsortedLeft c.times t = p at *
  simp only
  rw [if_neg (by omega)]
  have grow : ∀ x : ℚ, |x| ≤ |x| * (1 + 1 / 2 ^ (51 : Nat)) := by
    intro x
    have := abs_nonneg x
    nlinarith [show (0:ℚ) < 1 / 2 ^ (51 : Nat) by norm_num]
  have hge : ∀ i y, c.times[i]? = some y → p ≤ i → |t - c.times[p]| ≤ |t - y| := by
    intro i y hy hi
    obtain ⟨hl, rfl⟩ := List.getElem?_eq_some_iff.1 hy
    have a := h3 p hp (Nat.le_refl _)
    have b : c.times[p] ≤ c.times[i] := by
      rcases Nat.eq_or_lt_of_le hi with g | g
      · subst g; exact le_refl _
      · exact hsort p i hp hl g
    rw [abs_of_nonpos (by linarith), abs_of_nonpos (by linarith)]
    linarith
  have hlt : ∀ (h0 : p ≠ 0) i y, c.times[i]? = some y → i < p → |t - c.times[p - 1]'(by omega)| ≤ |t - y| := by
    intro h0 i y hy hi
    obtain ⟨hl, rfl⟩ := List.getElem?_eq_some_iff.1 hy
    have a := h2 (p - 1) (by omega) (by omega)
    have b : c.times[i] ≤ c.times[p - 1]'(by omega) := by
      rcases Nat.eq_or_lt_of_le (show i ≤ p - 1 by omega) with g | g
      · subst g; exact le_refl _
      · exact hsort i (p - 1) hl (by omega) g
    rw [abs_of_pos (by linarith), abs_of_pos (by linarith)]
    linarith
  have gp : c.times.getD p 0 = c.times[p] := by simp [List.getD, List.getElem?_eq_getElem hp]
  have gp' : ∀ _ : p ≠ 0, c.times.getD (p - 1) 0 = c.times[p - 1]'(by omega) := by
    intro h0; simp [List.getD, List.getElem?_eq_getElem (show p - 1 < c.times.length by omega)]
  by_cases h0 : p = 0
  · rw [if_neg (by simp [h0])]
    refine ⟨p, rfl, hp, ?_⟩
    intro i y z hy hz
    have : z = c.times[p] := by rw [List.getElem?_eq_getElem hp] at hz; exact (Option.some.inj hz).symm
    rw [this]
    exact le_trans (hge i y hy (by omega)) (grow _)
  · rw [gp, gp' h0]
    have a := h2 (p - 1) (by omega) (by omega)
    have b := h3 p hp (Nat.le_refl _)
    have da : 0 < t - c.times[p - 1]'(by omega) := by linarith
    have db : t - c.times[p] ≤ 0 := by linarith
    have ea : |b64 (t - c.times[p - 1]'(by omega))| = b64 (t - c.times[p - 1]'(by omega)) := abs_of_nonneg (b64_nonneg da.le)
    have eb : |b64 (t - c.times[p])| = b64 (c.times[p] - t) := by
      have : t - c.times[p] = -(c.times[p] - t) := by ring
      rw [this, b64_neg, abs_neg, abs_of_nonneg (b64_nonneg (by linarith))]
    rw [ea, eb]
    by_cases hcmp : b64 (t - c.times[p - 1]'(by omega)) < b64 (c.times[p] - t)
    · rw [if_pos ⟨h0, hcmp⟩]
      have hnear : t - c.times[p - 1]'(by omega) < c.times[p] - t := by
        by_contra hc
        have := b64_mono (not_lt.1 hc)
        linarith
      refine ⟨p - 1, by congr 1; omega, by omega, ?_⟩
      intro i y z hy hz
      have hz' : z = c.times[p - 1]'(by omega) := by
        rw [List.getElem?_eq_getElem (show p - 1 < c.times.length by omega)] at hz; exact (Option.some.inj hz).symm
      rw [hz']
      refine le_trans ?_ (grow _)
      rcases Nat.lt_or_ge i p with g | g
      · exact hlt h0 i y hy g
      · refine le_trans ?_ (hge i y hy g)
        rw [abs_of_pos da, abs_of_nonpos db]
        linarith
    · rw [if_neg (by tauto)]
      refine ⟨p, rfl, hp, ?_⟩
      intro i y z hy hz
      have hz' : z = c.times[p] := by rw [List.getElem?_eq_getElem hp] at hz; exact (Option.some.inj hz).symm
      rw [hz']
      rcases Nat.lt_or_ge i p with g | g
      · have hd := hlt h0 i y hy g
        rw [abs_of_pos da] at hd
        have e1 := b64_err (t - c.times[p - 1]'(by omega))
        have e2 := b64_err (c.times[p] - t)
        rw [abs_of_pos da, abs_le] at e1
        rw [abs_of_nonneg (by linarith : 0 ≤ c.times[p] - t), abs_le] at e2
        rw [not_lt] at hcmp
        rw [abs_of_nonpos db]
        have : c.times[p] - t ≤ (t - c.times[p - 1]'(by omega)) * (1 + 1 / 2 ^ (51 : Nat)) := by
          norm_num at e1 e2 ⊢
          linarith [e1.1, e1.2, e2.1, e2.2]
        have hk := mul_le_mul_of_nonneg_right hd (show (0:ℚ) ≤ 1 + 1 / 2 ^ (51 : Nat) by norm_num)
        linarith
      · exact le_trans (hge i y hy g) (grow _)

theorem timeToTickF_self (c : Clock) (hs : c.times.Pairwise (· < ·)) (k : Nat) (y : ℚ) (hy : c.times[k]? = some y) :
    c.timeToTickF y = .ok (k : Int) := by
  obtain ⟨hl, rfl⟩ := List.getElem?_eq_some_iff.1 hy
  obtain ⟨h1, h2, h3⟩ := searchsorted_list c.times (hs.imp (fun h => le_of_lt h)) c.times[k]
  have hsort := List.pairwise_iff_getElem.1 hs
  have hp : searchsortedLeft c.times c.times[k] = k := by
    rcases Nat.lt_trichotomy (searchsortedLeft c.times c.times[k]) k with g | g | g
    · have a := h3 _ (by omega) (Nat.le_refl _)
      have b := hsort _ k (by omega) hl g
      linarith
    · exact g
    · have a := h2 k hl g
      exact absurd a (lt_irrefl _)
  unfold Clock.timeToTickF
  rw [hp]
  simp only
  rw [if_neg (by omega)]
  have gk : c.times.getD k 0 = c.times[k] := by simp [List.getD, List.getElem?_eq_getElem hl]
  rw [gk, sub_self, b64_zero, abs_zero, if_neg (fun h => absurd h.2 (not_lt.2 (abs_nonneg _)))]

/-! ### Beyond the table -/

theorem secF_last : ∀ (suf : List (Nat × ℚ)) (s : Nat) (c last : ℚ), 0 ≤ last → ((s, c) :: suf).Pairwise (fun a b => a.1 ≤ b.1) →
    (∀ p ∈ (s, c) :: suf, 0 < p.2) →
    ∃ a cc ℓ, ((s, c) :: suf).getLast? = some (a, cc) ∧ 0 ≤ ℓ ∧
      ∀ i, (∀ p ∈ (s, c) :: suf, p.1 ≤ i) → secF ((s, c) :: suf) last i = b64 (ℓ + b64 (cc * ((i - a : Nat) : ℚ))) := by
  intro suf
  induction suf with
  | nil => intro s c last hl _ _; exact ⟨s, c, last, rfl, hl, fun i _ => by rw [secF]⟩
  | cons q rest ih =>
    obtain ⟨e, c'⟩ := q
    intro s c last hl ho hp
    have hc : 0 < c := hp (s, c) (by simp)
    obtain ⟨a, cc, ℓ, h1, h2, h3⟩ := ih e c' (b64 (last + b64 (c * ((e - s : Nat) : ℚ))))
      (b64_nonneg (add_nonneg hl (b64_nonneg (mul_nonneg hc.le (Nat.cast_nonneg _))))) (List.pairwise_cons.1 ho).2
      (fun p hp' => hp p (List.mem_cons_of_mem _ hp'))
    refine ⟨a, cc, ℓ, by rw [List.getLast?_cons_cons]; exact h1, h2, ?_⟩
    intro i hi
    have := hi (e, c') (by simp)
    rw [secF, if_neg (by simp only at this; omega)]
    exact h3 i (fun p hp' => hi p (List.mem_cons_of_mem _ hp'))

theorem roundHE_of_near (x : ℚ) (k : Int) (h : |x - k| < 1 / 2) : roundHE x = k := by
  have a := roundHE_nearest x k
  have b : |(roundHE x : ℚ) - k| < 1 := by
    have : (roundHE x : ℚ) - k = -(x - roundHE x) + (x - k) := by ring
    rw [this]
    refine lt_of_le_of_lt (abs_add_le _ _) ?_
    rw [abs_neg]
    linarith
  have c : |roundHE x - k| < 1 := by exact_mod_cast b
  rw [abs_lt] at c
  omega

/-- The extrapolation beyond the table gives back the tick, as long as times stay below 2^46 ticks of the final scale. -/
theorem extrapolate (ℓ c : ℚ) (m n : Nat) (base : Nat) (hl : 0 ≤ ℓ) (hc : 0 < c)
    (hT : b64 (ℓ + b64 (c * ((m + n : Nat) : ℚ))) ≤ 2 ^ (46 : Nat) * c) (hbase : base ≤ 2 ^ (46 : Nat)) :
    roundHE (b64 ((base : ℚ) + b64 (b64 (b64 (ℓ + b64 (c * ((m + n : Nat) : ℚ))) - b64 (ℓ + b64 (c * (m : ℚ)))) / c))) = (base + n : Nat) := by
  have m0 : (0 : ℚ) ≤ m := Nat.cast_nonneg m
  have n0 : (0 : ℚ) ≤ n := Nat.cast_nonneg n
  have hxy : c * ((m + n : Nat) : ℚ) = c * m + c * n := by push_cast; ring
  have le1 : c * (m : ℚ) ≤ c * ((m + n : Nat) : ℚ) := by rw [hxy]; nlinarith
  have hord : b64 (ℓ + b64 (c * (m : ℚ))) ≤ b64 (ℓ + b64 (c * ((m + n : Nat) : ℚ))) := b64_mono (by linarith [b64_mono le1])
  have x0 : 0 ≤ c * (m : ℚ) := mul_nonneg hc.le m0
  have y0 : 0 ≤ c * ((m + n : Nat) : ℚ) := le_trans x0 le1
  have z0 : 0 ≤ c * (n : ℚ) := mul_nonneg hc.le n0
  rw [hxy] at hT hord y0 ⊢
  clear le1 hxy
  have hn : c * (n : ℚ) / c = n := by field_simp
  generalize c * (m : ℚ) = x at *
  generalize c * (n : ℚ) = z at *
  have e1 := b64_err x
  have e2 := b64_err (x + z)
  have pA := b64_nonneg x0
  have pB := b64_nonneg y0
  rw [abs_of_nonneg x0, abs_le] at e1
  rw [abs_of_nonneg y0, abs_le] at e2
  generalize b64 x = A at *
  generalize b64 (x + z) = B at *
  have e3 := b64_err (ℓ + A)
  have e4 := b64_err (ℓ + B)
  rw [abs_of_nonneg (add_nonneg hl pA), abs_le] at e3
  rw [abs_of_nonneg (add_nonneg hl pB), abs_le] at e4
  have pX := b64_nonneg (add_nonneg hl pA)
  generalize b64 (ℓ + A) = X at *
  generalize b64 (ℓ + B) = Y at *
  have hYX : 0 ≤ Y - X := by linarith
  have e5 := b64_err (Y - X)
  have pD := b64_nonneg hYX
  rw [abs_of_nonneg hYX, abs_le] at e5
  generalize b64 (Y - X) = D at *
  -- D is z up to 1/8 of c
  have hD1 : D - z ≤ c / 8 := by
    linarith [e1.1, e1.2, e2.1, e2.2, e3.1, e3.2, e4.1, e4.2, e5.1, e5.2]
  have hD2 : z - D ≤ c / 8 := by
    linarith [e1.1, e1.2, e2.1, e2.2, e3.1, e3.2, e4.1, e4.2, e5.1, e5.2]
  have hDm : D ≤ 2 ^ (47 : Nat) * c := by
    linarith [e5.1, e5.2]
  have q1 : D / c - n ≤ 1 / 8 := by
    rw [← hn, ← sub_div, div_le_iff₀ hc]; linarith
  have q2 : n - D / c ≤ 1 / 8 := by
    rw [← hn, ← sub_div, div_le_iff₀ hc]; linarith
  have q3 : D / c ≤ 2 ^ (47 : Nat) := by rw [div_le_iff₀ hc]; exact hDm
  have q0 : 0 ≤ D / c := div_nonneg pD hc.le
  clear hn
  generalize D / c = Q at *
  have e6 := b64_err Q
  have pQ := b64_nonneg q0
  rw [abs_of_nonneg q0, abs_le] at e6
  generalize b64 Q = R at *
  have b0 : (0 : ℚ) ≤ base := Nat.cast_nonneg base
  have bq : (base : ℚ) ≤ 2 ^ (46 : Nat) := by exact_mod_cast hbase
  have e7 := b64_err ((base : ℚ) + R)
  rw [abs_of_nonneg (add_nonneg b0 pQ), abs_le] at e7
  generalize b64 ((base : ℚ) + R) = S at *
  apply roundHE_of_near
  push_cast
  rw [abs_lt]
  constructor <;> linarith [e6.1, e6.2, e7.1, e7.2]

/-- C155, round trip in floats: `time_to_tick(tick_to_time(k)) = k`, both on the object before the question and on the one after it
(with its perhaps longer table), as long as no more than 2^45 ticks of any tempo in the map fit into the times of the table: for every
real file. -/
theorem C155_round_trip (c : Clock) (h : ClockOkF c) (k : Nat) (hk : k < 1000000000) (hn : c.scales.length ≤ 2 ^ (52 : Nat)) (N : Nat)
    (h1 : k ≤ N) (h2 : c.times.length ≤ N + 1) (h3 : ∀ p ∈ c.scales, p.1 ≤ N)
    (hb : ∀ p ∈ c.scales, Spec.seconds c.scales N ≤ 2 ^ (45 : Nat) * p.2) (hN : N ≤ 2 ^ (46 : Nat)) :
    ∃ t c', c.tickToTimeF k = .ok (t, c') ∧ c'.timeToTickF t = .ok (k : Int) ∧ c.timeToTickF t = .ok (k : Int) := by
  obtain ⟨c', e1, e2, e3, e4, e5, e6⟩ := tickToTimeF_ok c h k hk
  have hlen := e6 N h1 h2 h3
  have hm := h.1
  have hsec : ∀ p ∈ c.scales, secF c.scales 0 N ≤ 2 ^ (46 : Nat) * p.2 := by
    intro p hp
    have a := (secF_full c.scales hm N).err (seconds_nonneg' c.scales hm N) hn
    rw [abs_le] at a
    have s0 := seconds_nonneg' c.scales hm N
    have b : Spec.seconds c.scales N * (c.scales.length / 2 ^ (52 : Nat)) ≤ Spec.seconds c.scales N * 1 := by
      refine mul_le_mul_of_nonneg_left ?_ s0
      rw [div_le_one (by norm_num)]
      exact_mod_cast hn
    have := hb p hp
    norm_num at *
    linarith [a.2]
  have hstrict : ∀ d : Clock, ClockOkF d → d.scales = c.scales → d.times.length ≤ N + 1 → d.times.Pairwise (· < ·) := by
    intro d hd he hl
    obtain ⟨_, M, _, ht⟩ := hd
    rw [ht, List.pairwise_map]
    have hMN : M ≤ N := by rw [ht] at hl; simp at hl; omega
    refine List.Pairwise.imp_of_mem ?_ (List.pairwise_lt_range (n := M + 1))
    intro a b ha hb' hab
    rw [List.mem_range] at ha hb'
    rw [he]
    refine secF_strict c.scales hm N (fun p hp => ?_) hab (by omega)
    have := hsec p hp
    have pp := hm.pos p hp
    norm_num at *
    linarith
  have hget : ∀ d : Clock, ClockOkF d → d.scales = c.scales → k < d.times.length → d.times[k]? = some (secF c.scales 0 k) := by
    intro d hd he hl
    obtain ⟨_, M, _, ht⟩ := hd
    rw [ht] at hl ⊢
    simp only [List.length_map, List.length_range] at hl
    rw [List.getElem?_map, List.getElem?_range hl, he]
    rfl
  refine ⟨_, c', e1, timeToTickF_self c' (hstrict c' e2 e3 hlen) k _ (hget c' e2 e3 e5), ?_⟩
  by_cases hkl : k < c.times.length
  · exact timeToTickF_self c (hstrict c h rfl h2) k _ (hget c h rfl hkl)
  · -- beyond the table
    obtain ⟨_, M, hM, ht⟩ := h
    have hl : c.times.length = M + 1 := by rw [ht]; simp
    obtain ⟨c0, rest, e0⟩ := hm.zero
    obtain ⟨a, cc, ℓ, g1, g2, g3⟩ := secF_last rest 0 c0 0 (le_refl _) (by rw [← e0]; exact hm.order) (by rw [← e0]; exact hm.pos)
    rw [← e0] at g1 g3
    have hccm := List.mem_of_getLast? g1
    have hcc : 0 < cc := hm.pos _ hccm
    have haM : a ≤ M := hM _ hccm
    have hkM : M < k := by omega
    obtain ⟨s1, s2, s3⟩ := searchsorted_list c.times (times_sorted c ⟨hm, M, hM, ht⟩) (secF c.scales 0 k)
    have hp : searchsortedLeft c.times (secF c.scales 0 k) = c.times.length := by
      rcases Nat.lt_or_ge (searchsortedLeft c.times (secF c.scales 0 k)) c.times.length with g | g
      · exfalso
        have x := s3 _ g (Nat.le_refl _)
        generalize searchsortedLeft c.times (secF c.scales 0 k) = q at *
        have : c.times[q] = secF c.scales 0 q := by simp [ht]
        rw [this] at x
        have y := secF_strict c.scales hm N (fun p hp => by
          have := hsec p hp
          have pp := hm.pos p hp
          norm_num at *
          linarith) (show q < k by omega) h1
        linarith
      · omega
    have glast : c.times.getLast? = some (secF c.scales 0 M) := by
      rw [ht, List.getLast?_map, List.range_succ]; simp
    unfold Clock.timeToTickF
    simp only [hp, if_true, g1, glast]
    rw [if_neg hcc.ne', hl]
    have ek := g3 k (fun p hp => by have := hM p hp; omega)
    have eM := g3 M hM
    rw [show k - a = (M - a) + (k - M) by omega] at ek
    have hTk : secF c.scales 0 k ≤ 2 ^ (46 : Nat) * cc := le_trans (secF_mono c.scales hm h1) (hsec _ hccm)
    rw [ek] at hTk
    have := extrapolate ℓ cc (M - a) (k - M) M g2 hcc hTk (by omega)
    rw [ek, eM]
    have hcast : (((M + 1 : Nat) : ℚ) - 1) = (M : ℚ) := by push_cast; ring
    rw [hcast, this]
    congr 1
    omega

theorem seconds_rel (a b : List (Nat × ℚ)) (n : Nat) (h : ∀ k, Rel n (Spec.scaleAt a k) (Spec.scaleAt b k)) (k : Nat) :
    Rel n (Spec.seconds a k) (Spec.seconds b k) := by
  induction k with
  | zero => rw [seconds_zero, seconds_zero]; simp [Rel]
  | succ k ih => rw [seconds_succ, seconds_succ]; exact ih.add (h k)

/-- C155, whole way from the file: for every track of tempo events that a MIDI file can hold, the clock loaded in floats answers
`tick_to_time(k)`, for every tick below one milliard, with a time that differs from the exact one (the sum of the tick lengths at the
tempo in force) by at most `n + 5` parts in 2^52, with `n` the number of entries of the tempo map. -/
theorem C155_file_times (res : Nat) (hr : 0 < res) (track : List Msg) (hg : Spec.GoodTrack track) (hok : ∀ e ∈ track, TempoOk e)
    (m : Nat) :
    ∃ sE sF, loadTempo res track = .ok sE ∧ loadTempoF res track = .ok sF ∧ ClockOkF ⟨res, sF, tickTableF sF m⟩ ∧
      ∀ k, k < 1000000000 → sF.length + 5 ≤ 2 ^ (52 : Nat) → ∃ y c', (Clock.mk res sF (tickTableF sF m)).tickToTimeF k = .ok (y, c') ∧
        |y - Spec.seconds sE k| ≤ Spec.seconds sE k * ((sF.length + 5 : Nat) / 2 ^ (52 : Nat)) := by
  obtain ⟨sE, sF, h1, h2, h3, h4, h5, _⟩ := C155_tempo_map res hr track hg hok
  obtain ⟨sE', g1, g2, _, g3⟩ := C60_tempo_map res hr track hg
  have : sE' = sE := Except.ok.inj (g1.symm.trans h1)
  subst this
  obtain ⟨M, _, q2, _, q3⟩ := tickTableF_eq sF h4 m
  have hclock : ClockOkF ⟨res, sF, tickTableF sF m⟩ := ⟨h4, M, q2, q3⟩
  refine ⟨sE', sF, h1, h2, hclock, ?_⟩
  intro k hk hlen
  obtain ⟨c', e1, _⟩ := tickToTimeF_ok _ hclock k hk
  refine ⟨_, c', e1, ?_⟩
  have r1 : Rel 5 (Spec.seconds sE' k) (Spec.seconds sF k) := seconds_rel sE' sF 5 (fun j => by rw [g3 j]; exact h5 j) k
  have r2 := r1.trans (secF_full sF h4 k)
  rw [Nat.add_comm] at r2
  exact r2.err (seconds_nonneg' sE' g2 k) hlen

/-- The hypotheses are met: the track of C60, and the times it gives. -/
example : (∀ e ∈ exTempoTrack, TempoOk e) ∧
    (∃ sF, loadTempoF 480 exTempoTrack = .ok sF ∧ (∀ p ∈ sF, Spec.seconds sF 600 ≤ 2 ^ (45 : Nat) * p.2) ∧
      (tickTableF sF 600).length = 601) := by
  refine ⟨?_, [(0, scaleF 480 500000), (240, scaleF 480 250000), (480, scaleF 480 1000000)], by decide +kernel, by decide +kernel,
    by decide +kernel⟩
  intro e he t ht
  simp only [exTempoTrack, List.mem_cons, List.not_mem_nil, or_false] at he
  rcases he with rfl | rfl | rfl | rfl | rfl | rfl <;> simp at ht <;> subst ht <;> norm_num

theorem clockOkF_table (res : Nat) (scales : List (Nat × ℚ)) (h : Spec.TempoMap scales) (m : Nat) :
    ClockOkF ⟨res, scales, tickTableF scales m⟩ := by
  obtain ⟨M, _, q2, _, q3⟩ := tickTableF_eq scales h m
  exact ⟨h, M, q2, q3⟩

/-- The tempo map of the refutation below. -/
def hugeScales : List (Nat × ℚ) := [(0, scaleF 1 16777215), (900000000, scaleF 1 1)]

/-- C155 (refutation of the round trip without a bound): a file of valid three-byte tempi, the slowest one for 900 million ticks and
then the fastest one, for which two successive ticks get the same float time, so that `time_to_tick(tick_to_time(k))` is not `k`. -/
theorem C155_round_trip_fails :
    ∃ track : List Msg, Spec.GoodTrack track ∧ (∀ e ∈ track, TempoOk e) ∧ ∃ sF t c', loadTempoF 1 track = .ok sF ∧
      (Clock.mk 1 sF (tickTableF sF 900000002)).tickToTimeF 900000002 = .ok (t, c') ∧
      ∀ k : Int, c'.timeToTickF t = .ok k → k ≠ 900000002 := by
  refine ⟨[⟨0, .setTempo 16777215⟩, ⟨900000000, .setTempo 1⟩], ⟨by decide, by decide, by decide⟩, ?_, ?_⟩
  · intro e he t ht
    simp only [List.mem_cons, List.not_mem_nil, or_false] at he
    rcases he with rfl | rfl <;> simp at ht <;> subst ht <;> norm_num
  · have hmap : Spec.TempoMap hugeScales := ⟨⟨_, _, rfl⟩, by decide +kernel, by decide +kernel⟩
    have hclock := clockOkF_table 1 hugeScales hmap 900000002
    obtain ⟨c', e1, e2, e3, _, e5, _⟩ := tickToTimeF_ok _ hclock 900000002 (by norm_num)
    refine ⟨hugeScales, _, c', by decide +kernel, e1, ?_⟩
    have same : secF hugeScales 0 900000002 = secF hugeScales 0 900000001 := by decide +kernel
    intro k hk
    obtain ⟨s1, s2, s3⟩ := searchsorted_list c'.times (times_sorted c' e2) (secF hugeScales 0 900000002)
    simp only at e3
    have hget : ∀ i (hi : i < c'.times.length), c'.times[i] = secF hugeScales 0 i := by
      intro i hi
      obtain ⟨_, M', _, ht⟩ := e2
      simp only [ht, List.getElem_map, List.getElem_range, e3]
    have hp : searchsortedLeft c'.times (secF hugeScales 0 900000002) ≤ 900000001 := by
      by_contra hc
      have := s2 900000001 (by omega) (by omega)
      rw [hget, same] at this
      exact absurd this (lt_irrefl _)
    unfold Clock.timeToTickF at hk
    simp only at hk
    rw [if_neg (by omega)] at hk
    split_ifs at hk
    · have := Except.ok.inj hk; omega
    · have := Except.ok.inj hk; omega

end NGC
