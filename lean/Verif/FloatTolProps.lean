import Verif.FloatTol
import Verif.HashOrderProps
import Verif.FloatGrid
import Verif.FeatureProps
import Mathlib.Data.List.GetD

/-!
C192: the automatic tolerance and the groups of notes, in floats.
-/

namespace NGC

open Spec

theorem b64_half (D : ℚ) (h : b64 D = D) : b64 (D / 2) = D / 2 := by
  have := b64_scale D (-1)
  rw [h] at this
  have e : D * 2 ^ (-1 : ℤ) = D / 2 := by rw [zpow_neg_one]; ring
  rw [e] at this
  exact this

theorem b64_one : b64 1 = 1 := by
  have := b64_int 1 (by norm_num)
  simpa using this

/-- The interpolation stays between its ends. -/
theorem lerpF_between (a b t : ℚ) (ha : b64 a = a) (hb : b64 b = b) (hab : a ≤ b) (ht0 : 0 ≤ t) (ht1 : t ≤ 1) :
    a ≤ lerpF a b t ∧ lerpF a b t ≤ b := by
  have hD0 : 0 ≤ b64 (b - a) := b64_nonneg (by linarith)
  have hDe := b64_err (b - a)
  rw [abs_of_nonneg (show (0 : ℚ) ≤ b - a by linarith)] at hDe
  have hD1 : b64 (b - a) / 2 ≤ b - a := by
    have := (abs_le.1 hDe).1
    have h2 : (b - a) / 2 ^ (53 : Nat) ≤ b - a := div_le_self (by linarith) (by norm_num)
    linarith
  have hhalf := b64_half (b64 (b - a)) (b64_idem _)
  -- a share of at most one half of the distance
  have part : ∀ r : ℚ, 0 ≤ r → r ≤ 1/2 → 0 ≤ b64 (b64 (b - a) * r) ∧ b64 (b64 (b - a) * r) ≤ b - a := by
    intro r h0 h1
    refine ⟨b64_nonneg (mul_nonneg hD0 h0), ?_⟩
    have : b64 (b64 (b - a) * r) ≤ b64 (b64 (b - a) / 2) := b64_mono (by
      have := mul_le_mul_of_nonneg_left h1 hD0
      linarith)
    rw [hhalf] at this
    linarith
  unfold lerpF
  split_ifs with hlt
  · obtain ⟨p0, p1⟩ := part t ht0 hlt.le
    constructor
    · calc a = b64 a := ha.symm
        _ ≤ _ := b64_mono (by linarith)
    · calc b64 (a + b64 (b64 (b - a) * t)) ≤ b64 b := b64_mono (by linarith)
        _ = b := hb
  · have h1 : 0 ≤ b64 (1 - t) := b64_nonneg (by linarith)
    have h2 : b64 (1 - t) ≤ 1/2 := by
      have hh := b64_half 1 b64_one
      calc b64 (1 - t) ≤ b64 (1/2) := b64_mono (by linarith [not_lt.1 hlt])
        _ = 1/2 := hh
    obtain ⟨p0, p1⟩ := part _ h1 h2
    constructor
    · calc a = b64 a := ha.symm
        _ ≤ _ := b64_mono (by linarith)
    · calc b64 (b - b64 (b64 (b - a) * b64 (1 - t))) ≤ b64 b := b64_mono (by linarith)
        _ = b := hb

/-- The entries used by `percentileF` and the fraction. -/
theorem percentileF_cases (l : List ℚ) (hl : l ≠ []) (q : ℚ) (h0 : 0 ≤ q) (h1 : q ≤ 100) :
    ∃ i j : Nat, ∃ t : ℚ, i < l.length ∧ j < l.length ∧ i ≤ j ∧ 0 ≤ t ∧ t ≤ 1 ∧
      percentileF l q = lerpF ((sortByKey id l).getD i 0) ((sortByKey id l).getD j 0) t := by
  have hlen : 0 < l.length := List.length_pos_iff.2 hl
  unfold percentileF
  dsimp only
  have hp0 : (0 : ℚ) ≤ b64 (((l.length - 1 : Nat) : ℚ) * b64 (q / 100)) :=
    b64_nonneg (mul_nonneg (by positivity) (b64_nonneg (by positivity)))
  generalize b64 (((l.length - 1 : Nat) : ℚ) * b64 (q / 100)) = pos at hp0 ⊢
  split_ifs with h
  · exact ⟨l.length - 1, l.length - 1, 0, by omega, by omega, le_refl _, le_refl _, by norm_num, rfl⟩
  · have hf : ((⌊pos⌋.toNat : Nat) : ℤ) = ⌊pos⌋ := Int.toNat_of_nonneg (Int.floor_nonneg.2 hp0)
    have hfq : ((⌊pos⌋.toNat : Nat) : ℚ) = (⌊pos⌋ : ℚ) := by exact_mod_cast congrArg (fun z : ℤ => (z : ℚ)) hf
    have hle := Int.floor_le pos
    have hlt := Int.lt_floor_add_one pos
    have hi : ⌊pos⌋.toNat < l.length - 1 := by
      have : ((⌊pos⌋.toNat : Nat) : ℚ) < ((l.length - 1 : Nat) : ℚ) := by rw [hfq]; linarith [not_le.1 h]
      exact_mod_cast this
    refine ⟨⌊pos⌋.toNat, ⌊pos⌋.toNat + 1, _, by omega, by omega, by omega, ?_, ?_, rfl⟩
    · rw [hfq]; exact b64_nonneg (by linarith)
    · rw [hfq]
      calc b64 (pos - ⌊pos⌋) ≤ b64 1 := b64_mono (by linarith)
        _ = 1 := b64_one

theorem sorted_getD_le (l : List ℚ) (i j : Nat) (hij : i ≤ j) (hj : j < l.length) :
    (sortByKey id l).getD i 0 ≤ (sortByKey id l).getD j 0 := by
  have hlen : (sortByKey id l).length = l.length := (sortByKey_perm id l).length_eq
  have hs := sortByKey_sorted id l
  rw [List.getD_eq_getElem _ _ (by omega), List.getD_eq_getElem _ _ (by omega)]
  rcases Nat.lt_or_ge i j with h | h
  · exact List.pairwise_iff_getElem.1 hs i j (by omega) (by omega) h
  · have : i = j := by omega
    subst this; exact le_refl _

theorem sorted_getD_mem (l : List ℚ) (i : Nat) (hi : i < l.length) : (sortByKey id l).getD i 0 ∈ l := by
  have hlen : (sortByKey id l).length = l.length := (sortByKey_perm id l).length_eq
  rw [List.getD_eq_getElem _ _ (by omega)]
  exact (sortByKey_perm id l).mem_iff.1 (List.getElem_mem _)

/-- A percentile of floats is between two of them. -/
theorem percentileF_between (l : List ℚ) (hl : l ≠ []) (hfl : ∀ x ∈ l, b64 x = x) (q : ℚ) (h0 : 0 ≤ q) (h1 : q ≤ 100) :
    (∃ x ∈ l, x ≤ percentileF l q) ∧ ∃ x ∈ l, percentileF l q ≤ x := by
  obtain ⟨i, j, t, hi, hj, hij, ht0, ht1, he⟩ := percentileF_cases l hl q h0 h1
  rw [he]
  have := lerpF_between _ _ t (hfl _ (sorted_getD_mem l i hi)) (hfl _ (sorted_getD_mem l j hj)) (sorted_getD_le l i j hij hj) ht0 ht1
  exact ⟨⟨_, sorted_getD_mem l i hi, this.1⟩, _, sorted_getD_mem l j hj, this.2⟩

theorem diffsF_eq (l : List ℚ) : diffsF l = (diffs l).map b64 := by
  induction l with
  | nil => rfl
  | cons a l ih =>
    cases l with
    | nil => rfl
    | cons b l => rw [diffsF, diffs, List.map_cons, ih]

theorem timeDifferencesF_eq (s : MSeq) : timeDifferencesF s = (timeDifferences s).map b64 := by
  unfold timeDifferencesF timeDifferences
  exact diffsF_eq _

theorem diffs_sorted_nonneg : ∀ l : List ℚ, l.Pairwise (· ≤ ·) → ∀ x ∈ diffs l, 0 ≤ x := by
  intro l
  induction l with
  | nil => intro _ x h; cases h
  | cons a l ih =>
    intro h x hx
    cases l with
    | nil => cases hx
    | cons b l =>
      rw [diffs] at hx
      rw [List.pairwise_cons] at h
      rcases List.mem_cons.1 hx with rfl | hx
      · linarith [h.1 b (by simp)]
      · exact ih h.2 x hx

theorem timeDifferences_nonneg (s : MSeq) : ∀ x ∈ timeDifferences s, 0 ≤ x := by
  unfold timeDifferences
  exact diffs_sorted_nonneg _ (sortByKey_sorted id _)

/-- **C192.** The automatic tolerance in floats: 0 for a drum track or one of at most two notes; otherwise it is never smaller than the
smallest and never larger than the largest distance of consecutive start times, as floats; so it is never negative. -/
theorem C192_between (s : MSeq) (q : ℚ) (h0 : 0 ≤ q) (h1 : q ≤ 100) :
    0 ≤ computeToleranceF s q ∧
    ((s.notes.length ≤ 2 ∨ s.instr.isDrum = true) → computeToleranceF s q = 0) ∧
    (3 ≤ s.notes.length → s.instr.isDrum = false → ∀ lo hi : ℚ,
      (∀ x ∈ timeDifferences s, lo ≤ b64 x ∧ b64 x ≤ hi) → lo ≤ computeToleranceF s q ∧ computeToleranceF s q ≤ hi) := by
  have hlen : (timeDifferencesF s).length = (timeDifferences s).length := by rw [timeDifferencesF_eq, List.length_map]
  have hfl : ∀ x ∈ timeDifferencesF s, b64 x = x := by
    intro x hx
    rw [timeDifferencesF_eq] at hx
    obtain ⟨y, _, rfl⟩ := List.mem_map.1 hx
    exact b64_idem y
  have hnn : ∀ x ∈ timeDifferencesF s, 0 ≤ x := by
    intro x hx
    rw [timeDifferencesF_eq] at hx
    obtain ⟨y, hy, rfl⟩ := List.mem_map.1 hx
    exact b64_nonneg (timeDifferences_nonneg s y hy)
  have key : ∀ lo hi : ℚ, (∀ x ∈ timeDifferencesF s, lo ≤ x ∧ x ≤ hi) → 2 ≤ (timeDifferencesF s).length →
      lo ≤ computeToleranceF s q ∧ computeToleranceF s q ≤ hi := by
    intro lo hi hx hl
    unfold computeToleranceF
    dsimp only
    rw [if_neg (by omega)]
    obtain ⟨⟨x, hx1, hx2⟩, y, hy1, hy2⟩ := percentileF_between (timeDifferencesF s) (by intro h; rw [h] at hl; simp at hl) hfl q h0 h1
    exact ⟨(hx x hx1).1.trans hx2, hy2.trans (hx y hy1).2⟩
  have few : (timeDifferencesF s).length < 2 → computeToleranceF s q = 0 := by
    intro h; unfold computeToleranceF; dsimp only; rw [if_pos h]
  have hcount : (timeDifferences s).length = (if s.instr.isDrum then 0 else s.notes.length) - 1 := by
    have hd : ∀ l : List ℚ, (diffs l).length = l.length - 1 := by
      intro l
      induction l with
      | nil => rfl
      | cons a l ih =>
        cases l with
        | nil => rfl
        | cons b l => rw [diffs, List.length_cons, ih]; simp
    unfold timeDifferences
    rw [hd, (sortByKey_perm id _).length_eq, List.length_map]
    congr 1
    cases hdr : s.instr.isDrum with
    | true => simp
    | false =>
      rw [List.filter_eq_self.2]
      · simp
      · intro n hn
        have : 0 < s.notes.length := List.length_pos_of_mem hn
        simp [this]
  refine ⟨?_, ?_, ?_⟩
  · by_cases h : (timeDifferencesF s).length < 2
    · rw [few h]
    · obtain ⟨⟨x, hx1, hx2⟩, _⟩ := percentileF_between (timeDifferencesF s) (by intro e; rw [e] at h; simp at h) hfl q h0 h1
      unfold computeToleranceF
      dsimp only
      rw [if_neg h]
      exact (hnn x hx1).trans hx2
  · intro h
    apply few
    rw [hlen, hcount]
    rcases h with h | h
    · split_ifs <;> omega
    · rw [if_pos h]; omega
  · intro h3 hd lo hi hx
    refine key lo hi ?_ ?_
    · intro x hx'
      rw [timeDifferencesF_eq] at hx'
      obtain ⟨y, hy, rfl⟩ := List.mem_map.1 hx'
      exact hx y hy
    · rw [hlen, hcount, hd]; simp; omega

/-- **C192, evenly spaced notes.** If all distances of consecutive start times give the same float, the tolerance is exactly that float,
whatever the percentile. -/
theorem C192_even (s : MSeq) (q : ℚ) (h0 : 0 ≤ q) (h1 : q ≤ 100) (h3 : 3 ≤ s.notes.length) (hd : s.instr.isDrum = false) (g : ℚ)
    (hg : ∀ x ∈ timeDifferences s, b64 x = g) : computeToleranceF s q = g := by
  obtain ⟨_, _, h⟩ := C192_between s q h0 h1
  obtain ⟨a, b⟩ := h h3 hd g g (fun x hx => by rw [hg x hx]; exact ⟨le_refl _, le_refl _⟩)
  exact le_antisymm b a

/-- Linear interpolation between the entries of a list. -/
def pctInterp (s : List ℚ) (p : ℚ) : ℚ :=
  s.getD ⌊p⌋.toNat 0 + (s.getD (⌊p⌋.toNat + 1) (s.getD ⌊p⌋.toNat 0) - s.getD ⌊p⌋.toNat 0) * (p - ⌊p⌋.toNat)

theorem percentile_pct (l : List ℚ) (q : ℚ) : percentile l q = pctInterp (sortByKey id l) (q / 100 * ((l.length : ℚ) - 1)) := rfl

theorem pctAt (s : List ℚ) (p : ℚ) (i : Nat) (hi : ⌊p⌋ = i) :
    pctInterp s p = s.getD i 0 + (s.getD (i + 1) (s.getD i 0) - s.getD i 0) * (p - i) := by
  unfold pctInterp
  rw [hi, Int.toNat_natCast]

theorem floorSplit (p : ℚ) (h : 0 ≤ p) : ∃ i : Nat, ⌊p⌋ = (i : ℤ) ∧ (i : ℚ) ≤ p ∧ p < i + 1 := by
  refine ⟨⌊p⌋.toNat, (Int.toNat_of_nonneg (Int.floor_nonneg.2 h)).symm, ?_, ?_⟩
  · have := Int.floor_le p
    have e : ((⌊p⌋.toNat : Nat) : ℚ) = (⌊p⌋ : ℚ) := by
      exact_mod_cast congrArg (fun z : ℤ => (z : ℚ)) (Int.toNat_of_nonneg (Int.floor_nonneg.2 h))
    rw [e]; exact this
  · have := Int.lt_floor_add_one p
    have e : ((⌊p⌋.toNat : Nat) : ℚ) = (⌊p⌋ : ℚ) := by
      exact_mod_cast congrArg (fun z : ℤ => (z : ℚ)) (Int.toNat_of_nonneg (Int.floor_nonneg.2 h))
    rw [e]; exact this

/-- The interpolation of a sorted list with entries between 0 and `M` moves by at most `M` per position. -/
theorem pctLip (s : List ℚ) (M : ℚ) (hs : ∀ i j : Nat, i ≤ j → j < s.length → s.getD i 0 ≤ s.getD j 0)
    (hb : ∀ i : Nat, i < s.length → 0 ≤ s.getD i 0 ∧ s.getD i 0 ≤ M) (p r : ℚ) (h0 : 0 ≤ p) (h : p ≤ r) (hr : r ≤ (s.length : ℚ) - 1) :
    |pctInterp s r - pctInterp s p| ≤ M * (r - p) := by
  obtain ⟨i, hi, hi1, hi2⟩ := floorSplit p h0
  obtain ⟨j, hj, hj1, hj2⟩ := floorSplit r (h0.trans h)
  have hij : i ≤ j := by
    have : ⌊p⌋ ≤ ⌊r⌋ := Int.floor_le_floor h
    rw [hi, hj] at this
    exact_mod_cast this
  have hjn : j < s.length := by
    have : (j : ℚ) < s.length := by linarith
    exact_mod_cast this
  have gap : ∀ k : Nat, k < s.length → s.getD k 0 ≤ s.getD (k + 1) (s.getD k 0) ∧ s.getD (k + 1) (s.getD k 0) - s.getD k 0 ≤ M := by
    intro k hk
    by_cases hk1 : k + 1 < s.length
    · have e : s.getD (k + 1) (s.getD k 0) = s.getD (k + 1) 0 := by
        rw [List.getD_eq_getElem _ _ hk1, List.getD_eq_getElem _ _ hk1]
      rw [e]
      exact ⟨hs k (k + 1) (by omega) hk1, by linarith [(hb k hk).1, (hb (k + 1) hk1).2]⟩
    · have e : s.getD (k + 1) (s.getD k 0) = s.getD k 0 := List.getD_eq_default _ _ (by omega)
      rw [e]
      exact ⟨le_refl _, by linarith [(hb k hk).1, (hb k hk).2]⟩
  have hM : 0 ≤ M := (hb j hjn).1.trans (hb j hjn).2
  rw [pctAt s p i hi, pctAt s r j hj]
  obtain ⟨gi1, gi2⟩ := gap i (by omega)
  obtain ⟨gj1, gj2⟩ := gap j hjn
  rcases Nat.lt_or_ge i j with hlt | hge
  · have e : s.getD (i + 1) (s.getD i 0) = s.getD (i + 1) 0 := by
      rw [List.getD_eq_getElem _ _ (by omega), List.getD_eq_getElem _ _ (by omega)]
    rw [e] at gi1 gi2 ⊢
    have hmid := hs (i + 1) j (by omega) hjn
    have hmid2 : s.getD j 0 - s.getD (i + 1) 0 ≤ M * (j - (i + 1)) := by
      rcases Nat.lt_or_ge (i + 1) j with h2 | h2
      · have : (1 : ℚ) ≤ j - (i + 1) := by
          have : ((i + 1 + 1 : Nat) : ℚ) ≤ j := by exact_mod_cast h2
          push_cast at this; linarith
        have h3 := mul_le_mul_of_nonneg_left this hM
        have := (hb (i + 1) (by omega)).1
        have := (hb j hjn).2
        linarith
      · have : i + 1 = j := by omega
        subst this; push_cast; simp
    have x1 : 0 ≤ (s.getD (j + 1) (s.getD j 0) - s.getD j 0) * (r - j) := mul_nonneg (by linarith) (by linarith)
    have x2 : (s.getD (j + 1) (s.getD j 0) - s.getD j 0) * (r - j) ≤ M * (r - j) := mul_le_mul_of_nonneg_right gj2 (by linarith)
    have y1 : 0 ≤ (s.getD (i + 1) 0 - s.getD i 0) * (i + 1 - p) := mul_nonneg (by linarith) (by linarith)
    have y2 : (s.getD (i + 1) 0 - s.getD i 0) * (i + 1 - p) ≤ M * (i + 1 - p) := mul_le_mul_of_nonneg_right gi2 (by linarith)
    rw [abs_le]
    constructor <;> nlinarith
  · have : i = j := by omega
    subst this
    have x1 : 0 ≤ (s.getD (i + 1) (s.getD i 0) - s.getD i 0) * (r - p) := mul_nonneg (by linarith) (by linarith)
    have x2 : (s.getD (i + 1) (s.getD i 0) - s.getD i 0) * (r - p) ≤ M * (r - p) := mul_le_mul_of_nonneg_right gj2 (by linarith)
    have x3 : 0 ≤ M * (r - p) := mul_nonneg hM (by linarith)
    rw [abs_le]
    constructor <;> nlinarith

/-- Sorting commutes with rounding. -/
theorem sort_b64 (l : List ℚ) : sortByKey id (l.map b64) = (sortByKey id l).map b64 := by
  have h1 : (sortByKey id (l.map b64)).Perm ((sortByKey id l).map b64) :=
    (sortByKey_perm id _).trans ((sortByKey_perm id l).symm.map b64)
  have s1 : (sortByKey id (l.map b64)).Pairwise (· ≤ ·) := sortByKey_sorted id _
  have s2 : ((sortByKey id l).map b64).Pairwise (· ≤ ·) := by
    rw [List.pairwise_map]
    exact (sortByKey_sorted id l).imp (fun h => b64_mono h)
  exact h1.eq_of_pairwise (fun a b _ _ x y => le_antisymm x y) s1 s2

/-- The rounding error of the interpolation. -/
theorem lerpF_err (a b t M : ℚ) (hb : b64 b = b) (ha0 : 0 ≤ a) (hab : a ≤ b) (hbM : b ≤ M) (ht0 : 0 ≤ t) (ht1 : t ≤ 1) :
    |lerpF a b t - (a + (b - a) * t)| ≤ 4 * M / 2 ^ (53 : Nat) := by
  have hD0 : 0 ≤ b64 (b - a) := b64_nonneg (by linarith)
  have hDM : b64 (b - a) ≤ M := by
    calc b64 (b - a) ≤ b64 b := b64_mono (by linarith)
      _ = b := hb
      _ ≤ M := hbM
  have hDe := b64_err (b - a)
  rw [abs_of_nonneg (show (0 : ℚ) ≤ b - a by linarith)] at hDe
  unfold lerpF
  have hDi := b64_idem (b - a)
  generalize b64 (b - a) = D at hD0 hDM hDe hDi ⊢
  have hM : 0 ≤ M := hD0.trans hDM
  have eM : (b - a) / 2 ^ (53 : Nat) ≤ M / 2 ^ (53 : Nat) := by gcongr; linarith
  have hDe' : |(b - a) - D| ≤ M / 2 ^ (53 : Nat) := hDe.trans eM
  split_ifs with hlt
  · have p0 : 0 ≤ D * t := mul_nonneg hD0 ht0
    have p1 : D * t ≤ M := by
      have := mul_le_mul_of_nonneg_left ht1 hD0
      linarith
    have e2 := b64_err (D * t)
    rw [abs_of_nonneg p0] at e2
    have p2 : 0 ≤ b64 (D * t) := b64_nonneg p0
    have p3 : b64 (D * t) ≤ D := by
      have h := b64_mono (show D * t ≤ D by nlinarith)
      rwa [hDi] at h
    generalize b64 (D * t) = w at e2 p2 p3 ⊢
    have e3 := b64_err (a + w)
    rw [abs_of_nonneg (show 0 ≤ a + w by linarith)] at e3
    have x : |(b - a) * t - D * t| ≤ M / 2 ^ (53 : Nat) := by
      rw [← sub_mul, abs_mul, abs_of_nonneg ht0]
      calc |b - a - D| * t ≤ |b - a - D| * 1 := by gcongr
        _ ≤ _ := by rw [mul_one]; exact hDe'
    generalize D * t = y at e2 x p1
    generalize (b - a) * t = z at x ⊢
    generalize b64 (a + w) = v at e3 ⊢
    rw [abs_le] at e2 e3 x ⊢
    constructor <;> linarith
  · have r0 : 0 ≤ 1 - t := by linarith
    have e1 := b64_err (1 - t)
    rw [abs_of_nonneg r0] at e1
    have q0 : 0 ≤ b64 (1 - t) := b64_nonneg r0
    have q1 : b64 (1 - t) ≤ 1 := by
      have h := b64_mono (show 1 - t ≤ 1 by linarith)
      rwa [b64_one] at h
    generalize b64 (1 - t) = r at e1 q0 q1 ⊢
    have p0 : 0 ≤ D * r := mul_nonneg hD0 q0
    have p1 : D * r ≤ M := by
      have := mul_le_mul_of_nonneg_left q1 hD0
      linarith
    have e2 := b64_err (D * r)
    rw [abs_of_nonneg p0] at e2
    have p2 : 0 ≤ b64 (D * r) := b64_nonneg p0
    have p3 : b64 (D * r) ≤ M := by
      have h := b64_mono (show D * r ≤ D by nlinarith)
      rw [hDi] at h; linarith
    generalize b64 (D * r) = w at e2 p2 p3 ⊢
    have e3 := b64_err (b - w)
    have e3' : |b - w - b64 (b - w)| ≤ M / 2 ^ (53 : Nat) := by
      refine e3.trans ?_
      gcongr
      rw [abs_le]; constructor <;> linarith
    have x : |(b - a) * (1 - t) - D * (1 - t)| ≤ M / 2 ^ (53 : Nat) := by
      rw [← sub_mul, abs_mul, abs_of_nonneg r0]
      calc |b - a - D| * (1 - t) ≤ |b - a - D| * 1 := by gcongr; linarith
        _ ≤ _ := by rw [mul_one]; exact hDe'
    have x2 : |D * (1 - t) - D * r| ≤ M / 2 ^ (53 : Nat) := by
      rw [← mul_sub, abs_mul, abs_of_nonneg hD0]
      have : |1 - t - r| ≤ 1 / 2 ^ (53 : Nat) := e1.trans (by gcongr; linarith)
      calc D * |1 - t - r| ≤ M * (1 / 2 ^ (53 : Nat)) := mul_le_mul hDM this (abs_nonneg _) hM
        _ = _ := by ring
    have ez : a + (b - a) * t = b - (b - a) * (1 - t) := by ring
    rw [ez]
    generalize D * (1 - t) = u at x x2
    generalize D * r = y at e2 x2 p1
    generalize (b - a) * (1 - t) = z at x ⊢
    generalize b64 (b - w) = v at e3' ⊢
    rw [abs_le] at e2 e3' x x2 ⊢
    constructor <;> linarith

/-- The percentile in floats of rounded entries, against the exact percentile of the entries. -/
theorem percentileF_near (l : List ℚ) (M : ℚ) (hb : ∀ x ∈ l, 0 ≤ x ∧ x ≤ M) (q : ℚ) (h0 : 0 ≤ q) (h1 : q ≤ 100) (hl : 2 ≤ l.length) :
    |percentileF (l.map b64) q - percentile l q| ≤ M * l.length / 2 ^ (50 : Nat) := by
  have hlen : (sortByKey id l).length = l.length := (sortByKey_perm id l).length_eq
  have hs : ∀ i j : Nat, i ≤ j → j < (sortByKey id l).length → (sortByKey id l).getD i 0 ≤ (sortByKey id l).getD j 0 :=
    fun i j hij hj => sorted_getD_le l i j hij (hlen ▸ hj)
  have hb' : ∀ i : Nat, i < (sortByKey id l).length → 0 ≤ (sortByKey id l).getD i 0 ∧ (sortByKey id l).getD i 0 ≤ M :=
    fun i hi => hb _ (sorted_getD_mem l i (hlen ▸ hi))
  have hM : 0 ≤ M := (hb' 0 (by omega)).1.trans (hb' 0 (by omega)).2
  have hn2 : (2 : ℚ) ≤ l.length := by exact_mod_cast hl
  have hn1 : ((l.length - 1 : Nat) : ℚ) = (l.length : ℚ) - 1 := by rw [Nat.cast_sub (by omega)]; simp
  rw [percentile_pct]
  unfold percentileF
  dsimp only
  rw [List.length_map, sort_b64, hn1]
  -- the position
  have hu0 : 0 ≤ q / 100 := by positivity
  have eu := b64_err (q / 100)
  rw [abs_of_nonneg hu0] at eu
  have hu1 : b64 (q / 100) ≤ 1 := by
    have h := b64_mono (show q / 100 ≤ 1 by linarith)
    rwa [b64_one] at h
  have hu0' : 0 ≤ b64 (q / 100) := b64_nonneg hu0
  have hposerr : |b64 (((l.length : ℚ) - 1) * b64 (q / 100)) - q / 100 * ((l.length : ℚ) - 1)| ≤ 2 * ((l.length : ℚ) - 1) / 2 ^ (53 : Nat) := by
    generalize b64 (q / 100) = u at eu hu1 hu0' ⊢
    have ev := b64_err (((l.length : ℚ) - 1) * u)
    have hv0 : 0 ≤ ((l.length : ℚ) - 1) * u := mul_nonneg (by linarith) hu0'
    rw [abs_of_nonneg hv0] at ev
    have hv1 : ((l.length : ℚ) - 1) * u ≤ (l.length : ℚ) - 1 := by nlinarith
    have x : |q / 100 * ((l.length : ℚ) - 1) - ((l.length : ℚ) - 1) * u| ≤ ((l.length : ℚ) - 1) / 2 ^ (53 : Nat) := by
      have : q / 100 * ((l.length : ℚ) - 1) - ((l.length : ℚ) - 1) * u = (q / 100 - u) * ((l.length : ℚ) - 1) := by ring
      rw [this, abs_mul, abs_of_nonneg (show (0 : ℚ) ≤ (l.length : ℚ) - 1 by linarith)]
      calc |q / 100 - u| * ((l.length : ℚ) - 1) ≤ 1 / 2 ^ (53 : Nat) * ((l.length : ℚ) - 1) := by
            gcongr
            · linarith
            · exact eu.trans (by gcongr; linarith)
        _ = _ := by ring
    generalize q / 100 * ((l.length : ℚ) - 1) = a at x ⊢
    generalize ((l.length : ℚ) - 1) * u = b at x ev hv0 hv1 ⊢
    rw [abs_le] at x ev ⊢
    constructor <;> linarith
  have hp0 : (0 : ℚ) ≤ b64 (((l.length : ℚ) - 1) * b64 (q / 100)) := b64_nonneg (mul_nonneg (by linarith) hu0')
  have ha0 : 0 ≤ q / 100 * ((l.length : ℚ) - 1) := mul_nonneg hu0 (by linarith)
  have ha1 : q / 100 * ((l.length : ℚ) - 1) ≤ (l.length : ℚ) - 1 := by nlinarith
  generalize q / 100 * ((l.length : ℚ) - 1) = p at hposerr ha0 ha1 ⊢
  generalize b64 (((l.length : ℚ) - 1) * b64 (q / 100)) = pos at hposerr hp0 ⊢
  have hsl : ((sortByKey id l).length : ℚ) = l.length := by rw [hlen]
  have lip : ∀ r : ℚ, 0 ≤ r → r ≤ (l.length : ℚ) - 1 →
      |pctInterp (sortByKey id l) r - pctInterp (sortByKey id l) p| ≤ M * |r - p| := by
    intro r hr0 hr1
    rcases le_total p r with h | h
    · rw [abs_of_nonneg (show 0 ≤ r - p by linarith)]
      exact pctLip _ M hs hb' p r ha0 h (by rw [hsl]; exact hr1)
    · rw [abs_sub_comm, abs_sub_comm r p, abs_of_nonneg (show 0 ≤ p - r by linarith)]
      exact pctLip _ M hs hb' r p hr0 h (by rw [hsl]; exact ha1)
  have getb : ∀ i : Nat, ((sortByKey id l).map b64).getD i 0 = b64 ((sortByKey id l).getD i 0) := by
    intro i
    have := List.getD_map (l := sortByKey id l) (d := (0 : ℚ)) (n := i) b64
    rw [b64_zero] at this
    exact this
  have twice : ∀ x : ℚ, 0 ≤ x → x ≤ M → b64 x ≤ 2 * M := by
    intro x hx hxM
    have := b64_err x
    rw [abs_of_nonneg hx] at this
    have h2 : x / 2 ^ (53 : Nat) ≤ x := div_le_self hx (by norm_num)
    have := (abs_le.1 this).1
    linarith
  have near : ∀ x : ℚ, 0 ≤ x → x ≤ M → |x - b64 x| ≤ M / 2 ^ (53 : Nat) := by
    intro x hx hxM
    have := b64_err x
    rw [abs_of_nonneg hx] at this
    exact this.trans (by gcongr)
  have hfin : ∀ c : ℚ, M * (2 * ((l.length : ℚ) - 1) / 2 ^ (53 : Nat)) + 11 * M / 2 ^ (53 : Nat) ≤ M * l.length / 2 ^ (50 : Nat) := by
    intro _
    have e : M * l.length / 2 ^ (50 : Nat) = 8 * (M * l.length) / 2 ^ (53 : Nat) := by
      rw [show (2 : ℚ) ^ (53 : Nat) = 8 * 2 ^ (50 : Nat) by norm_num]; field_simp
    rw [e, ← mul_div_assoc, ← add_div]
    gcongr
    nlinarith
  refine le_trans ?_ (hfin 0)
  split_ifs with hge
  · -- the last entry
    have hd := lip ((l.length : ℚ) - 1) (by linarith) (le_refl _)
    have hpp : |(l.length : ℚ) - 1 - p| ≤ 2 * ((l.length : ℚ) - 1) / 2 ^ (53 : Nat) := by
      refine le_trans ?_ hposerr
      rw [abs_of_nonneg (by linarith), abs_of_nonneg (by linarith)]; linarith
    have hd2 := hd.trans (mul_le_mul_of_nonneg_left hpp hM)
    have hfl : ⌊((l.length : ℚ) - 1)⌋ = ((l.length - 1 : Nat) : ℤ) := by
      rw [← hn1]; exact Int.floor_natCast _
    have hint : pctInterp (sortByKey id l) ((l.length : ℚ) - 1) = (sortByKey id l).getD (l.length - 1) 0 := by
      rw [pctAt _ _ _ hfl, List.getD_eq_default (n := l.length - 1 + 1) _ _ (by omega)]; ring
    rw [hint] at hd2
    rw [getb]
    obtain ⟨g0, g1⟩ := hb' (l.length - 1) (by omega)
    have hL := lerpF_err _ _ 0 (2 * M) (b64_idem ((sortByKey id l).getD (l.length - 1) 0)) (b64_nonneg g0) (le_refl _) (twice _ g0 g1)
      (le_refl _) (by norm_num)
    have hN := near _ g0 g1
    generalize M * (2 * ((l.length : ℚ) - 1) / 2 ^ (53 : Nat)) = E at hd2 ⊢
    rw [mul_zero, add_zero] at hL
    have hM' : 0 ≤ M / 2 ^ (53 : Nat) := by positivity
    rw [abs_le] at hL hN hd2 ⊢
    constructor <;> linarith
  · obtain ⟨i, hi, hi1, hi2⟩ := floorSplit pos hp0
    have hin : i + 1 < l.length := by
      have : ((i : ℚ)) < ((l.length - 1 : Nat) : ℚ) := by rw [hn1]; linarith
      have : i < l.length - 1 := by exact_mod_cast this
      omega
    have hd := (lip pos hp0 (not_le.1 hge).le).trans (mul_le_mul_of_nonneg_left hposerr hM)
    have e : (sortByKey id l).getD (i + 1) ((sortByKey id l).getD i 0) = (sortByKey id l).getD (i + 1) 0 := by
      rw [List.getD_eq_getElem _ _ (by omega), List.getD_eq_getElem _ _ (by omega)]
    rw [pctAt _ pos i hi, e] at hd
    rw [hi, Int.toNat_natCast, getb, getb]
    obtain ⟨g0, g1⟩ := hb' i (by omega)
    obtain ⟨k0, k1⟩ := hb' (i + 1) (by omega)
    have hgk := hs i (i + 1) (by omega) (by omega)
    have hf0 : 0 ≤ pos - i := by linarith
    have hf1 : pos - i ≤ 1 := by linarith
    have ht0 : 0 ≤ b64 (pos - i) := b64_nonneg hf0
    have ht1 : b64 (pos - i) ≤ 1 := by
      have h := b64_mono hf1
      rwa [b64_one] at h
    have hL := lerpF_err _ _ (b64 (pos - i)) (2 * M) (b64_idem ((sortByKey id l).getD (i + 1) 0)) (b64_nonneg g0) (b64_mono hgk)
      (twice _ k0 k1) ht0 ht1
    have hft : |(pos - i) - b64 (pos - i)| ≤ 1 / 2 ^ (53 : Nat) := by
      have := b64_err (pos - i)
      rw [abs_of_nonneg hf0] at this
      exact this.trans (by gcongr)
    have n1 := near _ g0 g1
    have n2 := near _ k0 k1
    have tw := twice _ k0 k1
    have bm := b64_mono hgk
    have bn := b64_nonneg g0
    generalize (sortByKey id l).getD i 0 = a at *
    generalize (sortByKey id l).getD (i + 1) 0 = b at *
    generalize b64 a = a' at *
    generalize b64 b = b' at *
    generalize lerpF a' b' (b64 (pos - i)) = R at *
    generalize b64 (pos - i) = t at *
    generalize M * (2 * ((l.length : ℚ) - 1) / 2 ^ (53 : Nat)) = E at hd ⊢
    generalize pctInterp (sortByKey id l) p = P at hd ⊢
    -- the fraction
    have x1 : |(b' - a') * (pos - i) - (b' - a') * t| ≤ 2 * M / 2 ^ (53 : Nat) := by
      rw [← mul_sub, abs_mul, abs_of_nonneg (by linarith)]
      calc (b' - a') * |pos - i - t| ≤ (2 * M) * (1 / 2 ^ (53 : Nat)) :=
            mul_le_mul (by linarith) hft (abs_nonneg _) (by linarith)
        _ = _ := by ring
    -- the ends
    have x2 : |(a' + (b' - a') * (pos - i)) - (a + (b - a) * (pos - i))| ≤ M / 2 ^ (53 : Nat) := by
      have e2 : (a' + (b' - a') * (pos - i)) - (a + (b - a) * (pos - i)) = (a' - a) * (1 - (pos - i)) + (b' - b) * (pos - i) := by ring
      rw [e2]
      refine (abs_add_le _ _).trans ?_
      rw [abs_mul, abs_mul, abs_of_nonneg hf0, abs_of_nonneg (show 0 ≤ 1 - (pos - i) by linarith), abs_sub_comm a' a, abs_sub_comm b' b]
      have m1 := mul_le_mul_of_nonneg_right n1 (show 0 ≤ 1 - (pos - i) by linarith)
      have m2 := mul_le_mul_of_nonneg_right n2 hf0
      linarith
    generalize (b' - a') * (pos - i) = y at x1 x2
    generalize (b' - a') * t = z at x1 hL
    generalize (b - a) * (pos - i) = w at x2 hd
    rw [abs_le] at hL x1 x2 hd ⊢
    constructor <;> linarith

/-- **C192, close to the exact percentile.** If no two consecutive start times are further apart than `M`, the float tolerance differs from
the exact percentile of the distances by at most `M` times the number of distances over 2^50. -/
theorem C192_close (s : MSeq) (q : ℚ) (h0 : 0 ≤ q) (h1 : q ≤ 100) (M : ℚ) (hM : ∀ x ∈ timeDifferences s, x ≤ M) :
    |computeToleranceF s q - computeTolerance s q| ≤ M * (timeDifferences s).length / 2 ^ (50 : Nat) := by
  have hlen : (timeDifferencesF s).length = (timeDifferences s).length := by rw [timeDifferencesF_eq, List.length_map]
  unfold computeToleranceF computeTolerance
  dsimp only
  rw [hlen]
  split_ifs with h
  · rw [sub_zero, abs_zero]
    rcases hd : timeDifferences s with _ | ⟨a, l⟩
    · simp
    · have ha := hM a (by rw [hd]; simp)
      have := timeDifferences_nonneg s a (by rw [hd]; simp)
      exact div_nonneg (mul_nonneg (by linarith) (by positivity)) (by positivity)
  · rw [timeDifferencesF_eq]
    exact percentileF_near _ M (fun x hx => ⟨timeDifferences_nonneg s x hx, hM x hx⟩) q h0 h1 (by omega)

/-- **C192, no false alarm.** With floats too, `compute_data` raises exactly when a melodic audible note starts before time 0; the second
assertion never fails. -/
theorem C192_raises (s : MSeq) : raises (computeDataAutoF s) ↔ ∃ n ∈ s.notes, sounding n = true ∧ n.start < 0 := by
  unfold computeDataAutoF
  rw [computeDataF_eq _ ((C192_between s 95 (by norm_num) (by norm_num)).1)]
  exact C45_raises _ s 0 false false

/-- The place of a note in hundredths misses its start by at most half the tolerance, half a hundredth and rounding. -/
theorem centi_near (tol t : ℚ) (htol : 0 < tol) (ht : 0 ≤ t) :
    |(centi tol t : ℚ) / 100 - t| ≤ tol / 2 + 1/200 + (t + tol) / 2 ^ (50 : Nat) := by
  unfold centi
  have hq0 : 0 ≤ t / tol := div_nonneg ht htol.le
  have e1 := b64_err (t / tol)
  rw [abs_of_nonneg hq0] at e1
  have hb0 : 0 ≤ b64 (t / tol) := b64_nonneg hq0
  have e2 := roundHE_spec (b64 (t / tol))
  have hR0 : (0 : ℚ) ≤ (roundHE (b64 (t / tol)) : ℚ) := by exact_mod_cast roundHE_nonneg hb0
  generalize (roundHE (b64 (t / tol)) : ℚ) = R at e2 hR0 ⊢
  have e3 := b64_err R
  rw [abs_of_nonneg hR0] at e3
  have hR' : 0 ≤ b64 R := b64_nonneg hR0
  have e4 := b64_err (b64 R * tol)
  rw [abs_of_nonneg (mul_nonneg hR' htol.le)] at e4
  have hx0 : 0 ≤ b64 (b64 R * tol) := b64_nonneg (mul_nonneg hR' htol.le)
  generalize b64 (b64 R * tol) = x at e4 hx0 ⊢
  have e5 := b64_err (x * 100)
  rw [abs_of_nonneg (mul_nonneg hx0 (by norm_num))] at e5
  have hy0 : 0 ≤ b64 (x * 100) := b64_nonneg (mul_nonneg hx0 (by norm_num))
  have e6 := roundHE_spec (b64 (x * 100))
  have hk : ((roundHE (b64 (x * 100))).toNat : ℚ) = (roundHE (b64 (x * 100)) : ℚ) := by
    have := Int.toNat_of_nonneg (roundHE_nonneg hy0)
    exact_mod_cast congrArg (fun z : ℤ => (z : ℚ)) this
  rw [hk]
  generalize (roundHE (b64 (x * 100)) : ℚ) = k at e6 ⊢
  generalize b64 (x * 100) = y at e5 e6 ⊢
  generalize b64 R = R' at e3 e4 hR'
  generalize b64 (t / tol) = w at e1 e2
  -- multiply the first two by the tolerance
  have f1 : |t - w * tol| ≤ t / 2 ^ (53 : Nat) := by
    have h := mul_le_mul_of_nonneg_right e1 htol.le
    rw [← abs_of_pos htol, ← abs_mul] at h
    rw [abs_of_pos htol] at h
    have a1 : (t / tol - w) * tol = t - w * tol := by field_simp
    have a2 : t / tol / 2 ^ (53 : Nat) * tol = t / 2 ^ (53 : Nat) := by field_simp
    rwa [a1, a2] at h
  have f2 : |w * tol - R * tol| ≤ tol / 2 := by
    have h := mul_le_mul_of_nonneg_right e2 htol.le
    rw [← abs_of_pos htol, ← abs_mul] at h
    rw [abs_of_pos htol] at h
    have a1 : (w - R) * tol = w * tol - R * tol := by ring
    rw [a1] at h
    linarith
  have f3 : |R * tol - R' * tol| ≤ R * tol / 2 ^ (53 : Nat) := by
    have h := mul_le_mul_of_nonneg_right e3 htol.le
    rw [← abs_of_pos htol, ← abs_mul] at h
    rw [abs_of_pos htol] at h
    have a1 : (R - R') * tol = R * tol - R' * tol := by ring
    have a2 : R / 2 ^ (53 : Nat) * tol = R * tol / 2 ^ (53 : Nat) := by ring
    rwa [a1, a2] at h
  rw [abs_le] at f1 f2 f3 e4 e5 e6 ⊢
  generalize w * tol = W at f1 f2
  generalize R * tol = S at f2 f3
  generalize R' * tol = S' at f3 e4
  constructor <;> linarith [f1.1, f1.2, f2.1, f2.2, f3.1, f3.2, e4.1, e4.2, e5.1, e5.2, e6.1, e6.2]

/-- **C192, width of a group.** With floats, two notes of one group start at most the tolerance plus a hundredth of a second apart, up to
eight parts in 2^53 of their times and the tolerance. -/
theorem C192_group_width (s : MSeq) (d : List (Int × List Note)) (m : Nat) (h : computeDataAutoF s = .ok (d, m))
    (ht : 0 < computeToleranceF s) (hb : ∀ n ∈ s.notes, centi (computeToleranceF s) n.start / 100 < 2 ^ 31)
    (k : Int) (ns : List Note) (hp : (k, ns) ∈ d) (a b : Note) (ha : a ∈ ns) (hb' : b ∈ ns) :
    |a.start - b.start| ≤ computeToleranceF s + 1/100 + (a.start + b.start + 2 * computeToleranceF s) / 2 ^ (50 : Nat) := by
  have hg := C166_groups _ ht s d m h hb k ns hp
  obtain ⟨_, _, hc⟩ := (hg a b ha).1 hb'
  obtain ⟨han, has, _⟩ := (hg a a ha).1 ha
  obtain ⟨hbn, hbs, _⟩ := (hg a b ha).1 hb'
  have hst := computeDataF_start _ ht.le s d m h
  have n1 := centi_near _ a.start ht (hst a han has)
  have n2 := centi_near _ b.start ht (hst b hbn hbs)
  rw [hc] at n2
  rw [abs_le] at n1 n2 ⊢
  constructor <;> linarith [n1.1, n1.2, n2.1, n2.2]

/-- Six notes at (roughly) 0, 0.1, 0.3, 0.6, 1.0, 1.5. -/
def exUneven : MSeq := MSeq.mk' ([0, 1/10, 3/10, 6/10, 1, 3/2].map (fun t : ℚ =>
    { exNote with start := b64 t, stop := b64 (t + 1) })) { num := 0, name := "Piano", isDrum := false }

/-- Its tolerance is the float 0.48, below the largest distance 0.5; the exact percentile of the float distances is another number. -/
example : computeToleranceF exUneven = b64 (48/100) := by decide +kernel

example : computeToleranceF exUneven ≠ computeTolerance exUneven := by decide +kernel

example : 3 ≤ exUneven.notes.length ∧ exUneven.instr.isDrum = false ∧ 0 < computeToleranceF exUneven ∧
    (∀ x ∈ timeDifferences exUneven, (1/20 : ℚ) ≤ b64 x ∧ b64 x ≤ 1/2) ∧
    ∀ n ∈ exUneven.notes, centi (computeToleranceF exUneven) n.start / 100 < 2 ^ 31 := by decide +kernel

/-- Two of its notes share a group: 0.3 and 0.6 are both taken to 0.48. -/
example : ∃ d m, computeDataAutoF exUneven = .ok (d, m) ∧ ∃ p ∈ d, 2 ≤ p.2.length := by
  have h : (match computeDataAutoF exUneven with | .ok r => r.1.any (fun p => decide (2 ≤ p.2.length)) | .error _ => false) = true := by
    decide +kernel
  cases hc : computeDataAutoF exUneven with
  | ok r =>
    rw [hc] at h
    obtain ⟨p, hp, h2⟩ := List.any_eq_true.1 h
    exact ⟨r.1, r.2, rfl, p, hp, of_decide_eq_true h2⟩
  | error e => rw [hc] at h; cases h

/-- The notes of `exHalves` are evenly spaced. -/
example : 3 ≤ exHalves.notes.length ∧ exHalves.instr.isDrum = false ∧ ∀ x ∈ timeDifferences exHalves, b64 x = 1/2 := by decide +kernel

end NGC
