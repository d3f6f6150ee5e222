import Verif.HashOrder
import Mathlib.Data.Nat.Prime.Basic
import Mathlib.Data.Nat.Size

namespace NGC

open Spec

/-! ### CPython's hash of a float with at most 61 binary places -/

theorem hash_scaled (x : ℚ) (N : ℤ) (h : x * 2 ^ (61 : ℕ) = N) :
    pyHashFloat x = N % ((2 : ℤ) ^ (61 : ℕ) - 1) := by
  have hdvd : x.den ∣ 2 ^ 61 := by
    have hx : x = (N : ℚ) / ((2 ^ 61 : ℕ) : ℚ) := by
      rw [eq_div_iff (by norm_num)]; rw [← h]; norm_num
    have := Rat.den_dvd N ((2 ^ 61 : ℕ) : ℤ)
    rw [Rat.divInt_eq_div] at this
    have e : ((N : ℚ) / (((2 ^ 61 : ℕ) : ℤ) : ℚ)) = x := by rw [hx]; norm_num
    rw [e] at this
    exact_mod_cast this
  obtain ⟨d, hd, hden⟩ := (Nat.dvd_prime_pow Nat.prime_two).1 hdvd
  have hnum : x.num * 2 ^ (61 - d) = N := by
    have h1 : x = (x.num : ℚ) / (2 : ℚ) ^ d := by
      have := (Rat.num_div_den x).symm
      rw [hden] at this
      push_cast at this
      exact this
    have h2 : ((x.num * 2 ^ (61 - d) : ℤ) : ℚ) = (N : ℚ) := by
      rw [← h]
      have e : (2 : ℚ) ^ (61 : ℕ) = 2 ^ d * 2 ^ (61 - d) := by rw [← pow_add]; congr 1; omega
      have hne : (2 : ℚ) ^ d ≠ 0 := by positivity
      rw [e]
      nth_rewrite 2 [h1]
      push_cast
      field_simp
    exact_mod_cast h2
  unfold pyHashFloat
  have hlog : Nat.log2 x.den = d := by rw [hden, Nat.log2_two_pow]
  rw [hlog]
  by_cases h61 : d = 61
  · subst h61
    have : x.num = N := by simpa using hnum
    rw [this]
    norm_num
    omega
  · rw [Nat.mod_eq_of_lt (by omega), hnum]

theorem hash_split (x : ℚ) (s F : ℤ) (hx : x = s + F / 2 ^ (61 : ℕ)) (hs : 0 ≤ s) (hF : 0 ≤ F)
    (hb : s + F < 2 ^ (61 : ℕ) - 1) : pyHashFloat x = s + F := by
  rw [hash_scaled x (s * 2 ^ (61 : ℕ) + F) (by rw [hx]; push_cast; ring)]
  norm_num at hb ⊢
  omega

/-! ### The float nearest to a number of hundredths -/

/-- The binary places of a time with hundredths `c` whose seconds have `z` binary digits. -/
def fracBits (c z : ℕ) : ℤ :=
  if z = 0 then ⌊b64 ((c : ℚ) / 100) * 2 ^ (61 : ℕ)⌋
  else roundHE ((c : ℚ) / 100 * 2 ^ (53 - z)) * 2 ^ (8 + z)

/-- The same with integers only. -/
def fracBitsI (c z : ℕ) : ℤ := if z = 0 then fracBits c 0 else (c * 2 ^ (54 - z) + 100) / 200 * 2 ^ (8 + z)

theorem fracBits_zero : ∀ c : ℕ, c < 100 → b64 ((c : ℚ) / 100) * 2 ^ (61 : ℕ) = (fracBits c 0 : ℚ) := by decide +kernel

theorem fracBits_int : ∀ c < 100, ∀ z < 32, fracBits c z = fracBitsI c z := by decide +kernel

theorem fracBitsI_near : ∀ c < 100, ∀ z < 32, |100 * fracBitsI c z - c * 2 ^ 61| ≤ 100 * 2 ^ 40 ∧ 0 ≤ fracBitsI c z := by
  decide +kernel

theorem fracBitsI_apart : ∀ c < 100, ∀ z' < 32, ∀ z < z',
    2 ^ z' ≤ fracBitsI c z - fracBitsI c z' ∨ fracBitsI c z - fracBitsI c z' < 2 ^ (z' - 1) - 2 ^ z + 1 := by
  decide +kernel

theorem roundHE_add_even (n : ℤ) (x : ℚ) (h : 2 ∣ n) : roundHE (n + x) = n + roundHE x := by
  have e : ⌊(n : ℚ) + x⌋ = n + ⌊x⌋ := by rw [add_comm, Int.floor_add_intCast, add_comm]
  unfold roundHE
  simp only [e]
  have e2 : (n : ℚ) + x - ((n + ⌊x⌋ : ℤ) : ℚ) = x - (⌊x⌋ : ℚ) := by push_cast; ring
  rw [e2]
  have e3 : ((n + ⌊x⌋) % 2 = 0) ↔ (⌊x⌋ % 2 = 0) := by omega
  simp only [e3]
  split_ifs <;> ring

/-- Whole seconds and hundredths as a float: the hundredths are cut at a place that depends on the number of digits of the seconds. -/
theorem b64_centi (s c : ℕ) (hc : c < 100) (hz : s < 2 ^ 31) :
    b64 ((s : ℚ) + c / 100) = s + fracBits c (Nat.size s) / 2 ^ (61 : ℕ) := by
  have hz' : Nat.size s ≤ 31 := Nat.size_le.2 hz
  by_cases hs : s = 0
  · subst hs
    have := fracBits_zero c hc
    simp only [Nat.size_zero]
    rw [← this]
    simp
  obtain ⟨z, hzs⟩ : ∃ z, Nat.size s = z + 1 := by
    refine ⟨Nat.size s - 1, ?_⟩
    have : 0 < Nat.size s := Nat.lt_size.2 (by simp; omega)
    omega
  have h1 : 2 ^ z ≤ s := Nat.lt_size.1 (by omega)
  have h2 : s < 2 ^ (z + 1) := by rw [← hzs]; exact Nat.lt_size_self s
  have h1q : (2 : ℚ) ^ z ≤ s := by exact_mod_cast h1
  have h2q : (s : ℚ) + 1 ≤ 2 ^ (z + 1) := by exact_mod_cast h2
  have hcq : (c : ℚ) / 100 < 1 := by rw [div_lt_one (by norm_num)]; exact_mod_cast hc
  have hc0 : (0 : ℚ) ≤ (c : ℚ) / 100 := by positivity
  have hpz : (0 : ℚ) < 2 ^ z := by positivity
  have hq : 0 < (s : ℚ) + c / 100 := by linarith
  have hlog : Int.log 2 |(s : ℚ) + c / 100| = z := by
    rw [abs_of_pos hq]
    apply le_antisymm
    · have : Int.log 2 ((s : ℚ) + c / 100) < (z : ℤ) + 1 := by
        rw [Int.lt_zpow_iff_log_lt (by norm_num) hq |>.symm, two_cast]
        have : (2 : ℚ) ^ ((z : ℤ) + 1) = 2 ^ (z + 1) := by exact_mod_cast rfl
        rw [this]; linarith
      omega
    · rw [← Int.zpow_le_iff_le_log (by norm_num) hq, two_cast, zpow_natCast]
      linarith
  have hu : ulp64 ((s : ℚ) + c / 100) = 2 ^ z / 2 ^ (52 : ℕ) := by
    unfold ulp64
    rw [hlog, zpow_sub₀ (by norm_num), zpow_natCast]
    norm_num
  unfold b64
  rw [if_neg hq.ne', hu, hzs]
  have e52 : (2 : ℚ) ^ (52 : ℕ) = 2 ^ z * 2 ^ (52 - z) := by rw [← pow_add]; congr 1; omega
  have eq1 : ((s : ℚ) + c / 100) / (2 ^ z / 2 ^ (52 : ℕ)) = ((s * 2 ^ (52 - z) : ℕ) : ℤ) + (c : ℚ) / 100 * 2 ^ (52 - z) := by
    rw [e52]; push_cast; field_simp
  rw [eq1, roundHE_add_even]
  · unfold fracBits
    rw [if_neg (by omega)]
    have e3 : 53 - (z + 1) = 52 - z := by omega
    have e61 : (2 : ℚ) ^ (61 : ℕ) = 2 ^ (9 + z) * 2 ^ (52 - z) := by rw [← pow_add]; congr 1; omega
    have e4 : 8 + (z + 1) = 9 + z := by omega
    rw [e3, e4, e61, e52]
    push_cast
    field_simp
  · have : ∃ m, 52 - z = m + 1 := ⟨51 - z, by omega⟩
    obtain ⟨m, hm⟩ := this
    rw [hm, pow_succ]
    exact ⟨(s * 2 ^ m : ℕ), by push_cast; ring⟩

/-- The hash of a number of hundredths of a second: the seconds, plus the binary places of the float. -/
theorem hash_centi (k : ℕ) (hk : k / 100 < 2 ^ 31) :
    pyHashFloat (b64 ((k : ℚ) / 100)) = (k / 100 : ℕ) + fracBits (k % 100) (Nat.size (k / 100)) := by
  have hz : Nat.size (k / 100) < 32 := Nat.lt_succ_of_le (Nat.size_le.2 hk)
  have hc := Nat.mod_lt k (show 0 < 100 by norm_num)
  have e : (k : ℚ) / 100 = ((k / 100 : ℕ) : ℚ) + ((k % 100 : ℕ) : ℚ) / 100 := by
    have : ((100 * (k / 100) + k % 100 : ℕ) : ℚ) = k := by rw [Nat.div_add_mod]
    push_cast at this ⊢
    linarith
  rw [e, b64_centi _ _ hc hk]
  have hn := fracBitsI_near _ hc _ hz
  rw [← fracBits_int _ hc _ hz] at hn
  obtain ⟨h1, h2⟩ := hn
  rw [abs_le] at h1
  have h3 := h1.2
  apply hash_split
  · push_cast; rfl
  · positivity
  · exact h2
  · have : ((k / 100 : ℕ) : ℤ) < 2 ^ 31 := by exact_mod_cast hk
    have hc' : ((k % 100 : ℕ) : ℤ) ≤ 99 := by omega
    norm_num at *
    omega

theorem hash_centi_near (k : ℕ) (hk : k / 100 < 2 ^ 31) :
    |100 * pyHashFloat (b64 ((k : ℚ) / 100)) - (k % 100 : ℕ) * 2 ^ 61| ≤ 100 * 2 ^ 41 := by
  have hz : Nat.size (k / 100) < 32 := Nat.lt_succ_of_le (Nat.size_le.2 hk)
  have hc := Nat.mod_lt k (show 0 < 100 by norm_num)
  have hn := fracBitsI_near _ hc _ hz
  rw [← fracBits_int _ hc _ hz] at hn
  rw [hash_centi k hk]
  obtain ⟨h1, h2⟩ := hn
  rw [abs_le] at *
  have : ((k / 100 : ℕ) : ℤ) < 2 ^ 31 := by exact_mod_cast hk
  have : 0 ≤ ((k / 100 : ℕ) : ℤ) := by positivity
  norm_num at *
  omega

/-- C166: two times in hundredths of a second: the one with fewer hundredths after the full second has the smaller hash, however many
seconds it is later. -/
theorem C166_centi_order (k l : ℕ) (hk : k / 100 < 2 ^ 31) (hl : l / 100 < 2 ^ 31) (h : k % 100 < l % 100) :
    pyHashFloat (b64 ((k : ℚ) / 100)) < pyHashFloat (b64 ((l : ℚ) / 100)) := by
  have h1 := hash_centi_near k hk
  have h2 := hash_centi_near l hl
  rw [abs_le] at h1 h2
  have h' : ((k % 100 : ℕ) : ℤ) < ((l % 100 : ℕ) : ℤ) := by exact_mod_cast h
  generalize ((k % 100 : ℕ) : ℤ) = a at *
  generalize ((l % 100 : ℕ) : ℤ) = b at *
  norm_num at *
  omega

/-- C166: with the same hundredths and the same number of binary digits of the seconds, the earlier time has the smaller hash. -/
theorem C166_same_hundredth (k l : ℕ) (hl : l / 100 < 2 ^ 31) (h : k % 100 = l % 100)
    (hz : Nat.size (k / 100) = Nat.size (l / 100)) (hkl : k < l) :
    pyHashFloat (b64 ((k : ℚ) / 100)) < pyHashFloat (b64 ((l : ℚ) / 100)) := by
  have hk : k / 100 < 2 ^ 31 := lt_of_le_of_lt (Nat.div_le_div_right hkl.le) hl
  rw [hash_centi k hk, hash_centi l hl, h, hz]
  have : k / 100 < l / 100 := by omega
  have : ((k / 100 : ℕ) : ℤ) < ((l / 100 : ℕ) : ℤ) := by exact_mod_cast this
  linarith

theorem hash_centi_ne (k l : ℕ) (hl : l / 100 < 2 ^ 31) (h : k % 100 = l % 100) (hkl : k < l) :
    pyHashFloat (b64 ((k : ℚ) / 100)) ≠ pyHashFloat (b64 ((l : ℚ) / 100)) := by
  have hk : k / 100 < 2 ^ 31 := lt_of_le_of_lt (Nat.div_le_div_right hkl.le) hl
  have hs : k / 100 < l / 100 := by omega
  rcases lt_or_eq_of_le (Nat.size_le_size hs.le) with hz | hz
  · have hz' : Nat.size (l / 100) < 32 := Nat.lt_succ_of_le (Nat.size_le.2 hl)
    have hc := Nat.mod_lt l (show 0 < 100 by norm_num)
    have ha := fracBitsI_apart _ hc _ hz' _ hz
    rw [← fracBits_int _ hc _ (by omega), ← fracBits_int _ hc _ hz'] at ha
    rw [hash_centi k hk, hash_centi l hl, h]
    have b1 : (k / 100) < 2 ^ Nat.size (k / 100) := Nat.lt_size_self _
    have b2 : (l / 100) < 2 ^ Nat.size (l / 100) := Nat.lt_size_self _
    have b3 : 2 ^ (Nat.size (l / 100) - 1) ≤ l / 100 := Nat.lt_size.1 (by omega)
    have b1' : ((k / 100 : ℕ) : ℤ) < 2 ^ Nat.size (k / 100) := by exact_mod_cast b1
    have b2' : ((l / 100 : ℕ) : ℤ) < 2 ^ Nat.size (l / 100) := by exact_mod_cast b2
    have b3' : (2 : ℤ) ^ (Nat.size (l / 100) - 1) ≤ ((l / 100 : ℕ) : ℤ) := by exact_mod_cast b3
    have b0 : (0 : ℤ) ≤ ((k / 100 : ℕ) : ℤ) := by positivity
    intro hc
    rcases ha with ha | ha <;> linarith
  · exact (C166_same_hundredth k l hl h hz hkl).ne

/-- C166: different times in hundredths of a second have different hashes. -/
theorem C166_no_collision (k l : ℕ) (hk : k / 100 < 2 ^ 31) (hl : l / 100 < 2 ^ 31)
    (h : pyHashFloat (b64 ((k : ℚ) / 100)) = pyHashFloat (b64 ((l : ℚ) / 100))) : k = l := by
  rcases lt_trichotomy (k % 100) (l % 100) with h1 | h1 | h1
  · exact absurd h (C166_centi_order k l hk hl h1).ne
  · rcases lt_trichotomy k l with h2 | h2 | h2
    · exact absurd h (hash_centi_ne k l hl h1 h2)
    · exact h2
    · exact absurd h.symm (hash_centi_ne l k hk h1.symm h2)
  · exact absurd h.symm (C166_centi_order l k hl hk h1).ne

/-! ### The groups and the order in which they are visited -/

theorem adjTimeF_nonneg (tol t : ℚ) (htol : 0 ≤ tol) (ht : 0 ≤ t) : 0 ≤ adjTimeF tol t := by
  unfold adjTimeF
  split
  · exact ht
  · have h1 : 0 ≤ b64 (t / tol) := b64_nonneg (div_nonneg ht htol)
    have h2 : (0 : ℚ) ≤ (roundHE (b64 (t / tol)) : ℚ) := by exact_mod_cast roundHE_nonneg h1
    unfold around2F
    refine b64_nonneg (div_nonneg ?_ (by norm_num))
    exact_mod_cast roundHE_nonneg (b64_nonneg (mul_nonneg (b64_nonneg (mul_nonneg (b64_nonneg h2) htol)) (by norm_num)))

theorem adjTimeF_centi (tol t : ℚ) (htol : 0 < tol) (ht : 0 ≤ t) : adjTimeF tol t = b64 ((centi tol t : ℚ) / 100) := by
  unfold adjTimeF
  rw [if_neg htol.ne']
  unfold around2F centi
  have h1 : 0 ≤ b64 (t / tol) := b64_nonneg (div_nonneg ht htol.le)
  have h2 : (0 : ℚ) ≤ (roundHE (b64 (t / tol)) : ℚ) := by exact_mod_cast roundHE_nonneg h1
  have h3 : 0 ≤ b64 (b64 (b64 (roundHE (b64 (t / tol)) : ℚ) * tol) * 100) :=
    b64_nonneg (mul_nonneg (b64_nonneg (mul_nonneg (b64_nonneg h2) htol.le)) (by norm_num))
  have h4 := roundHE_nonneg h3
  generalize roundHE (b64 (b64 (b64 (roundHE (b64 (t / tol)) : ℚ) * tol) * 100)) = r at *
  have : ((r.toNat : ℕ) : ℤ) = r := Int.toNat_of_nonneg h4
  have : ((r.toNat : ℕ) : ℚ) = (r : ℚ) := by exact_mod_cast congrArg (fun z : ℤ => (z : ℚ)) this
  rw [this]

/-- An environment whose hash of a time is that of the adjusted float. -/
def envF (tol : ℚ) : PyEnv := { exEnv with hashTime := fun t => pyHashFloat (adjTimeF tol t) }

theorem computeDataF_eq (tol : ℚ) (htol : 0 ≤ tol) (s : MSeq) :
    computeDataF tol s = computeData (envF tol) s 0 false false := by
  have hstep : groupStepF tol = groupStep (envF tol) 0 false := by
    funext st n
    unfold groupStepF groupStep adjTime
    rw [if_pos rfl]
    by_cases he : eligible n = true
    · rw [if_pos he, if_pos he]
      by_cases h0 : n.start < 0
      · rw [if_pos h0, if_pos h0]
      · rw [if_neg h0, if_neg h0, if_neg h0, if_neg (not_lt.2 (adjTimeF_nonneg tol n.start htol (not_lt.1 h0)))]
        rfl
    · rw [if_neg he, if_neg he]
  unfold computeDataF computeData
  rw [hstep]
  simp only [Bool.false_eq_true, if_false]
  cases s.notes.foldlM (groupStep (envF tol) 0 false) ([], 0) with
  | error e => rfl
  | ok r => rfl

theorem computeDataF_start (tol : ℚ) (htol : 0 ≤ tol) (s : MSeq) (d : List (Int × List Note)) (m : Nat)
    (h : computeDataF tol s = .ok (d, m)) : ∀ n ∈ s.notes, sounding n = true → 0 ≤ n.start := by
  rw [computeDataF_eq tol htol] at h
  intro n hn hs
  by_contra hc
  have := (C45_raises (envF tol) s 0 false false).2 ⟨n, hn, hs, not_le.1 hc⟩
  obtain ⟨e, he⟩ := this
  rw [h] at he
  cases he

theorem groupKey_envF (s : MSeq) (tol : ℚ) (n : Note) (htol : 0 < tol) (h0 : 0 ≤ n.start) :
    groupKey (envF tol) (tolInForce s 0 false) false n = pyHashFloat (b64 ((centi tol n.start : ℚ) / 100)) := by
  unfold groupKey adjTime tolInForce
  simp only [Bool.false_eq_true, if_false, if_true]
  rw [← adjTimeF_centi tol n.start htol h0]
  rfl

theorem group_facts (tol : ℚ) (htol : 0 < tol) (s : MSeq) (d : List (Int × List Note)) (m : Nat)
    (h : computeDataF tol s = .ok (d, m)) (k : Int) (ns : List Note) (hp : (k, ns) ∈ d) :
    ns ≠ [] ∧ ∀ b, b ∈ ns ↔ (b ∈ s.notes ∧ sounding b = true ∧ pyHashFloat (b64 ((centi tol b.start : ℚ) / 100)) = k) := by
  have hst := computeDataF_start tol htol.le s d m h
  rw [computeDataF_eq tol htol.le] at h
  obtain ⟨_, h2, _⟩ := C45_partition _ _ _ _ _ _ h
  obtain ⟨hne, heq⟩ := h2 k ns hp
  refine ⟨hne, fun b => ?_⟩
  rw [heq, List.mem_filter, List.mem_filter, decide_eq_true_eq]
  constructor
  · rintro ⟨⟨h1, h3⟩, h4⟩
    rw [groupKey_envF s tol b htol (hst b h1 h3)] at h4
    exact ⟨h1, h3, h4⟩
  · rintro ⟨h1, h3, h4⟩
    exact ⟨⟨h1, h3⟩, by rw [groupKey_envF s tol b htol (hst b h1 h3)]; exact h4⟩

/-- C166: with Python's floats and hashes, two melodic audible notes are in one group exactly if their adjusted times are the same
number of hundredths of a second: no two times are confused. -/
theorem C166_groups (tol : ℚ) (htol : 0 < tol) (s : MSeq) (d : List (Int × List Note)) (m : Nat)
    (h : computeDataF tol s = .ok (d, m)) (hb : ∀ n ∈ s.notes, centi tol n.start / 100 < 2 ^ 31)
    (k : Int) (ns : List Note) (hp : (k, ns) ∈ d) (a b : Note) (ha : a ∈ ns) :
    b ∈ ns ↔ (b ∈ s.notes ∧ sounding b = true ∧ centi tol b.start = centi tol a.start) := by
  obtain ⟨_, hm⟩ := group_facts tol htol s d m h k ns hp
  obtain ⟨a1, a2, a3⟩ := (hm a).1 ha
  rw [hm b]
  constructor
  · rintro ⟨b1, b2, b3⟩
    exact ⟨b1, b2, C166_no_collision _ _ (hb b b1) (hb a a1) (b3.trans a3.symm)⟩
  · rintro ⟨b1, b2, b3⟩
    exact ⟨b1, b2, by rw [b3]; exact a3⟩

/-- C166: the order in which the groups are visited. A group comes before another if its time has fewer hundredths after the full
second, however much later it is played; groups with the same hundredths are ordered by time as long as their seconds have the same
number of binary digits. -/
theorem C166_visit_order (tol : ℚ) (htol : 0 < tol) (s : MSeq) (d : List (Int × List Note)) (m : Nat)
    (h : computeDataF tol s = .ok (d, m)) (hb : ∀ n ∈ s.notes, centi tol n.start / 100 < 2 ^ 31) :
    (orderedGroups d).Pairwise (fun g1 g2 => ∀ a ∈ g1, ∀ b ∈ g2,
      centi tol a.start % 100 < centi tol b.start % 100 ∨
      (centi tol a.start % 100 = centi tol b.start % 100 ∧ centi tol a.start ≠ centi tol b.start ∧
        (Nat.size (centi tol a.start / 100) = Nat.size (centi tol b.start / 100) → centi tol a.start < centi tol b.start))) := by
  have hf := fun k ns hp => group_facts tol htol s d m h k ns hp
  have hn : (d.map (fun p : Int × List Note => (p.1 : ℚ))).Nodup := by
    rw [computeDataF_eq tol htol.le] at h
    obtain ⟨_, _, h3, _⟩ := C45_partition _ _ _ _ _ _ h
    have : (dkeys d).Nodup := by rw [h3]; exact firstSeen_nodup _
    have e : d.map (fun p : Int × List Note => (p.1 : ℚ)) = (dkeys d).map (fun k : Int => (k : ℚ)) := by
      unfold dkeys; rw [List.map_map]; rfl
    rw [e]
    exact this.map (fun a b hab => by exact_mod_cast hab)
  have hs := sortByKey_strict _ d hn
  unfold orderedGroups
  rw [List.pairwise_map]
  refine List.Pairwise.imp_of_mem ?_ hs
  rintro ⟨k1, g1⟩ ⟨k2, g2⟩ hm1 hm2 hlt a ha b hb'
  rw [(sortByKey_perm _ d).mem_iff] at hm1 hm2
  obtain ⟨a1, a2, a3⟩ := ((hf k1 g1 hm1).2 a).1 ha
  obtain ⟨b1, b2, b3⟩ := ((hf k2 g2 hm2).2 b).1 hb'
  have hlt' : k1 < k2 := by simp only [] at hlt; exact_mod_cast hlt
  rw [← a3, ← b3] at hlt'
  rcases lt_trichotomy (centi tol a.start % 100) (centi tol b.start % 100) with h1 | h1 | h1
  · exact Or.inl h1
  · refine Or.inr ⟨h1, ?_, ?_⟩
    · intro he; rw [he] at hlt'; exact lt_irrefl _ hlt'
    · intro hz
      by_contra hc
      rcases lt_or_eq_of_le (not_lt.1 hc) with h2 | h2
      · exact absurd (C166_same_hundredth _ _ (hb a a1) h1.symm hz.symm h2) (not_lt.2 hlt'.le)
      · rw [h2] at hlt'; exact lt_irrefl _ hlt'
  · exact absurd (C166_centi_order _ _ (hb b b1) (hb a a1) h1) (not_lt.2 hlt'.le)

theorem sorted_changes {α : Type} (key : α → ℕ) (N : ℕ) : ∀ (l : List α), l.Pairwise (fun a b => key a ≤ key b) →
    (∀ x ∈ l, key x < N) → ∀ x, l.head? = some x →
    (l.zip l.tail).countP (fun p => decide (key p.1 ≠ key p.2)) + key x + 1 ≤ N := by
  intro l
  induction l with
  | nil => intro _ _ x hx; cases hx
  | cons a l ih =>
    intro hs hb x hx
    cases hx
    cases l with
    | nil =>
      have := hb a (by simp)
      simp
      omega
    | cons b l =>
      have h1 := ih (List.pairwise_cons.1 hs).2 (fun y hy => hb y (List.mem_cons_of_mem _ hy)) b rfl
      have h2 := (List.pairwise_cons.1 hs).1 b (by simp)
      simp only [List.tail_cons, List.zip_cons_cons, List.countP_cons] at h1 ⊢
      split
      · rename_i hne
        have : key a ≠ key b := by simpa using hne
        omega
      · omega

theorem orderedGroups_mem (d : List (Int × List Note)) (g : List Note) (h : g ∈ orderedGroups d) : ∃ k, (k, g) ∈ d := by
  unfold orderedGroups at h
  rw [List.mem_map] at h
  obtain ⟨⟨k, g'⟩, hm, rfl⟩ := h
  exact ⟨k, (sortByKey_perm _ d).mem_iff.1 hm⟩

theorem hundredths_sorted (tol : ℚ) (htol : 0 < tol) (s : MSeq) (d : List (Int × List Note)) (m : Nat)
    (h : computeDataF tol s = .ok (d, m)) (hb : ∀ n ∈ s.notes, centi tol n.start / 100 < 2 ^ 31) :
    (orderedGroups d).Pairwise (fun g1 g2 => hundredths tol g1 ≤ hundredths tol g2) := by
  refine List.Pairwise.imp_of_mem ?_ (C166_visit_order tol htol s d m h hb)
  intro g1 g2 h1 h2 hr
  obtain ⟨k1, m1⟩ := orderedGroups_mem d g1 h1
  obtain ⟨k2, m2⟩ := orderedGroups_mem d g2 h2
  have n1 := (group_facts tol htol s d m h k1 g1 m1).1
  have n2 := (group_facts tol htol s d m h k2 g2 m2).1
  cases g1 with
  | nil => exact absurd rfl n1
  | cons a g1 =>
    cases g2 with
    | nil => exact absurd rfl n2
    | cons b g2 =>
      unfold hundredths
      rcases hr a (by simp) b (by simp) with hr | hr
      · exact hr.le
      · exact hr.1.le

/-- C166: of the steps from one chord to the next that make the edges of a graph, at most 99 in the whole piece join chords that are not
a whole number of seconds apart. -/
theorem C166_steps_whole_seconds (env : PyEnv) (tol : ℚ) (htol : 0 < tol) (t : Tables) (s : MSeq) (o : BuildOpts)
    (ho : o.filterSingle = false) (t' : Tables) (g' : MGraph) (h : buildSequenceF env tol t s o = .ok (t', g'))
    (hb : ∀ n ∈ s.notes, centi tol n.start / 100 < 2 ^ 31) :
    ∃ d m, computeDataF tol s = .ok (d, m) ∧
      (∀ u v, g'.hasEdge u v = true → (u, v) ∈ transitions ((chordsVisited env tol o.size.toNat d).map (·.2)) ∨
        (u = v ∧ ((chordsVisited env tol o.size.toNat d).map (·.2)).head? = some u)) ∧
      (∀ u v, (u, v) ∈ transitions ((chordsVisited env tol o.size.toNat d).map (·.2)) →
        g'.hasEdge u v = true ∨ g'.hasEdge v u = true) ∧
      ((chordsVisited env tol o.size.toNat d).zip (chordsVisited env tol o.size.toNat d).tail).countP
        (fun p => decide (p.1.1 ≠ p.2.1)) ≤ 99 := by
  unfold buildSequenceF at h
  by_cases hok : o.ok = true
  swap
  · rw [Bool.not_eq_true] at hok
    rw [hok] at h; cases h
  rw [hok] at h
  simp only [Bool.not_true, Bool.false_eq_true, if_false, ho] at h
  cases hd : computeDataF tol s with
  | error e => rw [hd] at h; cases h
  | ok r =>
    obtain ⟨d, m⟩ := r
    rw [hd] at h
    simp only [bind, Except.bind] at h
    refine ⟨d, m, rfl, ?_⟩
    have hvis : (chordsVisited env tol o.size.toNat d).map (·.2) = visited env o.size.toNat d := by
      unfold chordsVisited visited
      generalize orderedGroups d = l
      induction l with
      | nil => rfl
      | cons a l ih => simp [List.flatMap_cons, ih]
    have hcnt : ((chordsVisited env tol o.size.toNat d).zip (chordsVisited env tol o.size.toNat d).tail).countP
        (fun p => decide (p.1.1 ≠ p.2.1)) ≤ 99 := by
      have hsort : (chordsVisited env tol o.size.toNat d).Pairwise (fun a b => a.1 ≤ b.1) := by
        unfold chordsVisited
        rw [List.pairwise_flatMap]
        constructor
        · intro g _
          rw [List.pairwise_map]
          exact List.pairwise_of_forall (fun _ _ => le_refl _)
        · refine (hundredths_sorted tol htol s d m hd hb).imp ?_
          intro g1 g2 hle x hx y hy
          rw [List.mem_map] at hx hy
          obtain ⟨_, _, rfl⟩ := hx
          obtain ⟨_, _, rfl⟩ := hy
          exact hle
      have hbd : ∀ x ∈ chordsVisited env tol o.size.toNat d, x.1 < 100 := by
        intro x hx
        unfold chordsVisited at hx
        rw [List.mem_flatMap] at hx
        obtain ⟨g, _, hx⟩ := hx
        rw [List.mem_map] at hx
        obtain ⟨_, _, rfl⟩ := hx
        simp only [hundredths]
        split
        · norm_num
        · exact Nat.mod_lt _ (by norm_num)
      cases hl : chordsVisited env tol o.size.toNat d with
      | nil => simp
      | cons a l =>
        have := sorted_changes (fun x : ℕ × Int => x.1) 100 _ hsort hbd a (by rw [hl]; rfl)
        rw [hl] at this
        omega
    have hedge : ∀ st : BState, buildLoop env o (orderedGroups d) ⟨t, DiGraph.empty, none⟩ = .ok st →
        (∀ u v, st.graph.hasEdge u v = true → (u, v) ∈ transitions (visited env o.size.toNat d) ∨
          (u = v ∧ (visited env o.size.toNat d).head? = some u)) ∧
        (∀ u v, (u, v) ∈ transitions (visited env o.size.toNat d) →
          st.graph.hasEdge u v = true ∨ st.graph.hasEdge v u = true) := by
      intro st hst
      obtain ⟨inv, _, _⟩ := buildLoop_inv env o t _ st hst
      rw [flat_hashes] at inv
      have key : ∀ u v, st.graph.hasEdge u v = true ↔ ∃ w, dget st.graph.edges (u, v) = some w := by
        intro u v
        unfold DiGraph.hasEdge dhas
        exact Option.isSome_iff_exists
      refine ⟨?_, ?_⟩
      · intro u v huv
        obtain ⟨w, hw⟩ := (key u v).1 huv
        exact inv.justified u v w hw
      · intro u v huv
        rw [key, key]
        exact inv.covered u v huv
    rw [hvis]
    by_cases hnil : d = []
    · rw [if_pos hnil] at h
      cases h
      subst hnil
      obtain ⟨e1, e2⟩ := hedge ⟨t, DiGraph.empty, none⟩ rfl
      exact ⟨e1, e2, hcnt⟩
    · rw [if_neg hnil] at h
      cases hbl : buildLoop env o (orderedGroups d) ⟨t, DiGraph.empty, none⟩ with
      | error e => rw [hbl] at h; cases h
      | ok st =>
        rw [hbl] at h
        cases h
        obtain ⟨e1, e2⟩ := hedge st hbl
        exact ⟨e1, e2, hcnt⟩

/-! ### Examples -/

/-- Eight notes half a second apart. -/
def exHalves : MSeq := MSeq.mk' ((List.range 8).map (fun i : ℕ =>
    { exNote with pitch := i, start := (i : ℚ) / 2, stop := (i : ℚ) / 2 + 1 / 2 })) { num := 0, name := "Piano", isDrum := false }

/-- C166: eight notes played half a second apart enter the graph as 0, 2, 4, 6 and then 1, 3, 5, 7: no note is followed by the
note that was played after it. -/
theorem C166_half_seconds :
    (computeDataF (1 / 2) exHalves).map (fun r => (orderedGroups r.1).map (fun g => g.map Note.pitch)) =
      .ok [[0], [2], [4], [6], [1], [3], [5], [7]] := by decide +kernel

/-- C166: with the same hundredths the order may be wrong too: 2.01, 3.01, 4.01, 5.01, 0.01, 1.01. -/
theorem C166_same_hundredth_disordered :
    (sortByKey (fun k : ℕ => (pyHashFloat (b64 ((k : ℚ) / 100)) : ℚ)) [1, 101, 201, 301, 401, 501]) =
      [201, 301, 401, 501, 1, 101] := by decide +kernel

/-- C166: with a bad size, number of buckets or tolerance, ValueError, whatever the notes are. -/
theorem C166_options (env : PyEnv) (tol : ℚ) (t : Tables) (s : MSeq) (o : BuildOpts)
    (ho : o.size ≤ 0 ∨ 128 < o.size ∨ o.buckets ≤ 0 ∨ o.tol < 0 ∨ 1 < o.tol) : buildSequenceF env tol t s o = .error .value := by
  have : o.ok = false := by
    unfold BuildOpts.ok
    rcases ho with h | h | h | h | h <;> simp [not_lt.2, not_le.2, h]
  unfold buildSequenceF
  rw [this]
  rfl

example : buildSequenceF exEnv (1 / 2) Tables.empty exHalves { size := 0 } = .error .value := C166_options _ _ _ _ _ (.inl (le_refl _))

example : ∀ n ∈ exHalves.notes, centi (1 / 2) n.start / 100 < 2 ^ 31 := by decide +kernel

example : ∃ r, buildSequenceF exEnv (1 / 2) Tables.empty exHalves {} = .ok r := by
  have h : (match buildSequenceF exEnv (1 / 2) Tables.empty exHalves {} with | .ok _ => true | .error _ => false) = true := by
    decide +kernel
  cases hc : buildSequenceF exEnv (1 / 2) Tables.empty exHalves {} with
  | ok r => exact ⟨r, rfl⟩
  | error e => rw [hc] at h; cases h

end NGC
