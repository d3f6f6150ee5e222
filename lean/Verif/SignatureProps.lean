import Verif.Signature
import Mathlib.Tactic.FieldSimp

/-! Property theorems C13, C14, C77, C78 about signatures. -/

namespace NGC

/-! ## C13 tempo -/

/-- C13: the constructor accepts exactly positive tempo and resolution (when given) and the result
always has positive tempo and resolution. -/
theorem C13_construct (time qpm : Option ℚ) (res : Option Int) :
    ((∃ t, TempoSig.mk? time qpm res = .ok t) ↔
      (∀ q, qpm = some q → 0 < q) ∧ (∀ r, res = some r → 0 < r)) ∧
    (∀ t, TempoSig.mk? time qpm res = .ok t →
      0 < t.qpm ∧ 0 < t.resolution ∧ t.qpm = qpm.getD 120 ∧ t.resolution = res.getD 480 ∧
      t.time = time.getD 0) ∧
    (∀ e, TempoSig.mk? time qpm res = .error e → e = .assertion) := by
  unfold TempoSig.mk?
  cases qpm with
  | none =>
    cases res with
    | none =>
      refine ⟨⟨fun _ => ⟨by simp, by simp⟩, fun _ => ⟨_, rfl⟩⟩, ?_, by simp⟩
      rintro t ⟨⟩; exact ⟨by norm_num, by norm_num, rfl, rfl, rfl⟩
    | some r =>
      by_cases h : r > 0
      · simp only [h, not_true, if_false]
        refine ⟨⟨fun _ => ⟨by simp, by simpa using h⟩, fun _ => ⟨_, rfl⟩⟩, ?_, by simp⟩
        rintro t ⟨⟩; exact ⟨by norm_num, h, rfl, rfl, rfl⟩
      · simp only [h, not_false_eq_true, if_true]
        refine ⟨⟨fun ⟨t, ht⟩ => (by cases ht), fun hh => absurd (hh.2 r rfl) h⟩, by simp, ?_⟩
        rintro e ⟨⟩; rfl
  | some q =>
    by_cases hq : q > 0
    · cases res with
      | none =>
        simp only [hq, not_true, if_false]
        refine ⟨⟨fun _ => ⟨by simpa using hq, by simp⟩, fun _ => ⟨_, rfl⟩⟩, ?_, by simp⟩
        rintro t ⟨⟩; exact ⟨hq, by norm_num, rfl, rfl, rfl⟩
      | some r =>
        by_cases h : r > 0
        · simp only [hq, h, not_true, if_false]
          refine ⟨⟨fun _ => ⟨by simpa using hq, by simpa using h⟩, fun _ => ⟨_, rfl⟩⟩, ?_, by simp⟩
          rintro t ⟨⟩; exact ⟨hq, h, rfl, rfl, rfl⟩
        · simp only [hq, h, not_true, not_false_eq_true, if_false, if_true]
          refine ⟨⟨fun ⟨t, ht⟩ => (by cases ht), fun hh => absurd (hh.2 r rfl) h⟩, by simp, ?_⟩
          rintro e ⟨⟩; rfl
    · cases res with
      | none =>
        simp only [hq, not_false_eq_true, if_true]
        refine ⟨⟨fun ⟨t, ht⟩ => (by cases ht), fun hh => absurd (hh.1 q rfl) hq⟩, by simp, ?_⟩
        rintro e ⟨⟩; rfl
      | some r =>
        simp only [hq, not_false_eq_true, if_true]
        refine ⟨⟨fun ⟨t, ht⟩ => (by cases ht), fun hh => absurd (hh.1 q rfl) hq⟩, by simp, ?_⟩
        rintro e ⟨⟩; rfl

example : TempoSig.mk? none (some 90) none = .ok { time := 0, qpm := 90, resolution := 480 } := by
  decide +kernel

/-- C13: conversions of a signature with positive tempo and resolution: a quarter lasts `60/qpm`
seconds, a tick lasts the `resolution`-th part of it, all durations are positive, the setter of bpm
is inverse to its getter, and the microsecond tempo of the signature converts back to its qpm. -/
theorem C13_conversions (t : TempoSig) (hq : 0 < t.qpm) (hr : 0 < t.resolution) :
    t.secondsPerQuarter = 60 / t.qpm ∧
    t.secondsPerTick * t.resolution = t.secondsPerQuarter ∧
    t.secondsPerTick = 60 / (t.qpm * t.resolution) ∧
    0 < t.secondsPerTick ∧ 0 < t.secondsPerQuarter ∧ 0 < t.bpm ∧
    (∀ v, (t.setBpm v).bpm = v) ∧ t.setBpm t.bpm = t ∧
    tempoToQpm (t.secondsPerQuarter * 1000000) = .ok t.qpm := by
  have hrq : (0 : ℚ) < t.resolution := by exact_mod_cast hr
  have e1 : t.secondsPerTick = 60 / (t.qpm * t.resolution) := by
    unfold TempoSig.secondsPerTick
    rw [if_neg hq.ne']
    field_simp
  have e2 : t.secondsPerQuarter = 60 / t.qpm := by
    unfold TempoSig.secondsPerQuarter
    rw [e1]; field_simp
  refine ⟨e2, rfl, e1, by rw [e1]; positivity, by rw [e2]; positivity, by unfold TempoSig.bpm; positivity,
    ?_, ?_, ?_⟩
  · intro v; simp [TempoSig.bpm, TempoSig.setBpm, TempoSig.setQpm]
  · cases t
    simp only [TempoSig.setBpm, TempoSig.setQpm, TempoSig.bpm, TempoSig.mk.injEq, true_and, and_true]
    ring
  · unfold tempoToQpm
    rw [if_neg (by rw [e2]; positivity), e2]
    congr 1
    field_simp

/-- C13: positivity is not kept by the tempo setters: `bpm = -1` or `bpm = 0` are accepted on any
signature and make the tempo non-positive. -/
theorem C13_setter_unchecked (t : TempoSig) (v : ℚ) (hv : v ≤ 0) : (t.setBpm v).qpm ≤ 0 := by
  simp only [TempoSig.setBpm, TempoSig.setQpm]; linarith

/-- C13: `tempo_to_qpm` and its inverse `60e6 / qpm` are mutually inverse bijections of the
positive tempos, strictly decreasing. -/
theorem C13_tempo_to_qpm (a b : ℚ) (ha : 0 < a) (hb : 0 < b) :
    (∃ q, tempoToQpm a = .ok q ∧ 0 < q ∧ tempoToQpm q = .ok a) ∧
    (∀ qa qb, tempoToQpm a = .ok qa → tempoToQpm b = .ok qb → (qa < qb ↔ b < a)) := by
  have hA : tempoToQpm a = .ok (60000000 / a) := by
    unfold tempoToQpm; rw [if_neg ha.ne']; congr 1; field_simp; norm_num
  have hB : tempoToQpm b = .ok (60000000 / b) := by
    unfold tempoToQpm; rw [if_neg hb.ne']; congr 1; field_simp; norm_num
  refine ⟨⟨60000000 / a, hA, by positivity, ?_⟩, ?_⟩
  · unfold tempoToQpm
    rw [if_neg (by positivity)]
    congr 1; field_simp; norm_num
  · intro qa qb h1 h2
    rw [hA] at h1; rw [hB] at h2
    obtain rfl := Except.ok.inj h1
    obtain rfl := Except.ok.inj h2
    rw [div_lt_div_iff₀ ha hb]
    constructor <;> intro h <;> linarith

/-! ## C77 `ppq_to_qpm` -/

/-- C77 is false: `ppq_to_qpm` returns `60 / ppq` whatever the tempo is. -/
theorem C77_ppq_to_qpm_ignores_tempo (ppq tempo tpb : ℚ) (hp : ppq ≠ 0) (ht : tempo ≠ 0)
    (hb : tpb ≠ 0) : ppqToQpm ppq tempo tpb = .ok (60 / ppq) := by
  unfold ppqToQpm
  simp only []
  have hd : tpb * tempo * (1 / 1000000) ≠ 0 := by
    refine mul_ne_zero (mul_ne_zero hb ht) (by norm_num)
  rw [if_neg hd, if_neg (mul_ne_zero (one_div_ne_zero hd) hp)]
  congr 1
  field_simp

example : ppqToQpm 480 500000 4 = .ok (1/8) ∧ tempoToQpm 500000 = .ok 120 := by decide +kernel

/-! ## C14 time signatures -/

/-- C14: exactly positive numerators and power-of-two denominators are accepted. -/
theorem C14_construct (time : ℚ) (n d : Int) :
    ((∃ t, TimeSig.mk? time n d = .ok t) ↔ 1 ≤ n ∧ ∃ k : Nat, d = 2 ^ k) ∧
    (∀ t, TimeSig.mk? time n d = .ok t → t.time = time ∧ t.numer = n ∧ t.denom = d ∧ t.seq = 0) ∧
    (∀ e, TimeSig.mk? time n d = .error e → e = .value) := by
  unfold TimeSig.mk?
  by_cases h1 : d ≤ 0 ∨ n ≤ 0
  · rw [if_pos h1]
    refine ⟨⟨fun ⟨t, ht⟩ => (by cases ht), ?_⟩, by simp, by rintro e ⟨⟩; rfl⟩
    rintro ⟨hn, k, rfl⟩
    have : (0 : Int) < 2 ^ k := by positivity
    omega
  · rw [if_neg h1]
    by_cases h2 : denomOk d = true
    · rw [if_neg (not_not.2 h2)]
      refine ⟨⟨fun _ => ⟨by omega, (denomOk_iff d).1 h2⟩, fun _ => ⟨_, rfl⟩⟩, ?_, by simp⟩
      rintro t ⟨⟩; exact ⟨rfl, rfl, rfl, rfl⟩
    · rw [if_pos h2]
      refine ⟨⟨fun ⟨t, ht⟩ => (by cases ht), ?_⟩, by simp, by rintro e ⟨⟩; rfl⟩
      rintro ⟨_, h⟩; exact absurd ((denomOk_iff d).2 h) h2

theorem ilog2_pow (k : Nat) : ilog2 (2 ^ k) = k := by
  unfold ilog2
  have : ((2 : Int) ^ k).toNat = 2 ^ k := by
    have : ((2 : Int) ^ k) = ((2 ^ k : Nat) : Int) := by push_cast; rfl
    rw [this, Int.toNat_natCast]
  rw [this]
  exact Nat.log2_two_pow

/-- C14: what `beats_per_measure` really returns on every constructible signature: the numerator
for denominator 1 and otherwise `numerator * denominator / 4`. It never raises. -/
theorem C14_beats_value (time : ℚ) (n d : Int) (t : TimeSig) (h : TimeSig.mk? time n d = .ok t) :
    t.beatsPerMeasure = .ok (if d = 1 then (n : ℚ) else (n : ℚ) * d / 4) := by
  obtain ⟨h1, h2, _⟩ := C14_construct time n d
  obtain ⟨_, hn, hd, _⟩ := h2 t h
  obtain ⟨_, k, hk⟩ := h1.1 ⟨t, h⟩
  unfold TimeSig.beatsPerMeasure
  rw [hn, hd]
  split_ifs with hd1 hp
  · rfl
  · rw [hk, ilog2_pow] at hp; exact absurd rfl hp
  · rw [hk, ilog2_pow]
    congr 1
    rw [zpow_sub₀ (by norm_num : (2:ℚ) ≠ 0), zpow_natCast]
    push_cast; norm_num; ring

/-- C14: the documented rule "the beat is a quarter note and the method returns the
numerator" holds exactly for denominators 1 and 4. Boundary: all other denominators, where it is
false (`C14_beats_documented_false`). -/
theorem C14_beats_documented_iff (time : ℚ) (n d : Int) (t : TimeSig) (h : TimeSig.mk? time n d = .ok t) :
    t.beatsPerMeasure = .ok (n : ℚ) ↔ d = 1 ∨ d = 4 := by
  rw [C14_beats_value time n d t h]
  have hn : (1 : ℚ) ≤ n := by exact_mod_cast ((C14_construct time n d).1.1 ⟨t, h⟩).1
  simp only [Except.ok.injEq]
  constructor
  · intro he
    split_ifs at he with h1
    · exact Or.inl h1
    · right
      have : (n : ℚ) * ((d : ℚ) - 4) = 0 := by linarith
      rcases mul_eq_zero.1 this with h0 | h0
      · linarith
      · have : (d : ℚ) = ((4 : Int) : ℚ) := by push_cast; linarith
        exact_mod_cast this
  · rintro (rfl | rfl)
    · simp
    · rw [if_neg (by norm_num)]; push_cast; ring

/-- C14 is false on the documented example 6/8: the docstring says 2, the numerator rule says 6,
the length of the measure in quarters is 3, and the code returns 12. -/
theorem C14_beats_documented_false :
    (∃ t, TimeSig.mk? 0 6 8 = .ok t ∧ t.beatsPerMeasure = .ok 12) ∧
    (∃ t, TimeSig.mk? 0 2 2 = .ok t ∧ t.beatsPerMeasure = .ok 1) :=
  ⟨⟨{ time := 0, numer := 6, denom := 8 }, by decide +kernel, by
      rw [C14_beats_value 0 6 8 _ (by decide +kernel)]; norm_num⟩,
    ⟨{ time := 0, numer := 2, denom := 2 }, by decide +kernel, by
      rw [C14_beats_value 0 2 2 _ (by decide +kernel)]; norm_num⟩⟩

/-! ## C78 order of signatures -/

/-- C78: the order of signatures is asymmetric and irreflexive, compares exact times whenever the
times are further apart than one part in 10^9, and falls back on the sequence number at equal
times. -/
theorem C78_sig_order (ta tb : ℚ) (sa sb : Int) :
    (sigLt ta sa tb sb = true → sigLt tb sb ta sa = false) ∧
    sigLt ta sa ta sa = false ∧
    (1/1000000000 * max |ta| |tb| < |ta - tb| → (sigLt ta sa tb sb = true ↔ ta < tb)) ∧
    (sigLt ta sa ta sb = true ↔ sa < sb) := by
  have habs : (0 : ℚ) ≤ 1/1000000000 * max |ta| |tb| :=
    mul_nonneg (by norm_num) (le_trans (abs_nonneg ta) (le_max_left _ _))
  refine ⟨?_, ?_, ?_, ?_⟩
  · unfold sigLt
    rw [isclose_comm tb ta]
    split_ifs with h
    · simp only [decide_eq_true_eq, decide_eq_false_iff_not]; omega
    · simp only [decide_eq_true_eq, decide_eq_false_iff_not]; intro h; linarith
  · unfold sigLt
    rw [isclose_refl _ _ _ (le_refl _)]
    simp
  · intro h
    have : isclose ta tb (1/1000000000) 0 = false := by
      unfold isclose
      rw [max_eq_left habs]
      simp only [decide_eq_false_iff_not, not_le]
      exact h
    unfold sigLt
    rw [this]; simp
  · unfold sigLt
    rw [isclose_refl _ _ _ (le_refl _)]
    simp

/-- C78 is not transitive: with times that are pairwise close the sequence number decides, with
times apart the time does, so three signatures can form a cycle. -/
theorem C78_sig_order_cycle :
    ∃ a b c : ℚ, sigLt a 2 b 1 = false ∧ sigLt b 1 a 2 = true ∧
      sigLt c 0 b 1 = true ∧ sigLt a 2 c 0 = true :=
  ⟨1000000000, 1000000001, 1000000002, by decide +kernel⟩

/-- C78: on signatures whose times are pairwise equal or further apart than one part in 10^9 the order
is transitive, and so is incomparability (a strict weak order). -/
theorem C78_sig_order_trans (ta tb tc : ℚ) (sa sb sc : Int)
    (hab : ta = tb ∨ 1/1000000000 * max |ta| |tb| < |ta - tb|)
    (hbc : tb = tc ∨ 1/1000000000 * max |tb| |tc| < |tb - tc|)
    (hac : ta = tc ∨ 1/1000000000 * max |ta| |tc| < |ta - tc|) :
    (sigLt ta sa tb sb = true → sigLt tb sb tc sc = true → sigLt ta sa tc sc = true) ∧
    (sigLt ta sa tc sc = true → sigLt ta sa tb sb = true ∨ sigLt tb sb tc sc = true) := by
  have lex : ∀ (a b : ℚ) (i j : Int), (a = b ∨ 1/1000000000 * max |a| |b| < |a - b|) →
      (sigLt a i b j = true ↔ a < b ∨ a = b ∧ i < j) := by
    intro a b i j h
    rcases h with rfl | h
    · rw [(C78_sig_order a a i j).2.2.2]; simp
    · rw [(C78_sig_order a b i j).2.2.1 h]
      constructor
      · exact Or.inl
      · rintro (h' | ⟨rfl, _⟩)
        · exact h'
        · simp at h
          nlinarith [abs_nonneg a]
  rw [lex _ _ _ _ hab, lex _ _ _ _ hbc, lex _ _ _ _ hac]
  constructor
  · rintro (h | ⟨rfl, h⟩) (h' | ⟨rfl, h'⟩)
    · exact Or.inl (h.trans h')
    · exact Or.inl h
    · exact Or.inl h'
    · exact Or.inr ⟨rfl, by omega⟩
  · rintro (h | ⟨rfl, h⟩)
    · rcases lt_trichotomy ta tb with h1 | h1 | h1
      · exact Or.inl (Or.inl h1)
      · exact Or.inr (Or.inl (h1 ▸ h))
      · exact Or.inr (Or.inl (h1.trans h))
    · rcases lt_trichotomy ta tb with h1 | h1 | h1
      · exact Or.inl (Or.inl h1)
      · subst h1
        by_cases h2 : sa < sb
        · exact Or.inl (Or.inr ⟨rfl, h2⟩)
        · exact Or.inr (Or.inr ⟨rfl, by omega⟩)
      · exact Or.inr (Or.inl h1)

example : sigLt 1 5 2 0 = true ∧ (1 : ℚ)/1000000000 * max |1| |2| < |1 - 2| := by decide +kernel

/-- C78: mode byte of a key signature: exactly 0 and 1 are accepted. -/
theorem C78_key_mode (time : ℚ) (key mode : Int) :
    ((∃ k, KeySig.mk? time key mode = .ok k) ↔ mode = 0 ∨ mode = 1) ∧
    (∀ k, KeySig.mk? time key mode = .ok k →
      k.time = time ∧ k.key = key ∧ (k.mode = .major ↔ mode = 0) ∧ (k.mode = .minor ↔ mode = 1)) := by
  unfold KeySig.mk?
  split_ifs with h1 h2
  · refine ⟨⟨fun _ => Or.inl h1, fun _ => ⟨_, rfl⟩⟩, ?_⟩
    rintro k ⟨⟩; simp [h1]
  · refine ⟨⟨fun _ => Or.inr h2, fun _ => ⟨_, rfl⟩⟩, ?_⟩
    rintro k ⟨⟩; simp [h2]
  · refine ⟨⟨fun ⟨t, ht⟩ => (by cases ht), ?_⟩, by simp⟩
    rintro (h | h) <;> contradiction

example : KeySig.mk? 0 5 1 = .ok { time := 0, key := 5, mode := .minor } := by decide +kernel

/-- C14, `measure_length`: the position of the signature times its fraction, so a signature at time 0 has
measure length 0 whatever its fraction is, and the same fraction gives different lengths at different
times. -/
theorem C14_measure_length (time time' : ℚ) (a b : Int) (t t' : TimeSig) (h : TimeSig.mk? time a b = .ok t)
    (h' : TimeSig.mk? time' a b = .ok t') :
    t.measureLength = time * (a / b) ∧ (time = 0 → t.measureLength = 0) ∧
      (t.measureLength = t'.measureLength ↔ time = time') := by
  have hk : ∀ (x : ℚ) (u : TimeSig), TimeSig.mk? x a b = .ok u → u = ⟨x, a, b, 0⟩ ∧ 0 < a ∧ 0 < b := by
    intro x u hu
    unfold TimeSig.mk? at hu
    split at hu
    · cases hu
    · rename_i hc
      split at hu
      · cases hu
      · exact ⟨(Except.ok.inj hu).symm, by omega, by omega⟩
  obtain ⟨rfl, ha, hb⟩ := hk time t h
  obtain ⟨rfl, -, -⟩ := hk time' t' h'
  have ha' : (0 : ℚ) < a := by exact_mod_cast ha
  have hb' : (0 : ℚ) < b := by exact_mod_cast hb
  refine ⟨by simp only [TimeSig.measureLength]; rw [mul_div_assoc], ?_, ?_⟩
  · rintro rfl; simp [TimeSig.measureLength]
  · simp only [TimeSig.measureLength]
    constructor
    · intro he
      field_simp at he
      exact he
    · rintro rfl; rfl

example : (TimeSig.mk? 2 3 4).map TimeSig.measureLength = .ok (3/2) := by decide +kernel

end NGC
