import Verif.FloatShift
import Verif.Float64Lemmas
import Verif.SeqProps

/-!
C161: shifting and stretching with floats.

Specification: `Spec.OnGrid m q` says that `q` is a multiple of `1/2^m` (m may be negative) and at most `2^53` of them, `Spec.IsFloat` that
`q` is a float. All bounds are stated against exact arithmetic.
-/

namespace NGC

namespace Spec

/-- `q` is a float. -/
def IsFloat (q : ℚ) : Prop := ∃ m s : ℤ, |m| ≤ 2 ^ 53 ∧ q = m * (2 : ℚ) ^ s

/-- `q` is one of the multiples `-2^53 .. 2^53` of `1/2^m`. -/
def OnGrid (m : ℤ) (q : ℚ) : Prop := ∃ z : ℤ, |z| ≤ 2 ^ 53 ∧ q = z / (2 : ℚ) ^ m

/-- All times of the sequence, moved by `d`, are on the grid. -/
def SeqOnGrid (m : ℤ) (s : MSeq) (d : ℚ) : Prop :=
  OnGrid m (s.total + d) ∧ ∀ n ∈ s.notes, OnGrid m (n.start + d) ∧ OnGrid m (n.stop + d)

end Spec

theorem b64_onGrid {m : ℤ} {q : ℚ} (h : Spec.OnGrid m q) : b64 q = q := by
  obtain ⟨z, hz, rfl⟩ := h
  have := b64_repr z (-m) hz
  rwa [zpow_neg, ← div_eq_mul_inv] at this

theorem b64_float {q : ℚ} (h : Spec.IsFloat q) : b64 q = q := by
  obtain ⟨m, s, hm, rfl⟩ := h
  exact b64_repr m s hm

/-- C161 (accuracy): each time is the exact one up to half a unit in the last place (one part in 2^53); everything else of the note is
kept. -/
theorem C161_accuracy (n : Note) (d k : ℚ) :
    |(n.shiftF d).start - (n.start + d)| ≤ |n.start + d| / 2 ^ 53 ∧
    |(n.shiftF d).stop - (n.stop + d)| ≤ |n.stop + d| / 2 ^ 53 ∧
    |(n.stretchF k).start - n.start * k| ≤ |n.start * k| / 2 ^ 53 ∧
    |(n.stretchF k).stop - n.stop * k| ≤ |n.stop * k| / 2 ^ 53 ∧
    { n.shiftF d with start := n.start, stop := n.stop } = n ∧
    { n.stretchF k with start := n.start, stop := n.stop } = n := by
  refine ⟨?_, ?_, ?_, ?_, rfl, rfl⟩
  all_goals
    rw [abs_sub_comm]
    exact b64_err _

/-- C161 (order): among notes moved by the same offset, or stretched by the same non-negative factor, no two times change places; so a
note never ends before it starts and a sorted list stays sorted. -/
theorem C161_order (a b : Note) (d k : ℚ) (hk : 0 ≤ k) :
    (a.start ≤ b.start → (a.shiftF d).start ≤ (b.shiftF d).start ∧ (a.stretchF k).start ≤ (b.stretchF k).start) ∧
    (a.start ≤ b.stop → (a.shiftF d).start ≤ (b.shiftF d).stop ∧ (a.stretchF k).start ≤ (b.stretchF k).stop) ∧
    (a.stop ≤ b.start → (a.shiftF d).stop ≤ (b.shiftF d).start ∧ (a.stretchF k).stop ≤ (b.stretchF k).start) ∧
    (a.stop ≤ b.stop → (a.shiftF d).stop ≤ (b.shiftF d).stop ∧ (a.stretchF k).stop ≤ (b.stretchF k).stop) := by
  refine ⟨fun h => ⟨?_, ?_⟩, fun h => ⟨?_, ?_⟩, fun h => ⟨?_, ?_⟩, fun h => ⟨?_, ?_⟩⟩
  all_goals first
    | exact b64_mono (by linarith)
    | exact b64_mono (mul_le_mul_of_nonneg_right h hk)

/-- Two exact results further apart than one part in 2^52 are rounded to different floats. -/
theorem b64_lt_of_gap {x y : ℚ} (h : (|x| + |y|) / 2 ^ 53 < y - x) : b64 x < b64 y := by
  have hx := abs_le.1 (b64_err x)
  have hy := abs_le.1 (b64_err y)
  have : (|x| + |y|) / 2 ^ 53 = |x| / 2 ^ 53 + |y| / 2 ^ 53 := by ring
  have h1 := hx.1
  have h2 := hy.2
  rw [this] at h
  linarith

/-- C161 (notes do not vanish): a note moved to non-negative times is still longer than nothing if it lasts more than one part in 2^52 of
its new end (a microsecond for an end within 142 years); stretched by a positive factor, if it lasts more than one part in 2^52 of its own
end. -/
theorem C161_stays_valid (n : Note) (d k : ℚ) (h : n.start < n.stop) :
    (0 ≤ n.start + d → (n.stop + d) / 2 ^ 52 < n.stop - n.start → (n.shiftF d).start < (n.shiftF d).stop) ∧
    (0 ≤ n.start → 0 < k → n.stop / 2 ^ 52 < n.stop - n.start → (n.stretchF k).start < (n.stretchF k).stop) := by
  constructor
  · intro h0 hg
    apply b64_lt_of_gap
    rw [abs_of_nonneg h0, abs_of_nonneg (by linarith : (0 : ℚ) ≤ n.stop + d)]
    have : (n.stop + d) / 2 ^ 52 = 2 * (n.stop + d) / 2 ^ 53 := by ring
    rw [this] at hg
    have : (n.start + d + (n.stop + d)) / 2 ^ 53 ≤ 2 * (n.stop + d) / 2 ^ 53 :=
      div_le_div_of_nonneg_right (by linarith) (by norm_num)
    linarith
  · intro h0 hk hg
    apply b64_lt_of_gap
    have hs : 0 ≤ n.stop := by linarith
    rw [abs_of_nonneg (mul_nonneg h0 hk.le), abs_of_nonneg (mul_nonneg hs hk.le)]
    have e1 : n.stop * k - n.start * k = (n.stop - n.start) * k := by ring
    have e2 : (n.start * k + n.stop * k) / 2 ^ 53 = ((n.start + n.stop) / 2 ^ 53) * k := by ring
    rw [e1, e2]
    apply mul_lt_mul_of_pos_right _ hk
    have : n.stop / 2 ^ 52 = 2 * n.stop / 2 ^ 53 := by ring
    rw [this] at hg
    have : (n.start + n.stop) / 2 ^ 53 ≤ 2 * n.stop / 2 ^ 53 :=
      div_le_div_of_nonneg_right (by linarith) (by norm_num)
    linarith

/-- C161 (there and back): moving by `d` and back by `d` gives the old times up to one part in 2^53 of the moved times and of themselves. -/
theorem C161_shift_back (n : Note) (d : ℚ) :
    |((n.shiftF d).shiftF (-d)).start - n.start| ≤ (|n.start + d| + |(n.shiftF d).start - d|) / 2 ^ 53 ∧
    |((n.shiftF d).shiftF (-d)).stop - n.stop| ≤ (|n.stop + d| + |(n.shiftF d).stop - d|) / 2 ^ 53 := by
  have key : ∀ x : ℚ, |b64 (b64 (x + d) + -d) - x| ≤ (|x + d| + |b64 (x + d) - d|) / 2 ^ 53 := by
    intro x
    have h1 := abs_le.1 (b64_err (x + d))
    have h2 := abs_le.1 (b64_err (b64 (x + d) + -d))
    rw [← sub_eq_add_neg] at h2 ⊢
    have e : (|x + d| + |b64 (x + d) - d|) / 2 ^ 53 = |x + d| / 2 ^ 53 + |b64 (x + d) - d| / 2 ^ 53 := by ring
    rw [e, abs_le]
    constructor <;> linarith [h1.1, h1.2, h2.1, h2.2]
  exact ⟨key n.start, key n.stop⟩

/-- C161 (exact cases): if the times that arise are multiples of some power of two and at most 2^53 of it, shifting is exact arithmetic and
shifting back restores the note; stretching by a power of two is exact for all floats and its inverse restores the note. -/
theorem C161_exact (n : Note) (m : ℤ) (d : ℚ) (e : ℤ) :
    (Spec.OnGrid m (n.start + d) → Spec.OnGrid m (n.stop + d) → n.shiftF d = n.shift d ∧
      (Spec.IsFloat n.start → Spec.IsFloat n.stop → (n.shiftF d).shiftF (-d) = n)) ∧
    (Spec.IsFloat n.start → Spec.IsFloat n.stop →
      n.stretchF (2 ^ e) = n.stretch (2 ^ e) ∧ (n.stretchF (2 ^ e)).stretchF (2 ^ (-e)) = n) := by
  constructor
  · intro h1 h2
    refine ⟨?_, fun f1 f2 => ?_⟩
    · simp only [Note.shiftF, Note.shift, b64_onGrid h1, b64_onGrid h2]
    · simp only [Note.shiftF, b64_onGrid h1, b64_onGrid h2, add_neg_cancel_right, b64_float f1, b64_float f2]
  · intro f1 f2
    have hp : ∀ x, Spec.IsFloat x → b64 (x * 2 ^ e) = x * 2 ^ e := by
      rintro x ⟨z, s, hz, rfl⟩
      rw [mul_assoc, ← zpow_add₀ (by norm_num : (2 : ℚ) ≠ 0)]
      exact b64_repr z (s + e) hz
    have hq : ∀ x : ℚ, x * 2 ^ e * 2 ^ (-e) = x := by
      intro x
      rw [mul_assoc, ← zpow_add₀ (by norm_num : (2 : ℚ) ≠ 0)]
      simp
    refine ⟨?_, ?_⟩
    · simp only [Note.stretchF, Note.stretch, hp _ f1, hp _ f2]
    · simp only [Note.stretchF, hp _ f1, hp _ f2, hq, b64_float f1, b64_float f2]

/-- C161 (drift): after `k` shifts by `d` of a note at non-negative times, a time is off by at most `k` parts in 2^52 of the exact one. -/
theorem C161_drift (n : Note) (d : ℚ) (hd : 0 ≤ d) (h0 : 0 ≤ n.start) (h1 : 0 ≤ n.stop) (k : Nat) (hk : k ≤ 2 ^ 52) :
    |(((fun n : Note => n.shiftF d)^[k]) n).start - (n.start + k * d)| ≤ k * ((n.start + k * d) / 2 ^ 52) ∧
    |(((fun n : Note => n.shiftF d)^[k]) n).stop - (n.stop + k * d)| ≤ k * ((n.stop + k * d) / 2 ^ 52) := by
  have step : ∀ (x t : ℚ) (k : Nat), k + 1 ≤ 2 ^ 52 → 0 ≤ t → |x - (t + k * d)| ≤ k * ((t + k * d) / 2 ^ 52) →
      |b64 (x + d) - (t + (k + 1 : Nat) * d)| ≤ (k + 1 : Nat) * ((t + (k + 1 : Nat) * d) / 2 ^ 52) := by
    intro x t k hk ht hx
    have hb := b64_err (x + d)
    have hkq : (k : ℚ) + 1 ≤ 2 ^ 52 := by exact_mod_cast hk
    push_cast
    set T : ℚ := t + (k + 1) * d with hT
    have hT0 : 0 ≤ T := by positivity
    have hle : t + k * d ≤ T := by rw [hT]; nlinarith
    have e0 : |x - (t + k * d)| ≤ k * (T / 2 ^ 52) := by
      refine hx.trans (mul_le_mul_of_nonneg_left ?_ (by positivity))
      exact div_le_div_of_nonneg_right hle (by norm_num)
    have e1 : x + d - T = x - (t + k * d) := by rw [hT]; ring
    have e2 : |x + d| ≤ T + k * (T / 2 ^ 52) := by
      have : x + d = T + (x + d - T) := by ring
      rw [this, e1]
      refine (abs_add_le _ _).trans ?_
      rw [abs_of_nonneg hT0]
      linarith
    have e3 : (k : ℚ) * (T / 2 ^ 52) ≤ T := by
      have : (k : ℚ) * (T / 2 ^ 52) = (k / 2 ^ 52) * T := by ring
      rw [this]
      have : (k : ℚ) / 2 ^ 52 ≤ 1 := by rw [div_le_one (by norm_num)]; linarith
      nlinarith
    have e4 : |x + d| / 2 ^ 53 ≤ T / 2 ^ 52 := by
      have : T / 2 ^ 52 = (T + T) / 2 ^ 53 := by ring
      rw [this]
      exact div_le_div_of_nonneg_right (by linarith) (by norm_num)
    have e5 : b64 (x + d) - T = -(x + d - b64 (x + d)) + (x + d - T) := by ring
    rw [e5]
    refine (abs_add_le _ _).trans ?_
    rw [abs_neg, e1]
    have : ((k : ℚ) + 1) * (T / 2 ^ 52) = T / 2 ^ 52 + k * (T / 2 ^ 52) := by ring
    rw [this]
    linarith
  induction k with
  | zero => simp
  | succ k ih =>
    obtain ⟨i1, i2⟩ := ih (by omega)
    rw [Function.iterate_succ_apply']
    exact ⟨step _ _ k hk h0 i1, step _ _ k hk h1 i2⟩

/-- C161 (sequences): `shift_times` raises ValueError exactly if all notes are quantized; otherwise every note is moved, the total time too
(not below 0), and a total time that covered the notes still does. On a grid the result is that of exact arithmetic. -/
theorem C161_sequence (s : MSeq) (d : ℚ) :
    (s.shiftTimesF d = .error .value ↔ ∀ n ∈ s.notes, n.isQuantized = true) ∧
    (∀ r, s.shiftTimesF d = .ok r → r.notes = s.notes.map (fun n => n.shiftF d) ∧ r.total = max 0 (b64 (s.total + d)) ∧
      r.instr = s.instr ∧ (Spec.Covers s → Spec.Covers r)) ∧
    (∀ m, Spec.SeqOnGrid m s d → s.shiftTimesF d = s.shiftTimes d) := by
  refine ⟨?_, ?_, ?_⟩
  · unfold MSeq.shiftTimesF MSeq.isQuantized
    rw [← List.all_eq_true]
    split
    · rename_i h; exact ⟨fun _ => h, fun _ => rfl⟩
    · rename_i h; exact ⟨fun e => (nomatch e), fun e => absurd e h⟩
  · intro r hr
    unfold MSeq.shiftTimesF at hr
    split at hr
    · cases hr
    · cases hr
      refine ⟨by simp, by simp, by simp, fun hc => ⟨le_max_left _ _, ?_⟩⟩
      intro n hn
      simp only [notes_setTotal, notes_setVisible, List.mem_map] at hn
      obtain ⟨a, ha, rfl⟩ := hn
      refine le_max_of_le_right ?_
      exact b64_mono (by linarith [hc.2 a ha])
  · intro m hg
    unfold MSeq.shiftTimesF MSeq.shiftTimes
    have hm : s.notes.map (fun n => n.shiftF d) = s.notes.map (fun n => n.shift d) := by
      apply List.map_congr_left
      intro n hn
      exact ((C161_exact n m d 0).1 (hg.2 n hn).1 (hg.2 n hn).2).1
    rw [hm, b64_onGrid hg.1]

/-- C161 (sequences, stretch): every note is stretched; the total time is the end of the last note (0 without notes), so it covers them; by
a power of two the notes are those of exact arithmetic. -/
theorem C161_sequence_stretch (s : MSeq) (k : ℚ) :
    (s.stretchF k).notes = s.notes.map (fun n => n.stretchF k) ∧ Spec.Covers (s.stretchF k) ∧
    ((s.stretchF k).total = 0 ∨ ∃ n ∈ (s.stretchF k).notes, n.stop = (s.stretchF k).total) ∧
    (∀ e : ℤ, (∀ n ∈ s.notes, Spec.IsFloat n.start ∧ Spec.IsFloat n.stop) → s.stretchF (2 ^ e) = s.stretch (2 ^ e)) := by
  have hn : (s.stretchF k).notes = s.notes.map (fun n => n.stretchF k) := by
    simp [MSeq.stretchF, MSeq.adjustTotal]
  have ht : (s.stretchF k).total = max 0 (maxEnd (s.stretchF k).notes) := by
    simp [MSeq.stretchF, MSeq.adjustTotal]
  refine ⟨hn, covers_of_maxEnd _ ht, ?_, ?_⟩
  · rw [ht]
    rcases max_choice 0 (maxEnd (s.stretchF k).notes) with h | h
    · exact Or.inl h
    · rw [h]
      cases hl : (s.stretchF k).notes with
      | nil => exact Or.inl rfl
      | cons a l =>
        right
        exact maxEnd_mem _ (by simp)
  · intro e hf
    unfold MSeq.stretchF MSeq.stretch
    congr 2
    apply List.map_congr_left
    intro n hn
    exact ((C161_exact n 0 0 e).2 (hf n hn).1 (hf n hn).2).1

/-- C161 (end of the last event): the answer is the end of some note (0 without notes) plus the offset, rounded, and no note moved by the
offset ends after it. -/
theorem C161_last_event (s : MSeq) (offset : ℚ) :
    (∃ e, s.lastEventF offset = b64 (e + offset) ∧ ((s.notes = [] ∧ e = 0) ∨ ∃ n ∈ s.notes, n.stop = e)) ∧
    ∀ n ∈ s.notes, (n.shiftF offset).stop ≤ s.lastEventF offset := by
  refine ⟨⟨maxEnd s.notes, rfl, ?_⟩, fun n hn => b64_mono (by linarith [maxEnd_ge _ n hn])⟩
  by_cases h : s.notes = []
  · left; exact ⟨h, by rw [h]; rfl⟩
  · exact Or.inr (maxEnd_mem _ h)

/-- Defects: a valid note a billionth of a second long has length 0 after a shift by 2^24 seconds (194 days), without an error, and a shift back does not help;
1.88 s and the next float end at the same time when stretched by 1.08; ten shifts by 0.1 s are not a shift by 1 s; a shift by 0.2 s
and back changes 0.1 s; stretching by 3/2 and by 2/3 changes 0.01 s. -/
theorem C161_defects :
    (let n := { exNote with start := 0, stop := 1 / 2 ^ 30 }
     n.start < n.stop ∧ (n.shiftF (2 ^ 24)).start = (n.shiftF (2 ^ 24)).stop ∧
      ((n.shiftF (2 ^ 24)).shiftF (-2 ^ 24)).start = ((n.shiftF (2 ^ 24)).shiftF (-2 ^ 24)).stop) ∧
    (let n := { exNote with start := b64 (188 / 100), stop := b64 (188 / 100) + 1 / 2 ^ 52 }
     n.start < n.stop ∧ (n.stretchF (b64 (108 / 100))).start = (n.stretchF (b64 (108 / 100))).stop) ∧
    (let n := { exNote with start := 0, stop := 1 }
     (((fun n : Note => n.shiftF (b64 (1 / 10)))^[10]) n).start = 1 - 1 / 2 ^ 53) ∧
    (let n := { exNote with start := b64 (1 / 10), stop := 1 }
     ((n.shiftF (b64 (1 / 5))).shiftF (-b64 (1 / 5))).start ≠ n.start) ∧
    (let n := { exNote with start := b64 (1 / 100), stop := 1 }
     ((n.stretchF (3 / 2)).stretchF (b64 (2 / 3))).start ≠ n.start) := by
  decide +kernel

example : Spec.OnGrid 10 ((3 : ℚ) / 4 + 5) ∧ Spec.IsFloat (3 / 4) :=
  ⟨⟨5888, by norm_num, by norm_num⟩, ⟨3, -2, by norm_num, by norm_num [zpow_neg]⟩⟩

example : Spec.SeqOnGrid 0 exSeq 5 := by
  have h : ∀ z : ℤ, |z| ≤ 2 ^ 53 → Spec.OnGrid 0 (z : ℚ) := fun z hz => ⟨z, hz, by simp⟩
  refine ⟨?_, ?_⟩
  · have := h 8 (by norm_num)
    have e : exSeq.total + 5 = ((8 : ℤ) : ℚ) := by decide +kernel
    rw [e]; exact this
  · have hall : ∀ n ∈ exSeq.notes, ∃ a ∈ List.range 20, ∃ b ∈ List.range 20,
        n.start + 5 = ((a : ℤ) : ℚ) ∧ n.stop + 5 = ((b : ℤ) : ℚ) := by decide +kernel
    intro n hn
    obtain ⟨a, ha, b, hb, e1, e2⟩ := hall n hn
    rw [List.mem_range] at ha hb
    rw [e1, e2]
    refine ⟨h _ ?_, h _ ?_⟩ <;> rw [abs_of_nonneg (by positivity)] <;> omega

end NGC
