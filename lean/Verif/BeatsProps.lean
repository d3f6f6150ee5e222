import Verif.Beats
import Verif.TimesProps
import Verif.ReaderProps2
import Mathlib.Tactic.Linarith
import Mathlib.Tactic.FieldSimp
import Mathlib.Tactic.Ring
import Mathlib.Tactic.Positivity

/-! C123: the beats. -/

namespace NGC

/-! ### Specification -/

namespace Spec

/-- Beats per quarter note under a time signature (none: the beat is the quarter note). The beat is the note of the
denominator, three of them in compound metres, and the quarter note for unusual denominators. -/
def metre : Option (Int × Int × ℚ) → ℚ
  | none => 1
  | some (num, den, _) =>
    if den ∈ [1, 2, 4, 8, 16, 32] then (if num % 3 = 0 ∧ num ≠ 3 then 1/3 else 1) * den / 4 else 1

/-- The number of beats (with `f` beats per quarter note) from time `a` to time `t`, if the tempo is `q` quarter notes per
minute at `a` and changes later as listed (time, tempo). -/
def elapsed (f : ℚ) : ℚ → List (ℚ × ℚ) → ℚ → ℚ → ℚ
  | q, [], a, t => (t - a) * (q * f) / 60
  | q, (c, q') :: rest, a, t =>
    if t ≤ c then (t - a) * (q * f) / 60 else (c - a) * (q * f) / 60 + elapsed f q' rest c t

/-- From time `a` on: the tempo is positive, changes are after `a`, in order, to positive tempos. -/
structure TempoFrom (a q : ℚ) (rest : List (ℚ × ℚ)) : Prop where
  pos : 0 < q
  posRest : ∀ p ∈ rest, 0 < p.2
  after : ∀ p ∈ rest, a ≤ p.1
  order : rest.Pairwise (fun p r => p.1 ≤ r.1)

/-- Quarter notes from the first entry of a tempo list (time, quarter notes per minute) to time `t`. -/
def quarters : List (ℚ × ℚ) → ℚ → ℚ
  | [], _ => 0
  | (c, q) :: rest, t => elapsed 1 q rest c t

/-- A tempo list: not empty, tempos positive, times in order. -/
structure TempoList (tempi : List (ℚ × ℚ)) : Prop where
  ne : tempi ≠ []
  pos : ∀ p ∈ tempi, 0 < p.2
  order : tempi.Pairwise (fun p r => p.1 ≤ r.1)

/-- Equal up to the tolerance of numpy: 10⁻⁸ plus 10⁻⁵ of the second. -/
def Close (a b : ℚ) : Prop := |a - b| ≤ 1/100000000 + 1/100000 * |b|

/-- Time signature (numerator, denominator, time) in force at time `b`: the last one at or before `b`; before all of them,
the first. -/
def InForce (tss : List (Int × Int × ℚ)) (b : ℚ) (y : Int × Int × ℚ) : Prop :=
  y ∈ tss ∧ ((y.2.2 ≤ b ∧ ∀ z ∈ tss, z.2.2 ≤ b → z.2.2 ≤ y.2.2) ∨ ∀ z ∈ tss, b < z.2.2 ∧ y.2.2 ≤ z.2.2)

/-- Beats per quarter note at time `b`. -/
def MetreAt (tss : List (Int × Int × ℚ)) (b f : ℚ) : Prop :=
  (tss = [] ∧ f = 1) ∨ ∃ y, InForce tss b y ∧ f = metre (some y)

/-- The beat after the beat at `b`: one beat later in the metre in force at `b`, unless there is a time signature after `b`
at or before that time, or close to it; then the time of the first one. -/
def NextBeat (tempi : List (ℚ × ℚ)) (tss : List (Int × Int × ℚ)) (b b' : ℚ) : Prop :=
  ∃ f T, MetreAt tss b f ∧ b < T ∧ f * (quarters tempi T - quarters tempi b) = 1 ∧
    ((b' = T ∧ ∀ y ∈ tss, b < y.2.2 → T < y.2.2 ∧ ¬ Close T y.2.2) ∨
     (∃ y ∈ tss, b' = y.2.2 ∧ b < b' ∧ (b' ≤ T ∨ Close T b') ∧ ∀ z ∈ tss, b < z.2.2 → b' ≤ z.2.2))

/-- The beats from `b` up to, not including, `stop`. -/
def Beats (tempi : List (ℚ × ℚ)) (tss : List (Int × Int × ℚ)) (stop : ℚ) : ℚ → List ℚ → Prop
  | b, [] => stop ≤ b
  | b, x :: l => x = b ∧ b < stop ∧ ∃ b', NextBeat tempi tss b b' ∧ Beats tempi tss stop b' l

/-- Time signatures are at different times, not too close to each other; no tempo change is just before one; and after one
there is at least one beat, in any of the metres, before the tempo changes. -/
structure Tame (tempi : List (ℚ × ℚ)) (tss : List (Int × Int × ℚ)) : Prop where
  tempo : TempoList tempi
  good : ∀ y ∈ tss, 0 < y.1 ∧ 0 < y.2.1
  distinct : (tss.map (fun y => y.2.2)).Nodup
  apart : ∀ y ∈ tss, ∀ z ∈ tss, y.2.2 < z.2.2 → ¬ Close y.2.2 z.2.2
  before : ∀ y ∈ tss, ∀ p ∈ tempi, p.1 < y.2.2 → ¬ Close p.1 y.2.2
  after : ∀ y ∈ tss, ∀ p ∈ tempi, y.2.2 < p.1 → ∀ z ∈ tss,
    1 ≤ metre (some z) * (quarters tempi p.1 - quarters tempi y.2.2)

end Spec

open Spec (metre elapsed TempoFrom quarters TempoList Close MetreAt InForce NextBeat Tame)

/-! ### Tempo alone -/

theorem elapsed_cons (f q c q' : ℚ) (rest : List (ℚ × ℚ)) (a t : ℚ) : elapsed f q ((c, q') :: rest) a t =
    if t ≤ c then (t - a) * (q * f) / 60 else (c - a) * (q * f) / 60 + elapsed f q' rest c t := rfl

theorem beatBpm_eq (q : ℚ) (hq : 0 < q) (x : Int × Int × ℚ) (h1 : 0 < x.1) (h2 : 0 < x.2.1) :
    beatBpm q x.1 x.2.1 = .ok (q * metre (some x)) := by
  obtain ⟨num, den, t⟩ := x
  unfold beatBpm metre
  dsimp only at *
  rw [if_neg (by simp [hq, h1, h2])]
  by_cases hd : den ∈ [1, 2, 4, 8, 16, 32]
  · rw [if_pos hd, if_pos hd]
    by_cases h3 : num = 3
    · rw [if_pos h3, if_neg (by simp [h3])]
      congr 1; ring
    · rw [if_neg h3]
      by_cases hm : num % 3 = 0
      · rw [if_pos hm, if_pos ⟨hm, h3⟩]; congr 1; ring
      · rw [if_neg hm, if_neg (by simp [hm])]; congr 1; ring
  · rw [if_neg hd, if_neg hd]; congr 1; ring

/-- Numerator and denominator are positive. -/
def GoodTs (ts : Option (Int × Int × ℚ)) : Prop := ∀ x, ts = some x → 0 < x.1 ∧ 0 < x.2.1

theorem bpmOf_eq (q : ℚ) (hq : 0 < q) (ts : Option (Int × Int × ℚ)) (h : GoodTs ts) :
    bpmOf q ts = .ok (q * metre ts) := by
  cases ts with
  | none => simp [bpmOf, metre]
  | some x => exact beatBpm_eq q hq x (h x rfl).1 (h x rfl).2

theorem metre_pos (ts : Option (Int × Int × ℚ)) (h : GoodTs ts) : 0 < metre ts := by
  cases ts with
  | none => simp [metre]
  | some x =>
    obtain ⟨num, den, t⟩ := x
    have hd := (h _ rfl).2
    dsimp only at hd
    have : (0:ℚ) < den := by exact_mod_cast hd
    unfold metre
    dsimp only
    split
    · split <;> positivity
    · norm_num

theorem elapsed_self (f q : ℚ) (rest : List (ℚ × ℚ)) (a : ℚ) (h : ∀ p ∈ rest, a ≤ p.1) : elapsed f q rest a a = 0 := by
  cases rest with
  | nil => simp [elapsed]
  | cons p rest =>
    obtain ⟨c, q'⟩ := p
    unfold elapsed
    rw [if_pos (h (c, q') (by simp))]; simp

theorem elapsed_strict (f : ℚ) (hf : 0 < f) : ∀ (rest : List (ℚ × ℚ)) (q a : ℚ), TempoFrom a q rest → ∀ t u, t < u →
    elapsed f q rest a t < elapsed f q rest a u := by
  intro rest
  induction rest with
  | nil =>
    intro q a h t u htu
    unfold elapsed
    have := mul_pos h.pos hf
    have h2 : (t - a) * (q * f) < (u - a) * (q * f) := mul_lt_mul_of_pos_right (by linarith) this
    linarith
  | cons p rest ih =>
    obtain ⟨c, q'⟩ := p
    intro q a h t u htu
    have hb := mul_pos h.pos hf
    have h' : TempoFrom c q' rest := ⟨h.posRest (c, q') List.mem_cons_self, fun p hp => h.posRest p (by simp [hp]),
      fun p hp => (List.pairwise_cons.1 h.order).1 p hp, (List.pairwise_cons.1 h.order).2⟩
    unfold elapsed
    by_cases hu : u ≤ c
    · rw [if_pos hu, if_pos (by linarith)]
      have h2 : (t - a) * (q * f) < (u - a) * (q * f) := mul_lt_mul_of_pos_right (by linarith) hb
      linarith
    · rw [if_neg hu]
      by_cases ht : t ≤ c
      · rw [if_pos ht]
        have e1 := ih q' c h' c u (not_le.1 hu)
        rw [elapsed_self f q' rest c h'.after] at e1
        have h2 : (t - a) * (q * f) ≤ (c - a) * (q * f) := mul_le_mul_of_nonneg_right (by linarith) hb.le
        linarith
      · rw [if_neg ht]
        have := ih q' c h' t u htu
        linarith

/-- The number of beats is at most what the highest tempo gives. -/
theorem elapsed_le (f Q : ℚ) (hf : 0 < f) : ∀ (rest : List (ℚ × ℚ)) (q a : ℚ), TempoFrom a q rest → q ≤ Q →
    (∀ p ∈ rest, p.2 ≤ Q) → ∀ t, a ≤ t → elapsed f q rest a t ≤ (t - a) * (Q * f) / 60 := by
  intro rest
  induction rest with
  | nil =>
    intro q a h hq _ t ht
    unfold elapsed
    have h1 : q * f ≤ Q * f := mul_le_mul_of_nonneg_right hq hf.le
    have := mul_le_mul_of_nonneg_left h1 (sub_nonneg.2 ht)
    linarith
  | cons p rest ih =>
    obtain ⟨c, q'⟩ := p
    intro q a h hq hr t ht
    have h' : TempoFrom c q' rest := ⟨h.posRest (c, q') List.mem_cons_self, fun p hp => h.posRest p (by simp [hp]),
      fun p hp => (List.pairwise_cons.1 h.order).1 p hp, (List.pairwise_cons.1 h.order).2⟩
    have h1 : q * f ≤ Q * f := mul_le_mul_of_nonneg_right hq hf.le
    unfold elapsed
    split
    · have := mul_le_mul_of_nonneg_left h1 (sub_nonneg.2 ht)
      linarith
    · rename_i hc
      have i1 := ih q' c h' (hr (c, q') List.mem_cons_self) (fun p hp => hr p (by simp [hp])) t (not_le.1 hc).le
      have hac : a ≤ c := h.after (c, q') List.mem_cons_self
      have := mul_le_mul_of_nonneg_left h1 (sub_nonneg.2 hac)
      have e : (t - a) * (Q * f) = (t - c) * (Q * f) + (c - a) * (Q * f) := by ring
      linarith

/-- The later part of a tempo list: unchanged, or from a change at or before `T` on. -/
def Moved (q : ℚ) (rest : List (ℚ × ℚ)) (T q' : ℚ) (rest' : List (ℚ × ℚ)) : Prop :=
  (q' = q ∧ rest' = rest) ∨ ∃ pre c, rest = pre ++ (c, q') :: rest' ∧ c ≤ T

/-- The inner loop finds the time at which the beat is over. -/
theorem cross_spec (ts : Option (Int × Int × ℚ)) (hts : GoodTs ts) : ∀ (rest : List (ℚ × ℚ)) (nb rem q : ℚ),
    TempoFrom nb q rest → 0 ≤ rem →
    ∃ nb' rem' q' rest', cross ts nb rem (q * metre ts) q rest = .ok (nb', rem', q' * metre ts, q', rest') ∧
      Moved q rest (nb' + rem' * 60 / (q' * metre ts)) q' rest' ∧
      nb ≤ nb' + rem' * 60 / (q' * metre ts) ∧ TempoFrom (nb' + rem' * 60 / (q' * metre ts)) q' rest' ∧
      ∀ t, nb' + rem' * 60 / (q' * metre ts) ≤ t →
        elapsed (metre ts) q rest nb t = rem + elapsed (metre ts) q' rest' (nb' + rem' * 60 / (q' * metre ts)) t := by
  have hf := metre_pos ts hts
  intro rest
  induction rest with
  | nil =>
    intro nb rem q h hr
    have hb := mul_pos h.pos hf
    have hq0 : q ≠ 0 := h.pos.ne'
    refine ⟨nb, rem, q, [], rfl, Or.inl ⟨rfl, rfl⟩, ?_, ⟨h.pos, by simp, by simp, by simp⟩, ?_⟩
    · have : 0 ≤ rem * 60 / (q * metre ts) := by positivity
      linarith
    · intro t _
      unfold elapsed
      field_simp
      ring
  | cons p rest ih =>
    obtain ⟨c, qc⟩ := p
    intro nb rem q h hr
    have hb := mul_pos h.pos hf
    have hq0 : q ≠ 0 := h.pos.ne'
    have hac : nb ≤ c := h.after (c, qc) List.mem_cons_self
    have h' : TempoFrom c qc rest := ⟨h.posRest (c, qc) List.mem_cons_self, fun p hp => h.posRest p (by simp [hp]),
      fun p hp => (List.pairwise_cons.1 h.order).1 p hp, (List.pairwise_cons.1 h.order).2⟩
    rw [cross]
    split
    · rename_i hc
      have hqc : 0 < qc := h'.pos
      rw [bpmOf_eq qc hqc ts hts]
      have e1 : nb + (c - nb) / (60 / (q * metre ts)) * 60 / (q * metre ts) = c := by field_simp; ring
      have hrem : 0 ≤ rem - (c - nb) / (60 / (q * metre ts)) := by
        have e2 : (c - nb) / (60 / (q * metre ts)) = (c - nb) * (q * metre ts) / 60 := by field_simp
        rw [e2]
        have h3 : c - nb ≤ rem * 60 / (q * metre ts) := by linarith
        rw [le_div_iff₀ hb] at h3
        linarith
      obtain ⟨nb', rem', q', rest', g1, g2, g4, g5, g7⟩ := ih c (rem - (c - nb) / (60 / (q * metre ts))) qc h' hrem
      refine ⟨nb', rem', q', rest', ?_, Or.inr ?_, le_trans hac g4, g5, ?_⟩
      · dsimp only [bind, Except.bind]
        rw [e1]
        exact g1
      · rcases g2 with ⟨rfl, rfl⟩ | ⟨pre, c', e, hle⟩
        · exact ⟨[], c, rfl, g4⟩
        · exact ⟨(c, qc) :: pre, c', by rw [e]; rfl, hle⟩
      · intro t ht
        have hct : c ≤ t := le_trans g4 ht
        have g7' := g7 t ht
        rw [elapsed_cons]
        split
        · rename_i htc
          have : t = c := le_antisymm htc hct
          subst this
          have h0 := elapsed_self (metre ts) qc rest t h'.after
          rw [h0] at g7'
          have e2 : (t - nb) / (60 / (q * metre ts)) = (t - nb) * (q * metre ts) / 60 := by field_simp
          rw [e2] at g7'
          linarith
        · rw [g7']
          have e2 : (c - nb) / (60 / (q * metre ts)) = (c - nb) * (q * metre ts) / 60 := by field_simp
          rw [e2]
          ring
    · rename_i hc
      have hc' := not_le.1 hc
      refine ⟨nb, rem, q, (c, qc) :: rest, rfl, Or.inl ⟨rfl, rfl⟩, ?_, ⟨h.pos, h.posRest, ?_, h.order⟩, ?_⟩
      · have : 0 ≤ rem * 60 / (q * metre ts) := by positivity
        linarith
      · intro p hp
        rcases List.mem_cons.1 hp with rfl | hp
        · exact hc'.le
        · exact le_trans hc'.le (h'.after p hp)
      · intro t _
        rw [elapsed_cons, elapsed_cons]
        split
        · field_simp
          ring
        · field_simp
          ring

/-- One beat by the tempo alone. -/
theorem tempoBeat_spec (s : BeatSt) (hts : GoodTs s.ts) (h : TempoFrom s.beat s.qpm s.rest) :
    ∃ T q' rest', tempoBeat s = .ok (T, q', rest') ∧ s.beat < T ∧ TempoFrom T q' rest' ∧ Moved s.qpm s.rest T q' rest' ∧
      ∀ t, T ≤ t → elapsed (metre s.ts) s.qpm s.rest s.beat t = 1 + elapsed (metre s.ts) q' rest' T t := by
  have hf := metre_pos s.ts hts
  have hb := mul_pos h.pos hf
  have hq0 : s.qpm ≠ 0 := h.pos.ne'
  have hlt : ∀ T q' rest', TempoFrom T q' rest' → s.beat ≤ T →
      elapsed (metre s.ts) s.qpm s.rest s.beat T = 1 + elapsed (metre s.ts) q' rest' T T → s.beat < T := by
    intro T q' rest' h1 h2 h3
    rcases lt_or_eq_of_le h2 with h2 | h2
    · exact h2
    · exfalso
      rw [elapsed_self _ _ _ _ h1.after, ← h2, elapsed_self _ _ _ _ h.after] at h3
      norm_num at h3
  have plain : ∀ t, s.beat + 60 / (s.qpm * metre s.ts) ≤ t →
      (∀ p ∈ s.rest, s.beat + 60 / (s.qpm * metre s.ts) ≤ p.1) →
      elapsed (metre s.ts) s.qpm s.rest s.beat t =
        1 + elapsed (metre s.ts) s.qpm s.rest (s.beat + 60 / (s.qpm * metre s.ts)) t := by
    intro t ht hp
    cases hr : s.rest with
    | nil => unfold elapsed; field_simp; ring
    | cons p rest =>
      obtain ⟨c, qc⟩ := p
      rw [elapsed_cons, elapsed_cons]
      split
      · field_simp; ring
      · field_simp; ring
  unfold tempoBeat
  rw [bpmOf_eq _ h.pos _ hts]
  dsimp only [bind, Except.bind]
  have hpos : 0 < 60 / (s.qpm * metre s.ts) := by positivity
  cases hr : s.rest with
  | nil =>
    refine ⟨_, _, _, rfl, by linarith, ⟨h.pos, by simp, by simp, by simp⟩, Or.inl ⟨rfl, rfl⟩, ?_⟩
    have := plain
    rw [hr] at this
    intro t ht
    exact this t ht (by simp)
  | cons p rest =>
    obtain ⟨c, qc⟩ := p
    dsimp only
    split
    · rename_i hc
      have h' := h
      rw [hr] at h'
      obtain ⟨nb', rem', q', rest', g1, g2, g4, g5, g7⟩ := cross_spec s.ts hts _ s.beat 1 s.qpm h' (by norm_num)
      rw [g1]
      refine ⟨_, _, _, rfl, ?_, g5, g2, g7⟩
      apply hlt _ _ _ g5 g4
      rw [hr]
      exact g7 _ (le_refl _)
    · rename_i hc
      have hc' := not_lt.1 hc
      have hall : ∀ p ∈ s.rest, s.beat + 60 / (s.qpm * metre s.ts) ≤ p.1 := by
        intro p hp
        have ho := h.order
        rw [hr] at hp ho
        rcases List.mem_cons.1 hp with rfl | hp
        · exact hc'
        · exact le_trans hc' ((List.pairwise_cons.1 ho).1 p hp)
      refine ⟨_, _, _, rfl, by linarith, ⟨h.pos, ?_, ?_, ?_⟩, Or.inl ⟨rfl, rfl⟩, ?_⟩
      · have := h.posRest; rw [hr] at this; exact this
      · rw [hr] at hall; exact hall
      · have := h.order; rw [hr] at this; exact this
      · intro t ht
        have := plain t ht hall
        rw [hr] at this
        exact this

/-! ### The loop -/

theorem beatsGo_mono (stop : ℚ) : ∀ (fuel : Nat) (s : BeatSt) (l : List ℚ), beatsGo stop fuel s = .ok (some l) →
    ∀ k, beatsGo stop (fuel + k) s = .ok (some l) := by
  intro fuel
  induction fuel with
  | zero =>
    intro s l h k
    unfold beatsGo at h
    split at h
    · cases h
    · rename_i hs
      cases k with
      | zero => unfold beatsGo; rw [if_neg hs]; exact h
      | succ k => rw [Nat.zero_add]; unfold beatsGo; rw [if_neg hs]; exact h
  | succ fuel ih =>
    intro s l h k
    rw [show fuel + 1 + k = (fuel + k) + 1 by omega]
    rw [beatsGo] at h ⊢
    split
    · rename_i hs
      rw [if_pos hs] at h
      cases hb : beatStep s with
      | error e => rw [hb] at h; cases h
      | ok s' =>
        rw [hb] at h
        dsimp only [bind, Except.bind] at h ⊢
        cases hr : beatsGo stop fuel s' with
        | error e => rw [hr] at h; cases h
        | ok r =>
          rw [hr] at h
          cases r with
          | none => cases h
          | some l' =>
            rw [ih s' l' hr k]
            exact h
    · rename_i hs
      rw [if_neg hs] at h
      exact h

/-! ### Quarter notes -/

theorem elapsed_scale (f : ℚ) : ∀ (rest : List (ℚ × ℚ)) (q a t : ℚ), elapsed f q rest a t = f * elapsed 1 q rest a t := by
  intro rest
  induction rest with
  | nil => intro q a t; simp only [elapsed]; ring
  | cons p rest ih =>
    obtain ⟨c, q'⟩ := p
    intro q a t
    rw [elapsed_cons, elapsed_cons]
    split
    · ring
    · rw [ih]; ring

/-- Another base point before all changes. -/
theorem elapsed_base (q : ℚ) (rest : List (ℚ × ℚ)) (a b t : ℚ) (h : ∀ p ∈ rest, b ≤ p.1) :
    elapsed 1 q rest a t = elapsed 1 q rest a b + elapsed 1 q rest b t := by
  cases rest with
  | nil => simp only [elapsed]; ring
  | cons p rest =>
    obtain ⟨c, q'⟩ := p
    have hb : b ≤ c := h (c, q') List.mem_cons_self
    rw [elapsed_cons, elapsed_cons, elapsed_cons, if_pos hb]
    split <;> ring

/-- The count from the start, split at a change. -/
theorem elapsed_split (q0 : ℚ) (rest : List (ℚ × ℚ)) (c0 : ℚ) : ∀ (pre : List (ℚ × ℚ)) (q a : ℚ),
    (pre ++ (c0, q0) :: rest).Pairwise (fun p r => p.1 ≤ r.1) → ∀ t, c0 ≤ t →
    elapsed 1 q (pre ++ (c0, q0) :: rest) a t =
      elapsed 1 q (pre ++ (c0, q0) :: rest) a c0 + elapsed 1 q0 rest c0 t := by
  intro pre
  induction pre with
  | nil =>
    intro q a ho t ht
    rw [List.nil_append] at ho ⊢
    rw [elapsed_cons, elapsed_cons, if_pos (le_refl c0)]
    have hs := elapsed_self 1 q0 rest c0 (fun p hp => (List.pairwise_cons.1 ho).1 p hp)
    split
    · rename_i h
      have : t = c0 := le_antisymm h ht
      rw [this, hs]; ring
    · rfl
  | cons p pre ih =>
    obtain ⟨d, qd⟩ := p
    intro q a ho t ht
    rw [List.cons_append] at ho ⊢
    have ho' := List.pairwise_cons.1 ho
    have hd : d ≤ c0 := ho'.1 (c0, q0) (by simp)
    rw [elapsed_cons, elapsed_cons]
    have hs : elapsed 1 q0 rest c0 c0 = 0 := elapsed_self 1 q0 rest c0 (fun p hp => by
      have := (List.pairwise_append.1 ho'.2).2.1
      exact (List.pairwise_cons.1 this).1 p hp)
    split
    · rename_i h
      have e1 : t = c0 := le_antisymm (le_trans h hd) ht
      rw [if_pos (by rw [← e1]; exact h), e1, hs]; ring
    · rw [ih qd d ho'.2 t ht]
      split
      · rename_i h2
        have e1 : d = c0 := le_antisymm hd h2
        have : elapsed 1 qd (pre ++ (c0, q0) :: rest) d c0 = 0 := by
          rw [e1]
          apply elapsed_self
          intro p hp
          rw [← e1]
          exact ho'.1 p hp
        rw [this, e1]; ring
      · ring

/-- At time `b` the current tempo is `q` and the later entries of the tempo list are `rest`. -/
def TempoAt (tempi : List (ℚ × ℚ)) (b q : ℚ) (rest : List (ℚ × ℚ)) : Prop :=
  ∃ pre c, tempi = pre ++ (c, q) :: rest ∧ (pre = [] ∨ c ≤ b) ∧ ∀ p ∈ rest, b ≤ p.1

theorem TempoAt.tempoFrom {tempi : List (ℚ × ℚ)} {b q : ℚ} {rest : List (ℚ × ℚ)} (h : TempoAt tempi b q rest)
    (ht : TempoList tempi) : TempoFrom b q rest := by
  obtain ⟨pre, c, e, _, h2⟩ := h
  have ho := ht.order
  have hp := ht.pos
  rw [e] at ho hp
  have := (List.pairwise_cons.1 (List.pairwise_append.1 ho).2.1).2
  exact ⟨hp (c, q) (by simp), fun p hm => hp p (by simp [hm]), h2, this⟩

theorem TempoAt.diff {tempi : List (ℚ × ℚ)} {b q : ℚ} {rest : List (ℚ × ℚ)} (h : TempoAt tempi b q rest)
    (ht : TempoList tempi) (t : ℚ) (hbt : b ≤ t) : quarters tempi t - quarters tempi b = elapsed 1 q rest b t := by
  obtain ⟨pre, c, e, h1, h2⟩ := h
  have hb := fun u => elapsed_base q rest c b u h2
  cases pre with
  | nil =>
    rw [List.nil_append] at e
    subst e
    simp only [Spec.quarters]
    rw [hb t]; ring
  | cons p pre =>
    obtain ⟨d, qd⟩ := p
    have hc : c ≤ b := by rcases h1 with h1 | h1
                          · cases h1
                          · exact h1
    have ho := ht.order
    rw [e, List.cons_append] at ho
    have ho' := (List.pairwise_cons.1 ho).2
    have e1 := elapsed_split q rest c pre qd d ho' t (le_trans hc hbt)
    have e2 := elapsed_split q rest c pre qd d ho' b hc
    rw [e]
    simp only [List.cons_append, Spec.quarters]
    rw [e1, e2, hb t]; ring

theorem quarters_strict {tempi : List (ℚ × ℚ)} (ht : TempoList tempi) {t u : ℚ} (h : t < u) :
    quarters tempi t < quarters tempi u := by
  cases tempi with
  | nil => exact absurd rfl ht.ne
  | cons p rest =>
    obtain ⟨c, q⟩ := p
    have ho := List.pairwise_cons.1 ht.order
    exact elapsed_strict 1 one_pos rest q c ⟨ht.pos (c, q) List.mem_cons_self, fun p hp => ht.pos p (by simp [hp]),
      fun p hp => ho.1 p hp, ho.2⟩ t u h

theorem quarters_lt_iff {tempi : List (ℚ × ℚ)} (ht : TempoList tempi) {t u : ℚ} :
    quarters tempi t < quarters tempi u ↔ t < u := by
  constructor
  · intro h
    by_contra hn
    rcases lt_or_eq_of_le (not_lt.1 hn) with h2 | h2
    · exact absurd (quarters_strict ht h2) (not_lt.2 h.le)
    · rw [h2] at h; exact lt_irrefl _ h
  · exact quarters_strict ht

/-- One beat by the tempo alone, on the whole tempo list. -/
theorem tempoBeat_at {tempi : List (ℚ × ℚ)} (ht : TempoList tempi) (s : BeatSt) (hts : GoodTs s.ts)
    (h : TempoAt tempi s.beat s.qpm s.rest) :
    ∃ T q' rest', tempoBeat s = .ok (T, q', rest') ∧ s.beat < T ∧ TempoAt tempi T q' rest' ∧
      metre s.ts * (quarters tempi T - quarters tempi s.beat) = 1 := by
  have hf := h.tempoFrom ht
  obtain ⟨T, q', rest', g1, g2, g3, g4, g5⟩ := tempoBeat_spec s hts hf
  refine ⟨T, q', rest', g1, g2, ?_, ?_⟩
  · obtain ⟨pre, c, e, h1, h2⟩ := h
    rcases g4 with ⟨rfl, rfl⟩ | ⟨pre', c', e', hle⟩
    · refine ⟨pre, c, e, ?_, g3.after⟩
      rcases h1 with h1 | h1
      · exact Or.inl h1
      · exact Or.inr (by linarith)
    · refine ⟨pre ++ (c, s.qpm) :: pre', c', ?_, Or.inr hle, g3.after⟩
      rw [e, e']; simp
  · rw [h.diff ht T g2.le, ← elapsed_scale, g5 T (le_refl _), elapsed_self _ _ _ _ g3.after]; ring

/-! ### One round -/

theorem npClose_iff (a b : ℚ) : npClose a b = true ↔ Close a b := by
  unfold npClose Close; simp

theorem gtOrClose_iff (a b : ℚ) : gtOrClose a b = true ↔ b < a ∨ Close a b := by
  unfold gtOrClose; rw [Bool.or_eq_true, npClose_iff, decide_eq_true_iff]

theorem close_self (a : ℚ) : Close a a := by unfold Close; rw [sub_self, abs_zero]; positivity

theorem close_between {a b c : ℚ} (h1 : a ≤ b) (h2 : b ≤ c) (h : Close a c) : Close b c := by
  unfold Close at *
  rw [abs_of_nonpos (by linarith)] at *
  linarith

/-- What is not yet passed of the time signatures. -/
def BeatSt.pending (s : BeatSt) : Nat :=
  s.tsRest.length + (match s.ts with
    | some x => if s.beat < x.2.2 then 1 else 0
    | none => 0)

structure BeatOk (tempi : List (ℚ × ℚ)) (tss : List (Int × Int × ℚ)) (s : BeatSt) : Prop where
  tempo : TempoAt tempi s.beat s.qpm s.rest
  ts : (tss = [] ∧ s.ts = none ∧ s.tsRest = []) ∨
    ∃ pre x, tss = pre ++ x :: s.tsRest ∧ s.ts = some x ∧ (∀ y ∈ s.tsRest, s.beat < y.2.2) ∧
      (s.first = true ↔ pre = []) ∧ (pre = [] ∨ x.2.2 ≤ s.beat)

/-- A later state can also be used at the time of a time signature. -/
theorem TempoAt.snap {tempi : List (ℚ × ℚ)} {tss : List (Int × Int × ℚ)} (H : Tame tempi tss) {b T q X f : ℚ}
    {rest : List (ℚ × ℚ)} (h : TempoAt tempi T q rest) (y : Int × Int × ℚ) (hy : y ∈ tss) (hX : X = y.2.2) (hb : b < X)
    (hf : ∃ z ∈ tss, f = metre (some z)) (h1 : f * (quarters tempi T - quarters tempi b) = 1)
    (hTX : X ≤ T ∨ Close T X) : TempoAt tempi X q rest := by
  obtain ⟨pre, c, e, h2, h3⟩ := h
  obtain ⟨z, hz, ef⟩ := hf
  have hfpos : 0 < f := by
    rw [ef]; exact metre_pos _ (fun x hx => by cases hx; exact H.good z hz)
  refine ⟨pre, c, e, ?_, ?_⟩
  · rcases h2 with h2 | h2
    · exact Or.inl h2
    · right
      by_contra hc
      have hc := not_le.1 hc
      have h4 := H.after y hy (c, q) (by rw [e]; simp) (by rw [← hX]; exact hc) z hz
      rw [← ef, ← hX] at h4
      dsimp only at h4
      have h5 := quarters_strict H.tempo hb
      have h6 : quarters tempi c ≤ quarters tempi T := by
        rcases lt_or_eq_of_le h2 with h2 | h2
        · exact (quarters_strict H.tempo h2).le
        · rw [h2]
      have h7 : f * (quarters tempi c - quarters tempi X) < f * (quarters tempi T - quarters tempi b) :=
        mul_lt_mul_of_pos_left (by linarith) hfpos
      linarith
  · intro p hp
    have hpT := h3 p hp
    rcases hTX with hTX | hTX
    · linarith
    · by_contra hc
      have hc := not_le.1 hc
      exact H.before y hy p (by rw [e]; simp [hp]) (by rw [← hX]; exact hc)
        (by rw [← hX]; exact close_between hpT hc.le hTX)

theorem beatStep_ok {tempi : List (ℚ × ℚ)} {tss : List (Int × Int × ℚ)} (H : Tame tempi tss)
    (ho : tss.Pairwise (fun y z => y.2.2 < z.2.2)) (s : BeatSt) (h : BeatOk tempi tss s) :
    ∃ s', beatStep s = .ok s' ∧ BeatOk tempi tss s' ∧ NextBeat tempi tss s.beat s'.beat ∧ s.beat < s'.beat ∧
      (s'.pending < s.pending ∨ (s'.pending ≤ s.pending ∧
        ∃ f, MetreAt tss s.beat f ∧ f * (quarters tempi s'.beat - quarters tempi s.beat) = 1)) := by
  obtain ⟨ht, hs⟩ := h
  rcases hs with ⟨e1, e2, e3⟩ | ⟨pre, x, e1, e2, e3, e4, e5⟩
  · -- no time signatures
    have hg : GoodTs s.ts := by rw [e2]; intro x hx; cases hx
    obtain ⟨T, q', rest', g1, g2, g3, g4⟩ := tempoBeat_at H.tempo s hg ht
    have hm : metre s.ts = 1 := by rw [e2]; rfl
    rw [hm] at g4
    have hsn : snapFirst s T = T := by unfold snapFirst; rw [e2]
    refine ⟨{ s with beat := T, qpm := q', rest := rest' }, ?_, ⟨g3, Or.inl ⟨e1, e2, e3⟩⟩, ?_, g2, Or.inr ⟨?_, 1, Or.inl ⟨e1, rfl⟩, g4⟩⟩
    · unfold beatStep
      rw [g1]
      dsimp only [bind, Except.bind]
      rw [hsn, e3]
    · exact ⟨1, T, Or.inl ⟨e1, rfl⟩, g2, g4, Or.inl ⟨rfl, by rw [e1]; simp⟩⟩
    · unfold BeatSt.pending; dsimp only; rw [e2]
  · have hxm : x ∈ tss := by rw [e1]; simp
    have hg : GoodTs s.ts := by rw [e2]; intro y hy; cases hy; exact H.good x hxm
    obtain ⟨T, q', rest', g1, g2, g3, g4⟩ := tempoBeat_at H.tempo s hg ht
    rw [e2] at g4
    rw [e1] at ho
    have ho' := List.pairwise_append.1 ho
    have hox := List.pairwise_cons.1 ho'.2.1
    -- the metre
    have hinf : InForce tss s.beat x := by
      refine ⟨hxm, ?_⟩
      by_cases hxb : x.2.2 ≤ s.beat
      · left
        refine ⟨hxb, ?_⟩
        intro z hz hzb
        rw [e1] at hz
        rcases List.mem_append.1 hz with hz | hz
        · exact (ho'.2.2 z hz x (by simp)).le
        · rcases List.mem_cons.1 hz with rfl | hz
          · exact le_refl _
          · exact absurd hzb (not_le.2 (e3 z hz))
      · right
        have hpre : pre = [] := by
          rcases e5 with e5 | e5
          · exact e5
          · exact absurd e5 hxb
        intro z hz
        rw [e1, hpre, List.nil_append] at hz
        rcases List.mem_cons.1 hz with rfl | hz
        · exact ⟨not_le.1 hxb, le_refl _⟩
        · exact ⟨e3 z hz, (hox.1 z hz).le⟩
    have hmet : MetreAt tss s.beat (metre (some x)) := Or.inr ⟨x, hinf, rfl⟩
    have hexf : ∃ z ∈ tss, metre (some x) = metre (some z) := ⟨x, hxm, rfl⟩
    have hpre_le : ∀ z ∈ pre, z.2.2 ≤ s.beat := by
      intro z hz
      rcases e5 with e5 | e5
      · rw [e5] at hz; cases hz
      · exact (lt_of_lt_of_le (ho'.2.2 z hz x (by simp)) e5).le
    unfold beatStep
    rw [g1]
    dsimp only [bind, Except.bind]
    by_cases hsnap : s.beat < x.2.2 ∧ (x.2.2 < T ∨ Close T x.2.2)
    · -- the first time signature is reached
      have hpre : pre = [] := by
        rcases e5 with e5 | e5
        · exact e5
        · exact absurd hsnap.1 (not_lt.2 e5)
      have hsn : snapFirst s T = x.2.2 := by
        unfold snapFirst
        rw [e2]
        dsimp only
        rw [if_pos ⟨e4.2 hpre, hsnap.1, (gtOrClose_iff _ _).2 hsnap.2⟩]
      have hor : x.2.2 ≤ T ∨ Close T x.2.2 := hsnap.2.imp le_of_lt id
      have hT := g3.snap H x hxm rfl hsnap.1 hexf g4 hor
      rw [hsn]
      refine ⟨{ s with beat := x.2.2, qpm := q', rest := rest' }, ?_, ⟨hT, Or.inr ⟨pre, x, e1, e2, ?_, e4, Or.inl hpre⟩⟩, ?_, hsnap.1, Or.inl ?_⟩
      · cases hr : s.tsRest with
        | nil => rfl
        | cons y xs =>
          dsimp only
          have hxy := hox.1 y (by rw [hr]; simp)
          have hym : y ∈ tss := by rw [e1, hr]; simp
          rw [if_neg]
          intro hc
          rcases (gtOrClose_iff _ _).1 hc with hc | hc
          · linarith
          · exact H.apart x hxm y hym hxy hc
      · intro y hy; exact hox.1 y hy
      · refine ⟨_, T, hmet, g2, g4, Or.inr ⟨x, hxm, rfl, hsnap.1, hor, ?_⟩⟩
        intro z hz _
        rw [e1, hpre, List.nil_append] at hz
        rcases List.mem_cons.1 hz with rfl | hz
        · exact le_refl _
        · exact (hox.1 z hz).le
      · unfold BeatSt.pending
        dsimp only
        rw [e2]
        dsimp only
        rw [if_pos hsnap.1, if_neg (lt_irrefl _)]
        omega
    · have hsn : snapFirst s T = T := by
        unfold snapFirst
        rw [e2]
        dsimp only
        rw [if_neg]
        rintro ⟨_, h2, h3⟩
        exact hsnap ⟨h2, (gtOrClose_iff _ _).1 h3⟩
      rw [hsn]
      have hxfar : s.beat < x.2.2 → T < x.2.2 ∧ ¬ Close T x.2.2 := by
        intro hbx
        constructor
        · by_contra hc
          rcases lt_or_eq_of_le (not_lt.1 hc) with hc | hc
          · exact hsnap ⟨hbx, Or.inl hc⟩
          · exact hsnap ⟨hbx, Or.inr (by rw [hc]; exact close_self _)⟩
        · intro hc; exact hsnap ⟨hbx, Or.inr hc⟩
      by_cases hnext : ∃ y xs, s.tsRest = y :: xs ∧ (y.2.2 < T ∨ Close T y.2.2)
      · -- the next time signature is reached
        obtain ⟨y, xs, hr, hyT⟩ := hnext
        have hym : y ∈ tss := by rw [e1, hr]; simp
        have hby : s.beat < y.2.2 := e3 y (by rw [hr]; simp)
        have hxy := hox.1 y (by rw [hr]; simp)
        have hxb : x.2.2 ≤ s.beat := by
          by_contra hc
          obtain ⟨h6, h7⟩ := hxfar (not_le.1 hc)
          rcases hyT with hyT | hyT
          · linarith
          · exact H.apart x hxm y hym hxy (close_between h6.le hxy.le hyT)
        have hor : y.2.2 ≤ T ∨ Close T y.2.2 := hyT.imp le_of_lt id
        have hT := g3.snap H y hym rfl hby hexf g4 hor
        have hgy : GoodTs (some y) := by intro z hz; cases hz; exact H.good y hym
        rw [hr]
        dsimp only
        rw [if_pos ((gtOrClose_iff _ _).2 hyT), bpmOf_eq q' (hT.tempoFrom H.tempo).pos _ hgy]
        have hoy := List.pairwise_cons.1 (hr ▸ hox.2)
        refine ⟨_, rfl, ⟨hT, Or.inr ⟨pre ++ [x], y, by rw [e1, hr]; simp, rfl, fun z hz => hoy.1 z hz, by simp,
          Or.inr (le_refl _)⟩⟩, ?_, hby, Or.inl ?_⟩
        · refine ⟨_, T, hmet, g2, g4, Or.inr ⟨y, hym, rfl, hby, hor, ?_⟩⟩
          intro z hz hbz
          rw [e1, hr] at hz
          rcases List.mem_append.1 hz with hz | hz
          · exact absurd hbz (not_lt.2 (hpre_le z hz))
          · rcases List.mem_cons.1 hz with rfl | hz
            · exact absurd hbz (not_lt.2 hxb)
            · rcases List.mem_cons.1 hz with rfl | hz
              · exact le_refl _
              · exact (hoy.1 z hz).le
        · unfold BeatSt.pending
          dsimp only
          rw [if_neg (lt_irrefl _), hr, List.length_cons]
          omega
      · -- an ordinary beat
        have hfar : ∀ y ∈ s.tsRest, T < y.2.2 ∧ ¬ Close T y.2.2 := by
          cases hr : s.tsRest with
          | nil => simp
          | cons y xs =>
            have hn : ¬ (y.2.2 < T ∨ Close T y.2.2) := fun hc => hnext ⟨y, xs, hr, hc⟩
            have hTy : T < y.2.2 := by
              by_contra hc
              rcases lt_or_eq_of_le (not_lt.1 hc) with hc | hc
              · exact hn (Or.inl hc)
              · exact hn (Or.inr (by rw [hc]; exact close_self _))
            have hym : y ∈ tss := by rw [e1, hr]; simp
            have hoy := List.pairwise_cons.1 (hr ▸ hox.2)
            intro z hz
            rcases List.mem_cons.1 hz with rfl | hz
            · exact ⟨hTy, fun hc => hn (Or.inr hc)⟩
            · have hyz := hoy.1 z hz
              refine ⟨by linarith, ?_⟩
              intro hc
              have hzm : z ∈ tss := by rw [e1, hr]; simp [hz]
              exact H.apart y hym z hzm hyz (close_between hTy.le hyz.le hc)
        refine ⟨{ s with beat := T, qpm := q', rest := rest' }, ?_, ⟨g3, Or.inr ⟨pre, x, e1, e2, fun y hy => (hfar y hy).1, e4, ?_⟩⟩, ?_, g2, Or.inr ⟨?_, _, hmet, g4⟩⟩
        · cases hr : s.tsRest with
          | nil => rfl
          | cons y xs =>
            dsimp only
            rw [if_neg]
            intro hc
            exact hnext ⟨y, xs, hr, (gtOrClose_iff _ _).1 hc⟩
        · rcases e5 with e5 | e5
          · exact Or.inl e5
          · exact Or.inr (by linarith)
        · refine ⟨_, T, hmet, g2, g4, Or.inl ⟨rfl, ?_⟩⟩
          intro y hy hby
          rw [e1] at hy
          rcases List.mem_append.1 hy with hy | hy
          · exact absurd hby (not_lt.2 (hpre_le y hy))
          · rcases List.mem_cons.1 hy with rfl | hy
            · exact hxfar hby
            · exact hfar y hy
        · unfold BeatSt.pending
          dsimp only
          rw [e2]
          dsimp only
          split
          · split
            · exact le_refl _
            · rename_i h1 h2; exact absurd (lt_trans g2 h1) h2
          · omega

end NGC
