import Verif.Times
import Mathlib.Tactic.Linarith
import Mathlib.Tactic.FieldSimp
import Mathlib.Tactic.Ring
import Mathlib.Tactic.Positivity

/-! Property theorems C120 (moving notes) and C121 (moving events) about `adjust_times`. -/

namespace NGC

namespace Spec

/-- Original times strictly increasing, new times not decreasing. -/
def Monotone2 (m : List (ℚ × ℚ)) : Prop :=
  m.Pairwise (fun p q => p.1 < q.1 ∧ p.2 ≤ q.2)

/-- Both strictly increasing. -/
def Strict2 (m : List (ℚ × ℚ)) : Prop :=
  m.Pairwise (fun p q => p.1 < q.1 ∧ p.2 < q.2)

end Spec

open Spec (Monotone2 Strict2)

theorem Strict2.mono {m : List (ℚ × ℚ)} (h : Strict2 m) : Monotone2 m :=
  h.imp (fun h => ⟨h.1, h.2.le⟩)

/-! ## Interpolation -/

theorem interp_le_head (m : List (ℚ × ℚ)) (p : ℚ × ℚ) (x : ℚ) (h : x ≤ p.1) : interp (p :: m) x = p.2 := by
  cases m with
  | nil => rfl
  | cons q rest => unfold interp; rw [if_pos h]

theorem interp_ge_head : ∀ (m : List (ℚ × ℚ)) (p : ℚ × ℚ) (x : ℚ), Monotone2 (p :: m) → p.2 ≤ interp (p :: m) x := by
  intro m
  induction m with
  | nil => intro p x _; exact le_refl _
  | cons q rest ih =>
    intro p x h
    unfold interp
    have hq := (List.pairwise_cons.1 h).1 q (by simp)
    split
    · exact le_refl _
    · rename_i h1
      split
      · have : 0 ≤ (x - p.1) * (q.2 - p.2) / (q.1 - p.1) :=
          div_nonneg (mul_nonneg (by linarith [not_le.1 h1]) (by linarith [hq.2])) (by linarith [hq.1])
        linarith
      · exact le_trans hq.2 (ih q x (List.pairwise_cons.1 h).2)

theorem interp_mono : ∀ (m : List (ℚ × ℚ)) (x y : ℚ), Monotone2 m → x ≤ y → interp m x ≤ interp m y := by
  intro m
  induction m with
  | nil => intro x y _ _; exact le_refl _
  | cons p rest ih =>
    intro x y h hxy
    cases rest with
    | nil => exact le_refl _
    | cons q rest =>
      have hq := (List.pairwise_cons.1 h).1 q (by simp)
      have hpos : 0 < q.1 - p.1 := by linarith [hq.1]
      by_cases h1 : x ≤ p.1
      · rw [interp_le_head _ _ _ h1]; exact interp_ge_head _ _ _ h
      · have h1y : ¬ y ≤ p.1 := fun hc => h1 (le_trans hxy hc)
        unfold interp
        rw [if_neg h1, if_neg h1y]
        by_cases h2 : y < q.1
        · rw [if_pos h2, if_pos (lt_of_le_of_lt hxy h2)]
          have : (x - p.1) * (q.2 - p.2) ≤ (y - p.1) * (q.2 - p.2) :=
            mul_le_mul_of_nonneg_right (by linarith) (by linarith [hq.2])
          have := div_le_div_of_nonneg_right this hpos.le
          linarith
        · rw [if_neg h2]
          by_cases h3 : x < q.1
          · rw [if_pos h3]
            have h4 : (x - p.1) * (q.2 - p.2) / (q.1 - p.1) ≤ q.2 - p.2 := by
              rw [div_le_iff₀ hpos, mul_comm]
              exact mul_le_mul_of_nonneg_left (by linarith) (by linarith [hq.2])
            have := interp_ge_head rest q y (List.pairwise_cons.1 h).2
            linarith
          · rw [if_neg h3]
            exact ih x y (List.pairwise_cons.1 h).2 hxy

theorem interp_at : ∀ (m : List (ℚ × ℚ)) (p : ℚ × ℚ), Monotone2 m → p ∈ m → interp m p.1 = p.2 := by
  intro m
  induction m with
  | nil => intro p _ hp; cases hp
  | cons a rest ih =>
    intro p h hp
    rcases List.mem_cons.1 hp with rfl | hp
    · exact interp_le_head _ _ _ (le_refl _)
    · cases rest with
      | nil => cases hp
      | cons q rest =>
        have hlt := ((List.pairwise_cons.1 h).1 p hp).1
        have hqp : q.1 ≤ p.1 := by
          rcases List.mem_cons.1 hp with rfl | hp'
          · exact le_refl _
          · exact ((List.pairwise_cons.1 (List.pairwise_cons.1 h).2).1 p hp').1.le
        unfold interp
        rw [if_neg (not_le.2 hlt), if_neg (not_lt.2 hqp)]
        exact ih p (List.pairwise_cons.1 h).2 hp

theorem interp_linear : ∀ (pre : List (ℚ × ℚ)) (p q : ℚ × ℚ) (post : List (ℚ × ℚ)) (x : ℚ),
    Monotone2 (pre ++ p :: q :: post) → p.1 ≤ x → x ≤ q.1 →
    interp (pre ++ p :: q :: post) x = p.2 + (x - p.1) * (q.2 - p.2) / (q.1 - p.1) := by
  intro pre
  induction pre with
  | nil =>
    intro p q post x h h1 h2
    have hq := (List.pairwise_cons.1 h).1 q (by simp)
    have hpos : q.1 - p.1 ≠ 0 := by have := hq.1; intro hc; linarith
    rcases eq_or_lt_of_le h1 with e | h1
    · subst e
      simp [interp_le_head]
    · rcases eq_or_lt_of_le h2 with e | h2
      · subst e
        rw [interp_at _ q h (by simp)]
        field_simp
        ring
      · rw [List.nil_append]
        unfold interp
        rw [if_neg (not_le.2 h1), if_pos h2]
  | cons a pre ih =>
    intro p q post x h h1 h2
    have h' : Monotone2 (pre ++ p :: q :: post) := (List.pairwise_cons.1 h).2
    have hr := ih p q post x h' h1 h2
    rw [List.cons_append]
    have hap := ((List.pairwise_cons.1 h).1 p (by simp)).1
    cases hl : pre ++ p :: q :: post with
    | nil => simp at hl
    | cons b rest =>
      have hb : b.1 ≤ x := by
        refine le_trans ?_ h1
        have hm : p ∈ b :: rest := by rw [← hl]; simp
        rw [hl] at h'
        rcases List.mem_cons.1 hm with rfl | hm
        · exact le_refl _
        · exact ((List.pairwise_cons.1 h').1 p hm).1.le
      unfold interp
      rw [if_neg (by linarith), if_neg (not_lt.2 hb), ← hl]
      exact hr

theorem interp_le_last : ∀ (m : List (ℚ × ℚ)) (b : ℚ × ℚ) (x : ℚ), Monotone2 m → m.getLast? = some b →
    interp m x ≤ b.2 := by
  intro m b x h hb
  have hmem := List.mem_of_getLast? hb
  rw [← interp_at m b h hmem]
  by_cases hx : x ≤ b.1
  · exact interp_mono m _ _ h hx
  · -- beyond the last time the value is constant
    have : ∀ (m : List (ℚ × ℚ)), Monotone2 m → m.getLast? = some b → interp m x = b.2 := by
      intro m
      induction m with
      | nil => intro _ e; cases e
      | cons p rest ih =>
        intro h e
        cases rest with
        | nil => simp at e; subst e; rfl
        | cons q rest =>
          have e' : (q :: rest).getLast? = some b := by simpa using e
          have hm := List.mem_of_getLast? e'
          have hp := ((List.pairwise_cons.1 h).1 b hm).1
          have hq : q.1 ≤ b.1 := by
            rcases List.mem_cons.1 hm with rfl | hm'
            · exact le_refl _
            · exact ((List.pairwise_cons.1 (List.pairwise_cons.1 h).2).1 b hm').1.le
          unfold interp
          rw [if_neg (by linarith), if_neg (by linarith)]
          exact ih (List.pairwise_cons.1 h).2 e'
    rw [this m h hb, interp_at m b h hmem]

theorem interp_strict : ∀ (m : List (ℚ × ℚ)) (a b : ℚ × ℚ) (x y : ℚ), Strict2 m → m.head? = some a →
    m.getLast? = some b → a.1 ≤ x → x < y → y ≤ b.1 → interp m x < interp m y := by
  intro m
  induction m with
  | nil => intro a b x y _ e; cases e
  | cons p rest ih =>
    intro a b x y h ea eb hx hxy hy
    simp at ea; subst ea
    cases rest with
    | nil => simp at eb; subst eb; linarith
    | cons q rest =>
      have hq := (List.pairwise_cons.1 h).1 q (by simp)
      have hpos : 0 < q.1 - p.1 := by linarith [hq.1]
      have h' := (List.pairwise_cons.1 h).2
      have eb' : (q :: rest).getLast? = some b := by simpa using eb
      -- the first segment, including its right end
      have seg : ∀ z, p.1 ≤ z → z ≤ q.1 →
          interp (p :: q :: rest) z = p.2 + (z - p.1) * (q.2 - p.2) / (q.1 - p.1) :=
        fun z h1 h2 => interp_linear [] p q rest z (Strict2.mono h) h1 h2
      have segmono : ∀ z w, p.1 ≤ z → z < w → w ≤ q.1 → interp (p :: q :: rest) z < interp (p :: q :: rest) w := by
        intro z w h1 h2 h3
        rw [seg z h1 (by linarith), seg w (by linarith) h3]
        have : (z - p.1) * (q.2 - p.2) / (q.1 - p.1) < (w - p.1) * (q.2 - p.2) / (q.1 - p.1) := by
          apply div_lt_div_of_pos_right _ hpos
          exact mul_lt_mul_of_pos_right (by linarith) (by linarith [hq.2])
        linarith
      have tail : ∀ z, q.1 ≤ z → interp (p :: q :: rest) z = interp (q :: rest) z := by
        intro z hz
        conv_lhs => unfold interp
        rw [if_neg (by linarith [hq.1]), if_neg (not_lt.2 hz)]
      by_cases h1 : y ≤ q.1
      · exact segmono x y hx hxy h1
      · rw [not_le] at h1
        by_cases h2 : x < q.1
        · have e1 := segmono x q.1 hx h2 (le_refl _)
          have e2 := ih q b q.1 y h' rfl eb' (le_refl _) h1 hy
          rw [tail q.1 (le_refl _)] at e1
          rw [tail y h1.le]
          exact lt_trans e1 e2
        · rw [tail x (not_lt.1 h2), tail y h1.le]
          exact ih q b x y h' rfl eb' (not_lt.1 h2) hxy hy

/-! ## The time map -/

theorem dedupKeys_sub : ∀ (l : List (ℚ × ℚ)), (dedupKeys l).Sublist l := by
  intro l
  induction h : l.length using Nat.strong_induction_on generalizing l with
  | _ n ih =>
    cases l with
    | nil => unfold dedupKeys; exact List.Sublist.refl _
    | cons p rest =>
      unfold dedupKeys
      have hs := List.dropWhile_sublist (fun q : ℚ × ℚ => decide (q.1 = p.1)) (l := rest)
      have hl := hs.length_le
      simp only [List.length_cons] at h
      exact ((ih _ (by omega) _ rfl).trans hs).cons_cons p

theorem dedupKeys_strict : ∀ (l : List (ℚ × ℚ)), l.Pairwise (fun p q => p.1 ≤ q.1) →
    (dedupKeys l).Pairwise (fun p q => p.1 < q.1) := by
  intro l
  induction h : l.length using Nat.strong_induction_on generalizing l with
  | _ n ih =>
    intro hs
    cases l with
    | nil => unfold dedupKeys; exact List.Pairwise.nil
    | cons p rest =>
      unfold dedupKeys
      have hd := List.dropWhile_sublist (fun q : ℚ × ℚ => decide (q.1 = p.1)) (l := rest)
      have hl := hd.length_le
      simp only [List.length_cons] at h
      rw [List.pairwise_cons] at hs ⊢
      refine ⟨?_, ih _ (by omega) _ rfl (hs.2.sublist hd)⟩
      intro q hq
      have hq' := (dedupKeys_sub _).subset hq
      have hle := hs.1 q (hd.subset hq')
      refine lt_of_le_of_ne hle (fun e => ?_)
      -- the first element after the run is larger, all later ones at least as large
      cases hc : rest.dropWhile (fun q => decide (q.1 = p.1)) with
      | nil => rw [hc] at hq'; cases hq'
      | cons z zs =>
        have hz : ¬ z.1 = p.1 := by
          have h3 := List.head?_dropWhile_not (fun q : ℚ × ℚ => decide (q.1 = p.1)) rest
          rw [hc] at h3
          simpa using h3
        have hzm : z ∈ rest := hd.subset (by rw [hc]; simp)
        have hz2 := hs.1 z hzm
        rw [hc] at hq'
        have hsz := hs.2.sublist hd
        rw [hc, List.pairwise_cons] at hsz
        rcases List.mem_cons.1 hq' with rfl | hq'
        · exact hz e.symm
        · have := hsz.1 q hq'
          apply hz
          apply le_antisymm _ hz2
          rw [e]; exact this

theorem runMax_fst (m : ℚ) (l : List (ℚ × ℚ)) : (runMax m l).map Prod.fst = l.map Prod.fst := by
  induction l generalizing m with
  | nil => rfl
  | cons p rest ih => simp only [runMax, List.map_cons, ih]

theorem runMax_ge (m : ℚ) (l : List (ℚ × ℚ)) : ∀ q ∈ runMax m l, m ≤ q.2 := by
  induction l generalizing m with
  | nil => intro q hq; cases hq
  | cons p rest ih =>
    intro q hq
    rcases List.mem_cons.1 hq with rfl | hq
    · exact le_max_left _ _
    · exact le_trans (le_max_left _ _) (ih _ q hq)

theorem runMax_mono (m : ℚ) (l : List (ℚ × ℚ)) (h : l.Pairwise (fun p q => p.1 < q.1)) : Monotone2 (runMax m l) := by
  induction l generalizing m with
  | nil => exact List.Pairwise.nil
  | cons p rest ih =>
    rw [List.pairwise_cons] at h
    unfold runMax
    refine List.pairwise_cons.2 ⟨?_, ih _ h.2⟩
    intro q hq
    refine ⟨?_, runMax_ge _ _ q hq⟩
    have : q.1 ∈ (runMax (max m p.2) rest).map Prod.fst := List.mem_map_of_mem hq
    rw [runMax_fst] at this
    obtain ⟨r, hr, e⟩ := List.mem_map.1 this
    have := h.1 r hr
    rw [← e]; exact this

theorem timeMap_mono (l : List (ℚ × ℚ)) : Monotone2 (timeMap l) := by
  unfold timeMap
  have hs := dedupKeys_strict _ (sortByKey_sorted Prod.fst l)
  cases hc : dedupKeys (sortByKey Prod.fst l) with
  | nil => exact List.Pairwise.nil
  | cons p rest =>
    rw [hc, List.pairwise_cons] at hs
    dsimp only
    refine List.pairwise_cons.2 ⟨?_, runMax_mono _ _ hs.2⟩
    intro q hq
    refine ⟨?_, runMax_ge _ _ q hq⟩
    have : q.1 ∈ (runMax p.2 rest).map Prod.fst := List.mem_map_of_mem hq
    rw [runMax_fst] at this
    obtain ⟨r, hr, e⟩ := List.mem_map.1 this
    rw [← e]; exact hs.1 r hr

theorem dedupKeys_of_strict : ∀ (l : List (ℚ × ℚ)), l.Pairwise (fun p q => p.1 < q.1) → dedupKeys l = l := by
  intro l
  induction l with
  | nil => intro _; unfold dedupKeys; rfl
  | cons p rest ih =>
    intro h
    rw [List.pairwise_cons] at h
    unfold dedupKeys
    have : rest.dropWhile (fun q => decide (q.1 = p.1)) = rest := by
      cases rest with
      | nil => rfl
      | cons q rest =>
        rw [List.dropWhile_cons_of_neg]
        have := h.1 q (by simp)
        simp only [decide_eq_true_eq]
        intro e; rw [e] at this; exact lt_irrefl _ this
    rw [this, ih h.2]

theorem runMax_of_mono (m : ℚ) (l : List (ℚ × ℚ)) (h : l.Pairwise (fun p q => p.2 ≤ q.2)) (hm : ∀ q ∈ l, m ≤ q.2) :
    runMax m l = l := by
  induction l generalizing m with
  | nil => rfl
  | cons p rest ih =>
    rw [List.pairwise_cons] at h
    unfold runMax
    rw [max_eq_right (hm p (by simp)), ih p.2 h.2 h.1]

/-! ## C120 -/

/-- **C120, the map of times.** `adjust_times(original, new)` moves a time by a map that never reverses the order of two times,
whatever the two (equally long) arrays are. If the original times increase strictly and the new times do not decrease, the
map sends every original time to its new time and is linear in between. -/
theorem C120_time_map (l : List (ℚ × ℚ)) :
    (∀ x y, x ≤ y → interp (timeMap l) x ≤ interp (timeMap l) y) ∧
    (Spec.Monotone2 l →
      (∀ p ∈ l, interp (timeMap l) p.1 = p.2) ∧
      (∀ pre p q post, l = pre ++ p :: q :: post → ∀ x, p.1 ≤ x → x ≤ q.1 →
        interp (timeMap l) x = p.2 + (x - p.1) * (q.2 - p.2) / (q.1 - p.1))) := by
  refine ⟨fun x y h => interp_mono _ x y (timeMap_mono l) h, fun h => ?_⟩
  have e : timeMap l = l := by
    unfold timeMap
    rw [sortByKey_of_sorted Prod.fst l (h.imp (fun h => h.1.le)), dedupKeys_of_strict l (h.imp (fun h => h.1))]
    cases l with
    | nil => rfl
    | cons p rest =>
      have h' := List.pairwise_cons.1 h
      dsimp only
      rw [runMax_of_mono p.2 rest (h'.2.imp (fun h => h.2)) (fun q hq => (h'.1 q hq).2)]
  rw [e]
  refine ⟨fun p hp => interp_at l p h hp, ?_⟩
  rintro pre p q post rfl x h1 h2
  exact interp_linear pre p q post x h h1 h2

example : interp (timeMap [(0, 0), (2, 1), (4, 5)]) 3 = 3 ∧ interp (timeMap [(2, 7), (0, 3), (2, 9), (4, 5)]) 3 = 7 := by
  constructor <;> decide +kernel

theorem clip0_mono {x y : ℚ} (h : x ≤ y) : clip0 x ≤ clip0 y := by
  unfold clip0; split <;> split <;> linarith

theorem clip0_nonneg (x : ℚ) : 0 ≤ clip0 x := by unfold clip0; split <;> linarith

theorem clip0_of_nonneg {x : ℚ} (h : 0 ≤ x) : clip0 x = x := by
  unfold clip0; split
  · rfl
  · linarith

/-- **C120, notes.** After `adjust_times`, every note of an instrument is a note that lay inside the original range, with
the same pitch and velocity, moved by the map; it has positive length, a non-negative start and ends no later than the last new
time (or 0). -/
theorem C120_notes (l : List (ℚ × ℚ)) (a b : ℚ × ℚ) (ha : (timeMap l).head? = some a) (hb : (timeMap l).getLast? = some b)
    (notes : List PNote) (n : PNote) (hn : n ∈ adjNotes (timeMap l) notes) :
    ∃ o ∈ notes, a.1 ≤ o.start ∧ o.stop ≤ b.1 ∧ n.pitch = o.pitch ∧ n.velocity = o.velocity ∧
      n.start = max 0 (interp (timeMap l) o.start) ∧ n.stop = max 0 (interp (timeMap l) o.stop) ∧
      0 ≤ n.start ∧ n.start < n.stop ∧ n.stop ≤ max 0 b.2 := by
  unfold adjNotes at hn
  rw [ha, hb] at hn
  dsimp only at hn
  rw [List.mem_filter, List.mem_map] at hn
  obtain ⟨⟨o, ho, rfl⟩, hlt⟩ := hn
  rw [List.mem_filter] at ho
  have hr := of_decide_eq_true ho.2
  have hlt := of_decide_eq_true hlt
  have hc : ∀ x, clip0 x = max 0 x := by
    intro x; unfold clip0
    split
    · rw [max_eq_right]; linarith
    · rw [max_eq_left]; linarith
  refine ⟨o, ho.1, hr.1, hr.2, rfl, rfl, hc _, hc _, clip0_nonneg _, hlt, ?_⟩
  show clip0 _ ≤ _
  rw [hc]
  exact max_le_max (le_refl _) (interp_le_last _ _ _ (timeMap_mono l) hb)

/-- **C120, no note is lost or merged with another.** If both arrays increase strictly and the new times are not negative, the notes of an
instrument after `adjust_times` are exactly its (proper) notes inside the range, in the same order, each moved by the map. -/
theorem C120_notes_kept (m : List (ℚ × ℚ)) (hm : Spec.Strict2 m) (a b : ℚ × ℚ) (ha : m.head? = some a)
    (hb : m.getLast? = some b) (h0 : 0 ≤ a.2) (notes : List PNote) (hv : ∀ n ∈ notes, n.start < n.stop) :
    adjNotes (timeMap m) notes =
      (notes.filter (fun n => decide (a.1 ≤ n.start ∧ n.stop ≤ b.1))).map
        (fun n => { n with start := interp m n.start, stop := interp m n.stop }) := by
  have hmono := Strict2.mono hm
  have e : timeMap m = m := by
    unfold timeMap
    rw [sortByKey_of_sorted Prod.fst m (hm.imp (fun h => h.1.le)), dedupKeys_of_strict m (hm.imp (fun h => h.1))]
    cases m with
    | nil => rfl
    | cons p rest =>
      have h' := List.pairwise_cons.1 hmono
      dsimp only
      rw [runMax_of_mono p.2 rest (h'.2.imp (fun h => h.2)) (fun q hq => (h'.1 q hq).2)]
  rw [e]
  unfold adjNotes
  rw [ha, hb]
  dsimp only
  have hge : ∀ x, 0 ≤ interp m x := by
    intro x
    cases m with
    | nil => cases ha
    | cons p rest =>
      simp at ha; subst ha
      exact le_trans h0 (interp_ge_head _ _ _ hmono)
  rw [List.filter_eq_self.2]
  · apply List.map_congr_left
    intro n _
    rw [clip0_of_nonneg (hge _), clip0_of_nonneg (hge _)]
  · intro n hn
    obtain ⟨o, ho, rfl⟩ := List.mem_map.1 hn
    rw [List.mem_filter] at ho
    have hr := of_decide_eq_true ho.2
    apply decide_eq_true
    show clip0 _ < clip0 _
    rw [clip0_of_nonneg (hge _), clip0_of_nonneg (hge _)]
    exact interp_strict m a b _ _ hm ha hb hr.1 (hv o ho.1) hr.2

example : adjNotes (timeMap [(0, 0), (2, 4)]) [⟨90, 60, 1/2, 1⟩, ⟨90, 61, 1, 3⟩] = [⟨90, 60, 1, 2⟩] := by
  rw [C120_notes_kept [(0, 0), (2, 4)] (by unfold Spec.Strict2; decide +kernel) (0, 0) (2, 4) rfl rfl (by decide +kernel) _
    (by decide +kernel)]
  decide +kernel

/-- **C120, no overlap is created**: a note that ended before (or when) another one began still does. -/
theorem C120_no_new_overlap (l : List (ℚ × ℚ)) (s t : ℚ) (h : s ≤ t) :
    clip0 (interp (timeMap l) s) ≤ clip0 (interp (timeMap l) t) :=
  clip0_mono (interp_mono _ _ _ (timeMap_mono l) h)

/-! ## C121 -/

section events
variable {E : Type} (time : E → ℚ) (setTime : E → ℚ → E)

/-- The event in force at time `t`: of the events up to `t`, the last in the order of time (the later in the list if
equal). -/
def Spec.inForce (evs : List E) (t : ℚ) : Option E :=
  ((sortByKey time evs).filter (fun e => decide (time e ≤ t))).getLast?

theorem adj_eq (m : List (ℚ × ℚ)) (a b : ℚ × ℚ) (ha : m.head? = some a) (hb : m.getLast? = some b) (evs : List E) :
    adjEvents time setTime m evs =
    ((((sortByKey time evs).map (fun e => setTime e (interp m (time e)))).filter
      (fun e => decide (time e = a.2))).getLast?).toList ++
      ((sortByKey time evs).map (fun e => setTime e (interp m (time e)))).filter
        (fun e => decide (a.2 < time e ∧ time e < b.2)) := by
  unfold adjEvents; rw [ha, hb]

theorem moved_sorted (hst : ∀ e t, time (setTime e t) = t) (m : List (ℚ × ℚ)) (hm : Monotone2 m) (evs : List E) :
    ((sortByKey time evs).map (fun e => setTime e (interp m (time e)))).Pairwise (fun x y => time x ≤ time y) := by
  rw [List.pairwise_map]
  refine (sortByKey_sorted time evs).imp ?_
  intro x y hxy
  rw [hst, hst]
  exact interp_mono m _ _ hm hxy

theorem adj_sorted (hst : ∀ e t, time (setTime e t) = t) (m : List (ℚ × ℚ)) (hm : Monotone2 m) (a b : ℚ × ℚ)
    (ha : m.head? = some a) (hb : m.getLast? = some b) (evs : List E) :
    (adjEvents time setTime m evs).Pairwise (fun x y => time x ≤ time y) := by
  rw [adj_eq time setTime m a b ha hb]
  have hs := moved_sorted time setTime hst m hm evs
  rw [List.pairwise_append]
  refine ⟨?_, hs.filter _, ?_⟩
  · cases ((((sortByKey time evs).map (fun e => setTime e (interp m (time e)))).filter
      (fun e => decide (time e = a.2))).getLast?) with
    | none => exact List.Pairwise.nil
    | some x => exact List.pairwise_singleton _ _
  · intro x hx y hy
    have hx' := List.mem_of_getLast? (Option.mem_toList.1 hx)
    have e := of_decide_eq_true (List.mem_filter.1 hx').2
    have := (of_decide_eq_true (List.mem_filter.1 hy).2).1
    linarith

/-- **C121, events.** After `adjust_times` an event list is in order of time, its events are moved events of the
original list, at most one event is at the first new time, and none before it or at or after the last new time. -/
theorem C121_events (hst : ∀ e t, time (setTime e t) = t) (l : List (ℚ × ℚ)) (a b : ℚ × ℚ)
    (ha : (timeMap l).head? = some a) (hb : (timeMap l).getLast? = some b) (evs : List E) :
    (adjEvents time setTime (timeMap l) evs).Pairwise (fun x y => time x ≤ time y) ∧
    (∀ x ∈ adjEvents time setTime (timeMap l) evs,
      (∃ e ∈ evs, x = setTime e (interp (timeMap l) (time e))) ∧ (time x = a.2 ∨ (a.2 < time x ∧ time x < b.2))) ∧
    ((adjEvents time setTime (timeMap l) evs).filter (fun x => decide (time x = a.2))).length ≤ 1 := by
  refine ⟨adj_sorted time setTime hst _ (timeMap_mono l) a b ha hb evs, ?_, ?_⟩
  · intro x hx
    rw [adj_eq time setTime _ a b ha hb] at hx
    have src : ∀ x ∈ (sortByKey time evs).map (fun e => setTime e (interp (timeMap l) (time e))),
        ∃ e ∈ evs, x = setTime e (interp (timeMap l) (time e)) := by
      intro x hx
      obtain ⟨e, he, rfl⟩ := List.mem_map.1 hx
      exact ⟨e, (sortByKey_perm time evs).mem_iff.1 he, rfl⟩
    rcases List.mem_append.1 hx with hx | hx
    · have hx' := List.mem_filter.1 (List.mem_of_getLast? (Option.mem_toList.1 hx))
      exact ⟨src x hx'.1, .inl (of_decide_eq_true hx'.2)⟩
    · have hx' := List.mem_filter.1 hx
      exact ⟨src x hx'.1, .inr (of_decide_eq_true hx'.2)⟩
  · rw [adj_eq time setTime _ a b ha hb, List.filter_append, List.length_append]
    have h2 : (((sortByKey time evs).map (fun e => setTime e (interp (timeMap l) (time e)))).filter
        (fun e => decide (a.2 < time e ∧ time e < b.2))).filter (fun x => decide (time x = a.2)) = [] := by
      rw [List.filter_eq_nil_iff]
      intro x hx
      have := (of_decide_eq_true (List.mem_filter.1 hx).2).1
      simp only [decide_eq_true_eq]
      intro e; linarith
    rw [h2]
    have h1 : ∀ o : Option E, (o.toList.filter (fun x => decide (time x = a.2))).length ≤ 1 := by
      intro o
      refine le_trans (List.length_filter_le _ _) ?_
      cases o <;> simp
    have := h1 ((((sortByKey time evs).map (fun e => setTime e (interp (timeMap l) (time e)))).filter
      (fun e => decide (time e = a.2))).getLast?)
    simpa using this

theorem filter_le_of_sorted {l : List E} (h : l.Pairwise (fun x y => time x ≤ time y)) (t : ℚ) :
    ∃ u v, l = u ++ v ∧ l.filter (fun e => decide (time e ≤ t)) = u ∧ (∀ x ∈ v, t < time x) := by
  induction l with
  | nil => exact ⟨[], [], rfl, rfl, by simp⟩
  | cons x xs ih =>
    rw [List.pairwise_cons] at h
    by_cases hx : time x ≤ t
    · obtain ⟨u, v, e1, e2, e3⟩ := ih h.2
      refine ⟨x :: u, v, by rw [e1]; rfl, ?_, e3⟩
      rw [List.filter_cons_of_pos (by simpa using hx), e2]
    · refine ⟨[], x :: xs, rfl, ?_, ?_⟩
      · rw [List.filter_eq_nil_iff]
        intro y hy
        simp only [decide_eq_true_eq]
        rcases List.mem_cons.1 hy with rfl | hy
        · exact hx
        · intro hc; exact hx (le_trans (h.1 y hy) hc)
      · intro y hy
        rw [not_le] at hx
        rcases List.mem_cons.1 hy with rfl | hy
        · exact hx
        · exact lt_of_lt_of_le hx (h.1 y hy)

/-- **C121, what is in force stays in force.** With strictly increasing times, for every time `t` in the original range (before
its end): the event in force at the moved time is the event that was in force at `t`, moved. -/
theorem C121_in_force (hst : ∀ e t, time (setTime e t) = t) (m : List (ℚ × ℚ)) (hm : Spec.Strict2 m) (a b : ℚ × ℚ)
    (ha : m.head? = some a) (hb : m.getLast? = some b) (evs : List E) (t : ℚ) (h1 : a.1 ≤ t) (h2 : t < b.1) :
    Spec.inForce time (adjEvents time setTime (timeMap m) evs) (interp m t) =
      (Spec.inForce time evs t).map (fun e => setTime e (interp m (time e))) := by
  have hmono := Strict2.mono hm
  have e : timeMap m = m := by
    unfold timeMap
    rw [sortByKey_of_sorted Prod.fst m (hm.imp (fun h => h.1.le)), dedupKeys_of_strict m (hm.imp (fun h => h.1))]
    cases m with
    | nil => rfl
    | cons p rest =>
      have h' := List.pairwise_cons.1 hmono
      dsimp only
      rw [runMax_of_mono p.2 rest (h'.2.imp (fun h => h.2)) (fun q hq => (h'.1 q hq).2)]
  rw [e]
  have hsorted := adj_sorted time setTime hst m hmono a b ha hb evs
  have hata : interp m a.1 = a.2 := interp_at m a hmono (List.mem_of_head? ha)
  have hatb : interp m b.1 = b.2 := interp_at m b hmono (List.mem_of_getLast? hb)
  have hta : a.2 ≤ interp m t := by rw [← hata]; exact interp_mono m _ _ hmono h1
  have htb : interp m t < b.2 := by rw [← hatb]; exact interp_strict m a b _ _ hm ha hb h1 h2 (le_refl _)
  -- comparing a moved time with the moved `t` is comparing the times
  have cmp : ∀ x, interp m x ≤ interp m t ↔ x ≤ t := by
    intro x
    constructor
    · intro h
      by_contra hc
      rw [not_le] at hc
      by_cases hx : x ≤ b.1
      · exact absurd (interp_strict m a b _ _ hm ha hb h1 hc hx) (not_lt.2 h)
      · rw [not_le] at hx
        have hbx : interp m b.1 ≤ interp m x := interp_mono m _ _ hmono hx.le
        rw [hatb] at hbx; linarith
    · exact fun h => interp_mono m _ _ hmono h
  unfold Spec.inForce
  rw [sortByKey_of_sorted time _ hsorted, adj_eq time setTime m a b ha hb, List.filter_append]
  set moved := (sortByKey time evs).map (fun e => setTime e (interp m (time e))) with hmv
  have hge : ∀ x ∈ moved, a.2 ≤ time x := by
    intro x hx
    obtain ⟨y, _, rfl⟩ := List.mem_map.1 hx
    rw [hst]
    cases m with
    | nil => cases ha
    | cons p rest => simp at ha; subst ha; exact interp_ge_head _ _ _ hmono
  have hR : (moved.filter (fun x => decide (time x ≤ interp m t))) =
      ((sortByKey time evs).filter (fun e => decide (time e ≤ t))).map (fun e => setTime e (interp m (time e))) := by
    rw [hmv, List.filter_map]
    congr 1
    apply List.filter_congr
    intro x _
    simp only [Function.comp, hst]
    exact decide_eq_decide.2 (cmp _)
  rw [← List.getLast?_map, ← hR]
  -- the kept events up to the moved `t`
  have hms := moved_sorted time setTime hst m hmono evs
  rw [← hmv] at hms
  have f1 : ∀ o : Option E, (∀ x, o = some x → time x = a.2) →
      o.toList.filter (fun x => decide (time x ≤ interp m t)) = o.toList := by
    intro o ho
    rw [List.filter_eq_self]
    intro x hx
    have := ho x (Option.mem_toList.1 hx)
    simp only [decide_eq_true_eq]; rw [this]; exact hta
  have hlast : ∀ x, (moved.filter (fun e => decide (time e = a.2))).getLast? = some x → time x = a.2 :=
    fun x hx => of_decide_eq_true (List.mem_filter.1 (List.mem_of_getLast? hx)).2
  rw [f1 _ hlast, List.filter_filter]
  have f2 : moved.filter (fun x => decide (time x ≤ interp m t) && decide (a.2 < time x ∧ time x < b.2)) =
      (moved.filter (fun x => decide (time x ≤ interp m t))).filter (fun x => decide (a.2 < time x)) := by
    rw [List.filter_filter]
    apply List.filter_congr
    intro x _
    by_cases hx : time x ≤ interp m t
    · have : time x < b.2 := lt_of_le_of_lt hx htb
      simp [hx, this]
    · simp [hx]
  rw [f2]
  have f3 : moved.filter (fun e => decide (time e = a.2)) =
      (moved.filter (fun x => decide (time x ≤ interp m t))).filter (fun x => decide (time x = a.2)) := by
    rw [List.filter_filter]
    apply List.filter_congr
    intro x _
    by_cases hx : time x = a.2
    · have h3 : time x ≤ interp m t := by rw [hx]; exact hta
      rw [decide_eq_true hx, decide_eq_true h3]; rfl
    · rw [decide_eq_false hx]; rfl
  rw [f3]
  have hKs : (moved.filter (fun x => decide (time x ≤ interp m t))).Pairwise (fun x y => time x ≤ time y) := hms.filter _
  have hKge : ∀ x ∈ moved.filter (fun x => decide (time x ≤ interp m t)), a.2 ≤ time x :=
    fun x hx => hge x (List.mem_filter.1 hx).1
  generalize moved.filter (fun x => decide (time x ≤ interp m t)) = K at hKs hKge
  -- K is a run at the first time followed by later ones
  obtain ⟨u, v, e1, e2, e3⟩ := filter_le_of_sorted time hKs a.2
  have g1 : K.filter (fun x => decide (time x = a.2)) = u := by
    rw [← e2]
    apply List.filter_congr
    intro x hx
    have := hKge x hx
    exact decide_eq_decide.2 ⟨fun h => h.le, fun h => le_antisymm h this⟩
  have g2 : K.filter (fun x => decide (a.2 < time x)) = v := by
    rw [e1, List.filter_append]
    have : u.filter (fun x => decide (a.2 < time x)) = [] := by
      rw [List.filter_eq_nil_iff]
      intro x hx
      rw [← e2] at hx
      have := of_decide_eq_true (List.mem_filter.1 hx).2
      simp only [decide_eq_true_eq]; intro hc; linarith
    rw [this, List.nil_append, List.filter_eq_self.2]
    intro x hx; exact decide_eq_true (e3 x hx)
  rw [g1, g2, e1]
  cases v with
  | nil =>
    rw [List.append_nil, List.append_nil]
    cases h : u.getLast? with
    | none => rfl
    | some x => rfl
  | cons z zs =>
    rw [List.getLast?_append, List.getLast?_append]
    rfl

end events

/-- **C121 does not hold for control changes of different controllers.** They are in one list, and of all control
changes at or before the start only the last is kept: whatever the controllers are, a list of such control changes becomes a list with
a single one. -/
theorem C121_controllers_lost (m : List (ℚ × ℚ)) (hm : Spec.Strict2 m) (a b : ℚ × ℚ) (ha : m.head? = some a)
    (hb : m.getLast? = some b) (i : PInst) (hne : i.controls ≠ []) (hc : ∀ c ∈ i.controls, c.2.2 ≤ a.1) :
    ∃ c ∈ i.controls, (adjInst (timeMap m) i).controls = [(c.1, c.2.1, a.2)] := by
  have hmono := Strict2.mono hm
  have e : timeMap m = m := by
    unfold timeMap
    rw [sortByKey_of_sorted Prod.fst m (hm.imp (fun h => h.1.le)), dedupKeys_of_strict m (hm.imp (fun h => h.1))]
    cases m with
    | nil => rfl
    | cons p rest =>
      have h' := List.pairwise_cons.1 hmono
      dsimp only
      rw [runMax_of_mono p.2 rest (h'.2.imp (fun h => h.2)) (fun q hq => (h'.1 q hq).2)]
  rw [e]
  have hat : ∀ x, x ≤ a.1 → interp m x = a.2 := by
    intro x hx
    cases m with
    | nil => cases ha
    | cons p rest => simp at ha; subst ha; exact interp_le_head _ _ _ hx
  unfold adjInst
  dsimp only
  rw [adj_eq _ _ m a b ha hb]
  have hmv : (sortByKey (fun e : Nat × Nat × ℚ => e.2.2) i.controls).map
      (fun e => (e.1, e.2.1, interp m e.2.2)) =
      (sortByKey (fun e : Nat × Nat × ℚ => e.2.2) i.controls).map (fun e => (e.1, e.2.1, a.2)) := by
    apply List.map_congr_left
    intro c hcm
    rw [hat _ (hc c ((sortByKey_perm _ _).mem_iff.1 hcm))]
  rw [hmv]
  have f1 : ∀ l : List (Nat × Nat × ℚ),
      (l.map (fun e => (e.1, e.2.1, a.2))).filter (fun e => decide (e.2.2 = a.2)) = l.map (fun e => (e.1, e.2.1, a.2)) := by
    intro l; rw [List.filter_eq_self]; intro x hx
    obtain ⟨y, _, rfl⟩ := List.mem_map.1 hx
    simp
  have f2 : ∀ l : List (Nat × Nat × ℚ),
      (l.map (fun e => (e.1, e.2.1, a.2))).filter (fun e => decide (a.2 < e.2.2 ∧ e.2.2 < b.2)) = [] := by
    intro l; rw [List.filter_eq_nil_iff]; intro x hx
    obtain ⟨y, _, rfl⟩ := List.mem_map.1 hx
    simp
  rw [f1, f2, List.append_nil, List.getLast?_map]
  have hs : sortByKey (fun e : Nat × Nat × ℚ => e.2.2) i.controls ≠ [] := by
    intro h; apply hne
    have := (sortByKey_perm (fun e : Nat × Nat × ℚ => e.2.2) i.controls)
    rw [h] at this; exact this.nil_eq.symm
  rw [List.getLast?_eq_some_getLast hs]
  refine ⟨_, (sortByKey_perm _ _).mem_iff.1 (List.getLast_mem hs), rfl⟩

/-- Volume and pan at time 0: the volume is lost. -/
example : (adjInst (timeMap [(0, 0), (8, 8)]) ⟨0, false, "", [], [], [(7, 100, 0), (10, 64, 0)]⟩).controls =
    [(10, 64, 0)] := by decide +kernel

example : Spec.inForce (fun e : Int × ℚ => e.2)
    (adjEvents (fun e => e.2) (fun e t => (e.1, t)) (timeMap [(1, 0), (5, 8)]) [(7, 2), (5, 0), (6, 1)]) (interp [(1, 0), (5, 8)] (3/2))
    = some (6, 0) := by
  rw [C121_in_force (fun e : Int × ℚ => e.2) (fun e t => (e.1, t)) (fun _ _ => rfl) [(1, 0), (5, 8)]
    (by unfold Spec.Strict2; decide +kernel) (1, 0) (5, 8) rfl rfl _ (3/2) (by decide +kernel) (by decide +kernel)]
  decide +kernel

end NGC
