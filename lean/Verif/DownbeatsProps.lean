import Verif.BeatsProps2

/-! C124: the downbeats. -/

namespace NGC

open Spec (metre elapsed TempoFrom quarters TempoList Close MetreAt InForce NextBeat Tame)

namespace Spec

/-- Beats of a bar: the numerator, a third of it in compound metres. -/
def barLen (num : Int) : Int := if num % 3 = 0 ∧ num ≠ 3 then num / 3 else num

/-- For a beat at `d`: the beat `b` from which bars are counted and the number `n` of beats of a bar. Bars are counted from
the last time signature at or before `d` (from `start` if that is later), and before the first time signature from `start`
in 4/4. -/
def BarsFrom (tss : List (Int × Int × ℚ)) (start d b : ℚ) (n : Int) : Prop :=
  (∃ y ∈ tss, y.2.2 ≤ d ∧ (∀ z ∈ tss, z.2.2 ≤ d → z.2.2 ≤ y.2.2) ∧ b = max start y.2.2 ∧ n = barLen y.1) ∨
  ((∀ z ∈ tss, d < z.2.2) ∧ b = start ∧ n = 4)

/-- The beat number `k` of the list `l` is the first of a bar. -/
def FirstOfBar (tss : List (Int × Int × ℚ)) (start : ℚ) (l : List ℚ) (k : Nat) : Prop :=
  ∃ d j b n, l[k]? = some d ∧ BarsFrom tss start d b n ∧ l[j]? = some b ∧ j ≤ k ∧ ((k : Int) - j) % n = 0

end Spec

open Spec (barLen BarsFrom FirstOfBar)

theorem barLen_eq (num : Int) : barBeats num = barLen num := rfl

theorem barLen_pos (num : Int) (h : 0 < num) : 0 < barLen num := by
  unfold barLen
  split <;> omega

/-! ### Every n-th element -/

theorem everyNth_sublist (n : Nat) (l : List ℚ) : (everyNth n l).Sublist l := by
  unfold everyNth
  have := (List.filter_sublist (p := fun p : ℚ × Nat => decide (p.2 % n = 0)) (l := l.zipIdx)).map Prod.fst
  rw [List.zipIdx_map_fst] at this
  exact this

theorem mem_everyNth (n : Nat) (l : List ℚ) (d : ℚ) : d ∈ everyNth n l ↔ ∃ i : Nat, l[i]? = some d ∧ i % n = 0 := by
  unfold everyNth
  simp only [List.mem_map, List.mem_filter, decide_eq_true_eq, Prod.exists, exists_eq_right, exists_and_right]
  constructor
  · rintro ⟨i, h1, h2⟩
    exact ⟨i, List.mem_zipIdx_iff_getElem?.1 h1, h2⟩
  · rintro ⟨i, h1, h2⟩
    exact ⟨i, List.mem_zipIdx_iff_getElem?.2 h1, h2⟩

/-- The slice from index `a` up to `b` (or to the end) in steps. -/
theorem strided_spec (l : List ℚ) (a : Nat) (b : Option Nat) (step : Int) (hstep : 0 < step) :
    ∃ r, strided l a b step = .ok r ∧
      r.Sublist (((match b with | some b => l.take b | none => l)).drop a) ∧
      ∀ d, d ∈ r ↔ ∃ k : Nat, l[k]? = some d ∧ a ≤ k ∧ (∀ b', b = some b' → k < b') ∧ ((k : Int) - a) % step = 0 := by
  have hcast : ((step.toNat : Nat) : Int) = step := by omega
  have hmod : ∀ i : Nat, i % step.toNat = 0 ↔ (i : Int) % step = 0 := by
    intro i
    constructor
    · intro h
      rw [← hcast, ← Int.natCast_mod, h]; rfl
    · intro h
      rw [← hcast, ← Int.natCast_mod] at h
      exact_mod_cast h
  unfold strided
  rw [if_neg (by omega)]
  cases b with
  | none =>
    refine ⟨_, rfl, everyNth_sublist _ _, ?_⟩
    intro d
    dsimp only
    rw [mem_everyNth]
    constructor
    · rintro ⟨i, h1, h2⟩
      rw [List.getElem?_drop] at h1
      exact ⟨a + i, h1, by omega, by simp, by rw [← (hmod i).1 h2]; congr 1; push_cast; ring⟩
    · rintro ⟨k, h1, h2, _, h3⟩
      refine ⟨k - a, ?_, ?_⟩
      · rw [List.getElem?_drop, show a + (k - a) = k by omega]; exact h1
      · rw [hmod, Nat.cast_sub h2]; exact h3
  | some b =>
    refine ⟨_, rfl, everyNth_sublist _ _, ?_⟩
    intro d
    dsimp only
    rw [mem_everyNth]
    constructor
    · rintro ⟨i, h1, h2⟩
      rw [List.getElem?_drop, List.getElem?_take] at h1
      split at h1
      · rename_i hlt
        refine ⟨a + i, h1, by omega, ?_, by rw [← (hmod i).1 h2]; congr 1; push_cast; ring⟩
        intro b' hb'
        cases hb'
        exact hlt
      · cases h1
    · rintro ⟨k, h1, h2, h4, h3⟩
      refine ⟨k - a, ?_, ?_⟩
      · rw [List.getElem?_drop, show a + (k - a) = k by omega, List.getElem?_take, if_pos (h4 b rfl)]; exact h1
      · rw [hmod, Nat.cast_sub h2]; exact h3

/-! ### The index of a beat -/

theorem closeIdx_exact (l : List ℚ) (T : ℚ) (e j : Nat) (ho : l.Pairwise (· < ·)) (hj : l[j]? = some T)
    (hfar : ∀ b ∈ l, b < T → ¬ Close b T) : closeIdx l T e = j := by
  unfold closeIdx
  have : l.findIdx? (fun b => npClose b T) = some j := by
    rw [List.findIdx?_eq_some_iff_getElem]
    have hlt : j < l.length := by
      by_contra hc
      rw [List.getElem?_eq_none (by omega)] at hj
      cases hj
    have hTj : l[j] = T := by rw [List.getElem?_eq_getElem hlt] at hj; exact Option.some.inj hj
    refine ⟨hlt, ?_, ?_⟩
    · rw [hTj, npClose_iff]; exact close_self T
    · intro i hi
      rw [npClose_iff]
      have h1 := List.pairwise_iff_getElem.1 ho i j (by omega) hlt hi
      rw [hTj] at h1
      exact hfar _ (List.getElem_mem _) h1
  rw [this]

theorem closeIdx_before (l : List ℚ) (T start : ℚ) (ho : l.Pairwise (· < ·)) (hh : ∀ x, l.head? = some x → x = start)
    (hT : T ≤ start) : closeIdx l T 0 = 0 := by
  unfold closeIdx
  cases h : l.findIdx? (fun b => npClose b T) with
  | none => rfl
  | some i =>
    dsimp only
    rw [List.findIdx?_eq_some_iff_getElem] at h
    obtain ⟨hi, h1, h2⟩ := h
    by_contra hne
    have h0 : 0 < l.length := by omega
    have hst : l[0] = start := by
      apply hh
      rw [List.head?_eq_getElem?, List.getElem?_eq_getElem h0]
    have hlt := List.pairwise_iff_getElem.1 ho 0 i h0 hi (by omega)
    rw [hst] at hlt
    apply h2 0 (by omega)
    rw [npClose_iff] at h1 ⊢
    rw [hst]
    unfold Close at *
    rw [abs_of_nonneg (by linarith)] at *
    linarith

/-! ### The spans -/

/-- For time signatures in order: where each begins. -/
theorem downGo_spec (l : List ℚ) (ho : l.Pairwise (· < ·)) (idx : ℚ → Nat) : ∀ (rest : List (Int × Int × ℚ)) (x : Int × Int × ℚ) (e : Nat),
    (∀ y ∈ x :: rest, 0 < y.1) → (x :: rest).Pairwise (fun y z => idx y.2.2 ≤ idx z.2.2) →
    (closeIdx l x.2.2 e = idx x.2.2) → (closeIdx l x.2.2 0 = idx x.2.2) →
    (∀ y ∈ rest, ∀ d, (∃ z ∈ x :: rest, d = idx z.2.2 ∧ d ≤ idx y.2.2) → closeIdx l y.2.2 d = idx y.2.2) →
    (∀ y ∈ rest, closeIdx l y.2.2 0 = idx y.2.2) →
    ∃ r, downGo l (x :: rest) e = .ok r ∧ r.Sublist (l.drop (idx x.2.2)) ∧
      ∀ d, d ∈ r ↔ ∃ k : Nat, l[k]? = some d ∧ idx x.2.2 ≤ k ∧
        ∃ pre y post, x :: rest = pre ++ y :: post ∧ idx y.2.2 ≤ k ∧ (∀ z ∈ post, k < idx z.2.2) ∧
          ((k : Int) - idx y.2.2) % barLen y.1 = 0 := by
  intro rest
  induction rest with
  | nil =>
    intro x e hpos _ h1 _ _ _
    obtain ⟨r, s1, s2, s3⟩ := strided_spec l (idx x.2.2) none (barBeats x.1) (barLen_pos x.1 (hpos x (by simp)))
    refine ⟨r, ?_, s2, ?_⟩
    · unfold downGo; rw [h1]; exact s1
    · intro d
      rw [s3]
      constructor
      · rintro ⟨k, k1, k2, _, k3⟩
        exact ⟨k, k1, k2, [], x, [], rfl, k2, by simp, k3⟩
      · rintro ⟨k, k1, k2, pre, y, post, e1, k3, k4, k5⟩
        cases pre with
        | nil =>
          cases e1
          exact ⟨k, k1, k2, by simp, k5⟩
        | cons a pre => simp at e1
  | cons y rest ih =>
    intro x e hpos hord h1 h10 h2 h3
    have hord' := List.pairwise_cons.1 hord
    have hxy := hord'.1 y (by simp)
    have hb : closeIdx l y.2.2 (idx x.2.2) = idx y.2.2 := h2 y (by simp) _ ⟨x, by simp, rfl, hxy⟩
    obtain ⟨r1, s1, s2, s3⟩ := strided_spec l (idx x.2.2) (some (idx y.2.2)) (barBeats x.1) (barLen_pos x.1 (hpos x (by simp)))
    obtain ⟨r2, i1, i2, i3⟩ := ih y (idx y.2.2) (fun z hz => hpos z (by simp [List.mem_cons.1 hz])) hord'.2
      (h2 y (by simp) _ ⟨y, by simp, rfl, le_refl _⟩) (h3 y (by simp))
      (fun z hz d hd => h2 z (by simp [hz]) d (by
        obtain ⟨w, hw, e1, e2⟩ := hd
        exact ⟨w, List.mem_cons_of_mem _ hw, e1, e2⟩))
      (fun z hz => h3 z (by simp [hz]))
    refine ⟨r1 ++ r2, ?_, ?_, ?_⟩
    · rw [downGo, h10, hb, s1]
      dsimp only [bind, Except.bind]
      rw [i1]
    · have e1 : l.drop (idx x.2.2) = (l.take (idx y.2.2)).drop (idx x.2.2) ++ l.drop (idx y.2.2) := by
        conv_lhs => rw [← List.take_append_drop (idx y.2.2) l]
        rw [List.drop_append]
        congr 1
        by_cases hc : idx y.2.2 ≤ l.length
        · rw [List.length_take, min_eq_left hc, show idx x.2.2 - idx y.2.2 = 0 by omega, List.drop_zero]
        · rw [List.drop_eq_nil_of_le (by omega : l.length ≤ idx y.2.2)]; simp
      rw [e1]
      exact s2.append i2
    · intro d
      rw [List.mem_append, s3, i3]
      constructor
      · rintro (⟨k, k1, k2, k3, k4⟩ | ⟨k, k1, k2, pre, z, post, e1, k3, k4, k5⟩)
        · refine ⟨k, k1, k2, [], x, y :: rest, rfl, k2, ?_, k4⟩
          have hk := k3 _ rfl
          intro z hz
          rcases List.mem_cons.1 hz with rfl | hz
          · exact hk
          · exact lt_of_lt_of_le hk ((List.pairwise_cons.1 hord'.2).1 z hz)
        · exact ⟨k, k1, le_trans hxy k2, x :: pre, z, post, by rw [e1]; rfl, k3, k4, k5⟩
      · rintro ⟨k, k1, k2, pre, z, post, e1, k3, k4, k5⟩
        cases pre with
        | nil =>
          rw [List.nil_append] at e1
          obtain ⟨rfl, rfl⟩ := List.cons.inj e1
          left
          refine ⟨k, k1, k2, ?_, k5⟩
          intro b' hb'
          cases hb'
          exact k4 y (by simp)
        | cons a pre =>
          rw [List.cons_append] at e1
          obtain ⟨rfl, e2⟩ := List.cons.inj e1
          right
          refine ⟨k, k1, ?_, pre, z, post, e2, k3, k4, k5⟩
          have hyz : idx y.2.2 ≤ idx z.2.2 := by
            have hz : z ∈ y :: rest := by rw [e2]; simp
            rcases List.mem_cons.1 hz with rfl | hz
            · exact le_refl _
            · exact (List.pairwise_cons.1 hord'.2).1 z hz
          omega

/-! ### The theorem -/

/-- No beat is just before a time signature. -/
theorem beats_far {tempi : List (ℚ × ℚ)} {tss : List (Int × Int × ℚ)} (H : Tame tempi tss) {stop : ℚ} : ∀ (l : List ℚ) (b : ℚ),
    Spec.Beats tempi tss stop b l → (∀ y ∈ tss, b < y.2.2 → ¬ Close b y.2.2) →
    ∀ x ∈ l, ∀ y ∈ tss, x < y.2.2 → ¬ Close x y.2.2 := by
  intro l
  induction l with
  | nil => intro b _ _ x hx; cases hx
  | cons a l ih =>
    intro b h hfar x hx
    obtain ⟨rfl, _, b', h3, h4⟩ := h
    rcases List.mem_cons.1 hx with rfl | hx
    · exact hfar
    · refine ih b' h4 ?_ x hx
      obtain ⟨f, T, _, hT, _, h5⟩ := h3
      rcases h5 with ⟨rfl, h6⟩ | ⟨z, hz, rfl, h6, _, _⟩
      · intro y hy hlt
        exact (h6 y hy (lt_trans hT hlt)).2
      · intro y hy hlt
        exact H.apart z hz y hy hlt

theorem index_lt_iff (l : List ℚ) (ho : l.Pairwise (· < ·)) (i j : Nat) (a b : ℚ) (hi : l[i]? = some a) (hj : l[j]? = some b) :
    i ≤ j ↔ a ≤ b := by
  have hil : i < l.length := by
    by_contra hc; rw [List.getElem?_eq_none (by omega)] at hi; cases hi
  have hjl : j < l.length := by
    by_contra hc; rw [List.getElem?_eq_none (by omega)] at hj; cases hj
  rw [List.getElem?_eq_getElem hil] at hi
  rw [List.getElem?_eq_getElem hjl] at hj
  have hi := Option.some.inj hi
  have hj := Option.some.inj hj
  constructor
  · intro h
    rcases Nat.lt_or_eq_of_le h with h | h
    · have := List.pairwise_iff_getElem.1 ho i j hil hjl h
      rw [hi, hj] at this; exact this.le
    · subst h; rw [← hi, ← hj]
  · intro h
    by_contra hc
    have := List.pairwise_iff_getElem.1 ho j i hjl hil (by omega)
    rw [hi, hj] at this
    linarith

/-- The case that the first time signature is at or before `start`. -/
theorem downGo_from {tempi : List (ℚ × ℚ)} {tss : List (Int × Int × ℚ)} {stop start : ℚ} (l : List ℚ)
    (hord : l.Pairwise (· < ·)) (hhead : ∀ x, l.head? = some x → x = start)
    (hge : ∀ x ∈ l, start ≤ x)
    (x : Int × Int × ℚ) (rest : List (Int × Int × ℚ)) (hx : x.2.2 ≤ start)
    (hso : (x :: rest).Pairwise (fun y z => y.2.2 < z.2.2)) (hpos : ∀ y ∈ x :: rest, 0 < y.1)
    (hmem : ∀ y ∈ x :: rest, start < y.2.2 → y.2.2 ∈ l ∧ ∀ b ∈ l, b < y.2.2 → ¬ Close b y.2.2) :
    ∃ r, downGo l (x :: rest) 0 = .ok r ∧ r.Sublist l ∧ ∀ d, d ∈ r ↔ ∃ (k : Nat), l[k]? = some d ∧
      ∃ y ∈ x :: rest, ∃ j : Nat, l[j]? = some (max start y.2.2) ∧ j ≤ k ∧ y.2.2 ≤ d ∧
        (∀ z ∈ x :: rest, z.2.2 ≤ d → z.2.2 ≤ y.2.2) ∧ ((k : Int) - j) % barLen y.1 = 0 := by
  classical
  let idx : ℚ → Nat := fun T => if T ≤ start then 0 else l.findIdx (fun b => decide (b = T))
  have hidx : ∀ y ∈ x :: rest, start < y.2.2 → l[idx y.2.2]? = some y.2.2 := by
    intro y hy hlt
    have hm := (hmem y hy hlt).1
    simp only [idx, if_neg (not_le.2 hlt)]
    have hl : l.findIdx (fun b => decide (b = y.2.2)) < l.length := List.findIdx_lt_length_of_exists ⟨y.2.2, hm, by simp⟩
    rw [List.getElem?_eq_getElem hl]
    have := List.findIdx_getElem (p := fun b => decide (b = y.2.2)) (xs := l) (w := hl)
    simp only [decide_eq_true_eq] at this
    rw [this]
  have hidx0 : ∀ y : Int × Int × ℚ, y.2.2 ≤ start → idx y.2.2 = 0 := by
    intro y hy; simp only [idx, if_pos hy]
  have hmono : ∀ y ∈ x :: rest, ∀ z ∈ x :: rest, y.2.2 < z.2.2 → idx y.2.2 ≤ idx z.2.2 := by
    intro y hy z hz hyz
    by_cases h1 : y.2.2 ≤ start
    · rw [hidx0 y h1]; omega
    · exact (index_lt_iff l hord _ _ _ _ (hidx y hy (not_le.1 h1)) (hidx z hz (lt_trans (not_le.1 h1) hyz))).2 hyz.le
  have hci : ∀ y ∈ x :: rest, ∀ d, d ≤ idx y.2.2 → closeIdx l y.2.2 d = idx y.2.2 := by
    intro y hy d hd
    by_cases h1 : y.2.2 ≤ start
    · rw [hidx0 y h1] at hd ⊢
      rw [show d = 0 by omega]
      exact closeIdx_before l y.2.2 start hord hhead h1
    · exact closeIdx_exact l y.2.2 d _ hord (hidx y hy (not_le.1 h1)) (hmem y hy (not_le.1 h1)).2
  have hpw : (x :: rest).Pairwise (fun y z => idx y.2.2 ≤ idx z.2.2) := by
    rw [List.pairwise_iff_getElem] at hso ⊢
    intro i j hi hj hij
    exact hmono _ (List.getElem_mem _) _ (List.getElem_mem _) (hso i j hi hj hij)
  have hxm : x ∈ x :: rest := List.mem_cons_self
  obtain ⟨r, g1, g2, g3⟩ := downGo_spec l hord idx rest x 0 hpos hpw (hci x hxm 0 (by omega)) (hci x hxm 0 (by omega))
    (fun y hy d hd => by
      obtain ⟨_, _, _, h⟩ := hd
      exact hci y (List.mem_cons_of_mem _ hy) d h)
    (fun y hy => hci y (List.mem_cons_of_mem _ hy) 0 (by omega))
  refine ⟨r, g1, g2.trans (List.drop_sublist _ _), ?_⟩
  intro d
  rw [g3]
  have hk0 : ∀ k : Nat, l[k]? = some d → l[0]? = some start := by
    intro k hk
    have h0 : 0 < l.length := by
      by_contra hc; rw [List.getElem?_eq_none (by omega)] at hk; cases hk
    rw [List.getElem?_eq_getElem h0]
    congr 1
    apply hhead
    rw [List.head?_eq_getElem?, List.getElem?_eq_getElem h0]
  have hle : ∀ k : Nat, l[k]? = some d → ∀ y ∈ x :: rest, idx y.2.2 ≤ k ↔ y.2.2 ≤ d := by
    intro k hk y hy
    by_cases h1 : y.2.2 ≤ start
    · rw [hidx0 y h1]
      have := hge d (List.mem_of_getElem? hk)
      exact ⟨fun _ => le_trans h1 this, fun _ => Nat.zero_le _⟩
    · exact index_lt_iff l hord _ _ _ _ (hidx y hy (not_le.1 h1)) hk
  have hat : ∀ k : Nat, l[k]? = some d → ∀ y ∈ x :: rest, l[idx y.2.2]? = some (max start y.2.2) := by
    intro k hk y hy
    by_cases h1 : y.2.2 ≤ start
    · rw [hidx0 y h1, max_eq_left h1]; exact hk0 k hk
    · rw [max_eq_right (not_le.1 h1).le]; exact hidx y hy (not_le.1 h1)
  constructor
  · rintro ⟨k, k1, k2, pre, y, post, e1, k3, k4, k5⟩
    have hy : y ∈ x :: rest := by rw [e1]; simp
    refine ⟨k, k1, y, hy, idx y.2.2, hat k k1 y hy, k3, (hle k k1 y hy).1 k3, ?_, k5⟩
    intro z hz hzd
    have hz' := hz
    rw [e1] at hz hso
    have hso' := List.pairwise_append.1 hso
    rcases List.mem_append.1 hz with hz | hz
    · exact (hso'.2.2 z hz y (by simp)).le
    · rcases List.mem_cons.1 hz with rfl | hz
      · exact le_refl _
      · have h1 := k4 z hz
        have h2 := (hle k k1 z hz').2 hzd
        omega
  · rintro ⟨k, k1, y, hy, j, j1, j2, j3, j4, j5⟩
    have hj : j = idx y.2.2 := by
      have a1 := (index_lt_iff l hord _ _ _ _ j1 (hat k k1 y hy)).2 (le_refl _)
      have a2 := (index_lt_iff l hord _ _ _ _ (hat k k1 y hy) j1).2 (le_refl _)
      omega
    subst hj
    obtain ⟨pre, post, e1⟩ := List.append_of_mem hy
    refine ⟨k, k1, by rw [hidx0 x hx]; omega, pre, y, post, e1, j2, ?_, j5⟩
    intro z hz
    by_contra hc
    have hz' : z ∈ x :: rest := by rw [e1]; simp [hz]
    have h1 := j4 z hz' ((hle k k1 z hz').1 (by omega))
    rw [e1] at hso
    have := (List.pairwise_cons.1 (List.pairwise_append.1 hso).2.1).1 z hz
    linarith

theorem barsFrom_perm {a b : List (Int × Int × ℚ)} (h : a.Perm b) {start d u : ℚ} {n : Int} (H : BarsFrom a start d u n) :
    BarsFrom b start d u n := by
  rcases H with ⟨y, h1, h2, h3, h4⟩ | ⟨h1, h2⟩
  · exact Or.inl ⟨y, h.subset h1, h2, fun z hz => h3 z (h.symm.subset hz), h4⟩
  · exact Or.inr ⟨fun z hz => h1 z (h.symm.subset hz), h2⟩

theorem downbeats_prefix (l : List ℚ) (tss : List (Int × Int × ℚ)) (start : ℚ) (hall : ∀ y ∈ tss, start < y.2.2) :
    downbeats l tss start = (do
      let r ← downGo l ((4, 4, start) :: tss) 0
      .ok (r.filter (fun d => decide (start ≤ d)))) := by
  unfold downbeats
  cases tss with
  | nil => rfl
  | cons x xs => dsimp only; rw [if_pos (hall x (by simp))]

theorem downbeats_ok {tempi : List (ℚ × ℚ)} {tss : List (Int × Int × ℚ)} {stop start : ℚ} (H : Tame tempi tss)
    (l : List ℚ) (hb : Spec.Beats tempi tss stop start l) (hso : tss.Pairwise (fun y z => y.2.2 < z.2.2))
    (hlt : ∀ y ∈ tss, y.2.2 < stop) (hst : ∀ y ∈ tss, start < y.2.2 → ¬ Close start y.2.2) :
    ∃ r, downbeats l tss start = .ok r ∧ r.Sublist l ∧
      ∀ (k : Nat) (d : ℚ), l[k]? = some d → (d ∈ r ↔ FirstOfBar tss start l k) := by
  obtain ⟨ho, hge, hh⟩ := C123_order l start hb
  have hhead : ∀ x, l.head? = some x → x = start := by
    intro x hx
    cases l with
    | nil => cases hx
    | cons a l =>
      cases hx
      exact hb.1
  have hmem : ∀ y ∈ tss, start < y.2.2 → y.2.2 ∈ l ∧ ∀ b ∈ l, b < y.2.2 → ¬ Close b y.2.2 := fun y hy h =>
    ⟨C123_on_signatures l start hb y hy h.le (hlt y hy), fun b hbm h2 => beats_far H l start hb hst b hbm y hy h2⟩
  have hfil : ∀ r : List ℚ, r.Sublist l → r.filter (fun d => decide (start ≤ d)) = r := by
    intro r hr
    rw [List.filter_eq_self]
    intro d hd
    simpa using (hge d (hr.subset hd)).1
  have huniq : ∀ (k k' : Nat) (d : ℚ), l[k]? = some d → l[k']? = some d → k = k' := by
    intro k k' d h1 h2
    have a1 := (index_lt_iff l ho _ _ _ _ h1 h2).2 (le_refl _)
    have a2 := (index_lt_iff l ho _ _ _ _ h2 h1).2 (le_refl _)
    omega
  by_cases hcase : ∃ x xs, tss = x :: xs ∧ x.2.2 ≤ start
  · obtain ⟨x, xs, rfl, hx⟩ := hcase
    unfold downbeats
    dsimp only
    rw [if_neg (not_lt.2 hx)]
    obtain ⟨r, g1, g2, g3⟩ := downGo_from (tempi := tempi) (tss := x :: xs) (stop := stop) l ho hhead (fun x hx => (hge x hx).1) x xs hx hso
      (fun y hy => (H.good y hy).1) hmem
    rw [g1]
    dsimp only [bind, Except.bind]
    refine ⟨r, by rw [hfil r g2], g2, ?_⟩
    intro k d hk
    rw [g3]
    constructor
    · rintro ⟨k', k1, y, hy, j, j1, j2, j3, j4, j5⟩
      have := huniq k k' d hk k1
      subst this
      exact ⟨d, j, _, _, hk, Or.inl ⟨y, hy, j3, j4, rfl, rfl⟩, j1, j2, j5⟩
    · rintro ⟨d', j, b, n, k1, hbf, j1, j2, j5⟩
      have : d = d' := by rw [hk] at k1; exact Option.some.inj k1
      subst this
      rcases hbf with ⟨y, hy, j3, j4, rfl, rfl⟩ | ⟨h1, _⟩
      · exact ⟨k, hk, y, hy, j, j1, j2, j3, j4, j5⟩
      · have h2 := h1 x (by simp)
        have h3 := (hge d (List.mem_of_getElem? hk)).1
        linarith
  · have hall : ∀ y ∈ tss, start < y.2.2 := by
      intro y hy
      cases tss with
      | nil => cases hy
      | cons x xs =>
        have hx : start < x.2.2 := by
          by_contra hc
          exact hcase ⟨x, xs, rfl, not_lt.1 hc⟩
        rcases List.mem_cons.1 hy with rfl | hy
        · exact hx
        · exact lt_trans hx ((List.pairwise_cons.1 hso).1 y hy)
    rw [downbeats_prefix l tss start hall]
    obtain ⟨r, g1, g2, g3⟩ := downGo_from (tempi := tempi) (tss := tss) (stop := stop) l ho hhead (fun x hx => (hge x hx).1) (4, 4, start) tss (le_refl _)
      (by rw [List.pairwise_cons]; exact ⟨hall, hso⟩)
      (fun y hy => by
        rcases List.mem_cons.1 hy with rfl | hy
        · norm_num
        · exact (H.good y hy).1)
      (fun y hy h => by
        rcases List.mem_cons.1 hy with rfl | hy
        · exact absurd h (lt_irrefl _)
        · exact hmem y hy h)
    rw [g1]
    dsimp only [bind, Except.bind]
    refine ⟨r, by rw [hfil r g2], g2, ?_⟩
    intro k d hk
    have hsd := (hge d (List.mem_of_getElem? hk)).1
    have h4 : barLen 4 = 4 := by decide
    rw [g3]
    constructor
    · rintro ⟨k', k1, y, hy, j, j1, j2, j3, j4, j5⟩
      have := huniq k k' d hk k1
      subst this
      rcases List.mem_cons.1 hy with rfl | hy
      · dsimp only at j1 j4 j5
        rw [max_self] at j1
        rw [h4] at j5
        refine ⟨d, j, start, 4, hk, Or.inr ⟨?_, rfl, rfl⟩, j1, j2, j5⟩
        intro z hz
        by_contra hc
        have := j4 z (List.mem_cons_of_mem _ hz) (not_lt.1 hc)
        exact absurd (hall z hz) (not_lt.2 this)
      · exact ⟨d, j, _, _, hk, Or.inl ⟨y, hy, j3, fun z hz => j4 z (List.mem_cons_of_mem _ hz), rfl, rfl⟩, j1, j2, j5⟩
    · rintro ⟨d', j, b, n, k1, hbf, j1, j2, j5⟩
      have : d = d' := by rw [hk] at k1; exact Option.some.inj k1
      subst this
      rcases hbf with ⟨y, hy, j3, j4, rfl, rfl⟩ | ⟨h1, rfl, rfl⟩
      · refine ⟨k, hk, y, List.mem_cons_of_mem _ hy, j, j1, j2, j3, ?_, j5⟩
        intro z hz hzd
        rcases List.mem_cons.1 hz with rfl | hz
        · exact (hall y hy).le
        · exact j4 z hz hzd
      · refine ⟨k, hk, (4, 4, b), List.mem_cons_self, j, by dsimp only; rw [max_self]; exact j1, j2, hsd, ?_, by dsimp only; rw [h4]; exact j5⟩
        intro z hz hzd
        rcases List.mem_cons.1 hz with rfl | hz
        · exact le_refl _
        · exact absurd hzd (not_le.2 (h1 z hz))

/-- **C124, the downbeats.** Under the conditions of C123, if moreover no time signature is at (or after) the end time, and
`start` is not just before one, `get_downbeats(start)` terminates and returns, in order, exactly the beats of
`get_beats(start)` that are the first of a bar. -/
theorem C124_downbeats (pm : PM) (h : ClockOk pm.clock) (hs : ∀ p ∈ pm.clock.scales, p.1 < 1000000000)
    (H : Tame (Spec.tempi pm.clock) pm.timeSigs) (start stop : ℚ) (hend : pm.endTime = .ok stop)
    (hlt : ∀ y ∈ pm.timeSigs, y.2.2 < stop) (hst : ∀ y ∈ pm.timeSigs, start < y.2.2 → ¬ Close start y.2.2) :
    ∃ l r N, (∀ fuel ≥ N, pm.beats fuel start = .ok (some l) ∧ pm.downbeats fuel start = .ok (some r)) ∧
      r.Sublist l ∧ ∀ (k : Nat) (d : ℚ), l[k]? = some d → (d ∈ r ↔ FirstOfBar pm.timeSigs start l k) := by
  obtain ⟨stop', l, N, h1, h2, h3⟩ := C123_beats pm h hs H start
  rw [hend] at h1
  cases h1
  have hperm := sortByKey_perm (fun x : Int × Int × ℚ => x.2.2) pm.timeSigs
  obtain ⟨r, g1, g2, g3⟩ := downbeats_ok (tame_perm hperm.symm H) l (beats_perm hperm.symm stop l start h3)
    (sortByKey_strict _ _ H.distinct) (fun y hy => hlt y (hperm.subset hy)) (fun y hy => hst y (hperm.subset hy))
  refine ⟨l, r, N, ?_, g2, ?_⟩
  · intro fuel hf
    refine ⟨h2 fuel hf, ?_⟩
    unfold PM.downbeats
    rw [h2 fuel hf]
    dsimp only [bind, Except.bind]
    rw [g1]
  · intro k d hk
    rw [g3 k d hk]
    constructor
    · rintro ⟨d, j, b, n, a1, a2, a3⟩
      exact ⟨d, j, b, n, a1, barsFrom_perm hperm a2, a3⟩
    · rintro ⟨d, j, b, n, a1, a2, a3⟩
      exact ⟨d, j, b, n, a1, barsFrom_perm hperm.symm a2, a3⟩

/-- Non-vacuity: 4/4 from 0, 3/4 from 2.5 s, no tempo change; the downbeats are 0 and 2.5. -/
theorem C124_example : (beatPM 8 [(4, 4, 0), (6, 8, 5/2)]).downbeats 20 0 = .ok (some [0, 5/2]) ∧
    (∀ y ∈ (beatPM 8 [(4, 4, 0), (6, 8, 5/2)]).timeSigs, y.2.2 < 4 ∧ ((0:ℚ) < y.2.2 → ¬ Close 0 y.2.2)) ∧
    (beatPM 8 [(4, 4, 0), (6, 8, 5/2)]).endTime = .ok 4 := by
  refine ⟨by decide +kernel, ?_, by decide +kernel⟩
  unfold Close; decide +kernel

/-- **C124, no time signatures**: every fourth beat from the first. -/
theorem C124_four (l : List ℚ) (start : ℚ) (h : l.head? = some start) (k : Nat) (d : ℚ) (hk : l[k]? = some d)
    (hn : l.Nodup) : FirstOfBar [] start l k ↔ k % 4 = 0 := by
  have h0 : l[0]? = some start := by rw [← List.head?_eq_getElem?]; exact h
  constructor
  · rintro ⟨d', j, b, n, h1, h2, h3, h4, h5⟩
    rcases h2 with ⟨y, hy, _⟩ | ⟨_, rfl, rfl⟩
    · cases hy
    · have : j = 0 := by
        have hj : j < l.length := by
          by_contra hc; rw [List.getElem?_eq_none (by omega)] at h3; cases h3
        have := (List.getElem?_inj hj hn).1 (h3.trans h0.symm)
        exact this
      subst this
      omega
  · intro hm
    exact ⟨d, 0, start, 4, hk, Or.inr ⟨by simp, rfl, rfl⟩, h0, by omega, by omega⟩

/-- **C124, defect**: a time signature at the very end of the piece (its time is then the end time, so it is not a beat)
replaces the metre of the last span: here 4/4 from 0 and 3/4 at 4 s, when the music is over, gives downbeats every third
beat. -/
theorem C124_last_signature : (beatPM 16 [(4, 4, 0), (3, 4, 4)]).beats 20 0 = .ok (some [0, 1, 2, 3]) ∧
    (beatPM 16 [(4, 4, 0), (3, 4, 4)]).downbeats 20 0 = .ok (some [0, 3]) ∧
    (beatPM 16 [(4, 4, 0)]).downbeats 20 0 = .ok (some [0]) := by
  refine ⟨by decide +kernel, by decide +kernel, by decide +kernel⟩

end NGC
