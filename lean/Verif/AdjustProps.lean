import Verif.Adjust
import Verif.TimesProps
import Verif.ReaderProps4

/-! Property theorem C125: the tempo map after `adjust_times`. -/

namespace NGC

namespace Spec

/-- Points given by ticks: each tick with a new time becomes its old time with the new time. -/
def tickPts (S : List (Nat × ℚ)) (P : List (Nat × ℚ)) : List (ℚ × ℚ) := P.map (fun p => (seconds S p.1, p.2))

/-- Ticks and new times strictly increasing. -/
def TickStrict (P : List (Nat × ℚ)) : Prop := P.Pairwise (fun p q => p.1 < q.1 ∧ p.2 < q.2)

/-- `k` is the tick nearest to time `t`, and the only one. -/
def NearestTick (S : List (Nat × ℚ)) (t : ℚ) (k : Nat) : Prop := ∀ j, j ≠ k → |t - seconds S k| < |t - seconds S j|

end Spec

open Spec (seconds scaleAt TempoMap tickPts TickStrict NearestTick)

/-- `R` lists, from tick `a` to tick `e`, times (of ticks) and tempi such that every tick has length `D`. -/
inductive Pieces (S : List (Nat × ℚ)) (r : Nat) (D : Nat → ℚ) (e : Nat) : Nat → List (ℚ × ℚ) → Prop
  | nil : Pieces S r D e e []
  | cons (κ κ' : Nat) (q : ℚ) (R : List (ℚ × ℚ)) : κ ≤ κ' → 0 < q → (∀ k, κ ≤ k → k < κ' → 60 / (q * r) = D k) →
      Pieces S r D e κ' R → Pieces S r D e κ ((seconds S κ, q) :: R)

theorem Pieces.append {S : List (Nat × ℚ)} {r : Nat} {D : Nat → ℚ} {e f : Nat} {κ : Nat} {R R' : List (ℚ × ℚ)}
    (h : Pieces S r D e κ R) (h' : Pieces S r D f e R') : Pieces S r D f κ (R ++ R') := by
  induction h with
  | nil => exact h'
  | cons κ κ' q R h1 h2 h3 _ ih => exact .cons κ κ' q _ h1 h2 h3 ih

theorem Pieces.first {S : List (Nat × ℚ)} {r : Nat} {D : Nat → ℚ} {e : Nat} {κ : Nat} {R : List (ℚ × ℚ)}
    (h : Pieces S r D e κ R) (hne : R ≠ []) : ∃ q R', R = (seconds S κ, q) :: R' ∧ 0 < q := by
  cases h with
  | nil => exact absurd rfl hne
  | cons _ _ q R' _ hq _ _ => exact ⟨q, R', rfl, hq⟩

theorem Pieces.le {S : List (Nat × ℚ)} {r : Nat} {D : Nat → ℚ} {e : Nat} {κ : Nat} {R : List (ℚ × ℚ)}
    (h : Pieces S r D e κ R) : κ ≤ e := by
  induction h with
  | nil => exact Nat.le_refl _
  | cons _ _ _ _ h1 _ _ _ ih => exact Nat.le_trans h1 ih

theorem seconds_lt_iff (S : List (Nat × ℚ)) (h : TempoMap S) (i j : Nat) : seconds S i < seconds S j ↔ i < j := by
  refine ⟨fun hl => ?_, seconds_strictMono S h⟩
  by_contra hc
  exact absurd (seconds_mono S h (Nat.le_of_not_lt hc)) (not_le.2 hl)

theorem seconds_le_iff (S : List (Nat × ℚ)) (h : TempoMap S) (i j : Nat) : seconds S i ≤ seconds S j ↔ i ≤ j := by
  rw [← not_lt, seconds_lt_iff S h, Nat.not_lt]

theorem zone_pieces (S : List (Nat × ℚ)) (hS : TempoMap S) (r : Nat) (hr : 0 < r) (σ : ℚ) (hσ : 0 < σ) (D : Nat → ℚ)
    (a b : Nat) (start : ℚ) (hD : ∀ k, a ≤ k → k < b → D k = scaleAt S k / σ) :
    ∀ (S2 S1 : List (Nat × ℚ)) (t : Nat) (c : ℚ) (κ : Nat), S = S1 ++ (t, c) :: S2 → t ≤ κ → κ ≤ b → a ≤ κ →
    (∀ p ∈ S2, κ ≤ p.1) → start ≤ seconds S κ →
    Pieces S r D b κ ((seconds S κ, 60 / (c * r) * σ) ::
      (zoneTempi σ start (seconds S b) (60 / (c * r)) (S2.map (fun p => (seconds S p.1, 60 / (p.2 * (r : ℚ)))))).1) ∧
    ∃ (S1' : List (Nat × ℚ)) (t' : Nat) (c' : ℚ) (S2' : List (Nat × ℚ)), S = S1' ++ (t', c') :: S2' ∧ t' ≤ b ∧ (∀ p ∈ S2', b ≤ p.1) ∧
      (zoneTempi σ start (seconds S b) (60 / (c * r)) (S2.map (fun p => (seconds S p.1, 60 / (p.2 * (r : ℚ)))))).2
        = (60 / (c' * r), S2'.map (fun p => (seconds S p.1, 60 / (p.2 * (r : ℚ))))) := by
  have hr' : (0 : ℚ) < r := by exact_mod_cast hr
  have hval : ∀ c : ℚ, 0 < c → 60 / (60 / (c * r) * σ * r) = c / σ := by
    intro c hc
    field_simp
  intro S2
  induction S2 with
  | nil =>
    intro S1 t c κ hS' ht hb ha h2 hst
    have hc : 0 < c := hS.pos (t, c) (by rw [hS']; simp)
    have hpre : ∀ p ∈ S1, p.1 ≤ t := by
      have ho := hS.order
      rw [hS', List.pairwise_append] at ho
      exact fun p hp => ho.2.2 p hp (t, c) (by simp)
    refine ⟨.cons κ b _ _ hb (by positivity) ?_ .nil, S1, t, c, [], hS', by omega, by simp, rfl⟩
    intro k hk hk'
    rw [hval c hc, hD k (by omega) hk']
    congr 1
    rw [hS']
    exact (scaleAt_between S1 t c [] k hpre (by omega) (by simp)).symm
  | cons x S3 ih =>
    intro S1 t c κ hS' ht hb ha h2 hst
    obtain ⟨t2, c2⟩ := x
    have hc : 0 < c := hS.pos (t, c) (by rw [hS']; simp)
    have hpre : ∀ p ∈ S1, p.1 ≤ t := by
      have ho := hS.order
      rw [hS', List.pairwise_append] at ho
      exact fun p hp => ho.2.2 p hp (t, c) (by simp)
    have ht2 : κ ≤ t2 := h2 (t2, c2) (by simp)
    have h3 : ∀ p ∈ S3, t2 ≤ p.1 := by
      have ho := hS.order
      rw [hS', List.pairwise_append, List.pairwise_cons, List.pairwise_cons] at ho
      exact ho.2.1.2.1
    have hsc : ∀ k, κ ≤ k → k < t2 → scaleAt S k = c := by
      intro k hk hk'
      rw [hS']
      refine scaleAt_between S1 t c _ k hpre (by omega) ?_
      intro p hp
      rcases List.mem_cons.1 hp with rfl | hp
      · exact hk'
      · have := h3 p hp; omega
    have hstart : start ≤ seconds S t2 := le_trans hst (seconds_mono S hS ht2)
    simp only [List.map_cons]
    unfold zoneTempi
    by_cases hlt : t2 < b
    · rw [if_pos ⟨hstart, seconds_strictMono S hS hlt⟩]
      obtain ⟨i1, i2⟩ := ih (S1 ++ [(t, c)]) t2 c2 t2 (by rw [hS']; simp) (Nat.le_refl _) (by omega) (by omega) h3 hstart
      refine ⟨.cons κ t2 _ _ ht2 (by positivity) ?_ i1, i2⟩
      intro k hk hk'
      rw [hval c hc, hD k (by omega) (by omega), hsc k hk hk']
    · rw [if_neg (fun hc => hlt ((seconds_lt_iff S hS t2 b).1 hc.2))]
      refine ⟨.cons κ b _ _ hb (by positivity) ?_ .nil, S1, t, c, (t2, c2) :: S3, hS', by omega, ?_, rfl⟩
      · intro k hk hk'
        rw [hval c hc, hD k (by omega) hk', hsc k hk (by omega)]
      · intro p hp
        rcases List.mem_cons.1 hp with rfl | hp
        · simp only; omega
        · have := h3 p hp; omega

theorem tickPts_strict (S : List (Nat × ℚ)) (hS : TempoMap S) (P : List (Nat × ℚ)) (h : TickStrict P) :
    Spec.Strict2 (tickPts S P) := by
  unfold Spec.Strict2 tickPts
  rw [List.pairwise_map]
  exact h.imp (fun h => ⟨seconds_strictMono S hS h.1, h.2⟩)

/-- The length of tick `k` after the move. -/
def newLen (S P : List (Nat × ℚ)) (k : Nat) : ℚ :=
  interp (tickPts S P) (seconds S (k + 1)) - interp (tickPts S P) (seconds S k)

theorem newLen_eq (S : List (Nat × ℚ)) (hS : TempoMap S) (pre : List (Nat × ℚ)) (a b : Nat × ℚ) (more : List (Nat × ℚ))
    (h : TickStrict (pre ++ a :: b :: more)) (k : Nat) (h1 : a.1 ≤ k) (h2 : k < b.1) :
    newLen S (pre ++ a :: b :: more) k = scaleAt S k / ((seconds S b.1 - seconds S a.1) / (b.2 - a.2)) := by
  have hm := Strict2.mono (tickPts_strict S hS _ h)
  have e : tickPts S (pre ++ a :: b :: more)
      = tickPts S pre ++ (seconds S a.1, a.2) :: (seconds S b.1, b.2) :: tickPts S more := by
    simp [tickPts]
  rw [e] at hm
  have hab : a.1 < b.1 ∧ a.2 < b.2 := by
    unfold TickStrict at h
    rw [List.pairwise_append, List.pairwise_cons] at h
    exact h.2.1.1 b (by simp)
  have hsec := seconds_strictMono S hS hab.1
  unfold newLen
  rw [e, interp_linear _ _ _ _ _ hm (seconds_mono S hS (by omega)) (seconds_mono S hS (by omega)),
    interp_linear _ _ _ _ _ hm (seconds_mono S hS (by omega)) (seconds_mono S hS (by omega)), seconds_succ]
  have d1 : b.2 - a.2 ≠ 0 := by linarith [hab.2]
  have d2 : seconds S b.1 - seconds S a.1 ≠ 0 := by linarith
  simp only
  field_simp
  ring

theorem zones_pieces (S : List (Nat × ℚ)) (hS : TempoMap S) (r : Nat) (hr : 0 < r) (P : List (Nat × ℚ)) (hP : TickStrict P) :
    ∀ (suf pre : List (Nat × ℚ)) (a l : Nat × ℚ), P = pre ++ a :: suf → (a :: suf).getLast? = some l →
    ∀ (S1 S2 : List (Nat × ℚ)) (t : Nat) (c : ℚ), S = S1 ++ (t, c) :: S2 → t ≤ a.1 → (∀ p ∈ S2, a.1 ≤ p.1) →
    Pieces S r (newLen S P) l.1 a.1
      (zonesGo (tickPts S (a :: suf)) (60 / (c * r)) (S2.map (fun p => (seconds S p.1, 60 / (p.2 * (r : ℚ)))))) := by
  intro suf
  induction suf with
  | nil =>
    intro pre a l _ hl S1 S2 t c _ _ _
    simp only [List.getLast?_singleton, Option.some.injEq] at hl
    subst hl
    exact .nil
  | cons b more ih =>
    intro pre a l hpre hl S1 S2 t c hSe ht h2
    have hab : a.1 < b.1 ∧ a.2 < b.2 := by
      have h := hP
      rw [hpre] at h
      unfold TickStrict at h
      rw [List.pairwise_append, List.pairwise_cons] at h
      exact h.2.1.1 b (by simp)
    have hsec := seconds_strictMono S hS hab.1
    have hσ : 0 < (seconds S b.1 - seconds S a.1) / (b.2 - a.2) :=
      div_pos (by linarith) (by linarith [hab.2])
    obtain ⟨z1, S1', t', c', S2', e1, e2, e3, e4⟩ := zone_pieces S hS r hr _ hσ (newLen S P) a.1 b.1 (seconds S a.1)
      (by
        intro k h1 h2
        rw [hpre]
        exact newLen_eq S hS pre a b more (hpre ▸ hP) k h1 h2)
      S2 S1 t c a.1 hSe ht hab.1.le (Nat.le_refl _) h2 (le_refl _)
    have hr := ih (pre ++ [a]) b l (by rw [hpre]; simp) (by rw [← hl]; simp) S1' S2' t' c' e1 e2 e3
    have : zonesGo (tickPts S (a :: b :: more)) (60 / (c * r)) (S2.map (fun p => (seconds S p.1, 60 / (p.2 * (r : ℚ)))))
        = ((seconds S a.1, 60 / (c * r) * ((seconds S b.1 - seconds S a.1) / (b.2 - a.2))) ::
          (zoneTempi ((seconds S b.1 - seconds S a.1) / (b.2 - a.2)) (seconds S a.1) (seconds S b.1) (60 / (c * r))
            (S2.map (fun p => (seconds S p.1, 60 / (p.2 * (r : ℚ)))))).1)
          ++ zonesGo (tickPts S (b :: more)) (60 / (c' * r)) (S2'.map (fun p => (seconds S p.1, 60 / (p.2 * (r : ℚ))))) := by
      have e : (60 / (c' * r) : ℚ) = (60 / (c' * r), S2'.map (fun p => (seconds S p.1, 60 / (p.2 * (r : ℚ))))).1 := rfl
      show zonesGo ((seconds S a.1, a.2) :: (seconds S b.1, b.2) :: tickPts S more) _ _ = _
      rw [zonesGo]
      simp only [e4, List.cons_append]
      rfl
    rw [this]
    exact z1.append hr

theorem skip_pieces (S : List (Nat × ℚ)) (hS : TempoMap S) (r : Nat) (κ : Nat) :
    ∀ (S2 S1 : List (Nat × ℚ)) (t : Nat) (c : ℚ), S = S1 ++ (t, c) :: S2 → t ≤ κ →
    ∃ (S1' : List (Nat × ℚ)) (t' : Nat) (c' : ℚ) (S2' : List (Nat × ℚ)), S = S1' ++ (t', c') :: S2' ∧ t' ≤ κ ∧ (∀ p ∈ S2', κ ≤ p.1) ∧
      skipTempi (seconds S κ) (60 / (c * r)) (S2.map (fun p => (seconds S p.1, 60 / (p.2 * (r : ℚ)))))
        = (60 / (c' * r), S2'.map (fun p => (seconds S p.1, 60 / (p.2 * (r : ℚ))))) := by
  intro S2
  induction S2 with
  | nil => intro S1 t c h ht; exact ⟨S1, t, c, [], h, ht, by simp, rfl⟩
  | cons x S3 ih =>
    intro S1 t c h ht
    obtain ⟨t2, c2⟩ := x
    simp only [List.map_cons]
    unfold skipTempi
    by_cases hle : t2 ≤ κ
    · rw [if_pos (seconds_mono S hS hle)]
      exact ih (S1 ++ [(t, c)]) t2 c2 (by rw [h]; simp) hle
    · rw [if_neg (fun hc => hle ((seconds_le_iff S hS t2 κ).1 hc))]
      refine ⟨S1, t, c, (t2, c2) :: S3, h, ht, ?_, rfl⟩
      have ho := hS.order
      rw [h, List.pairwise_append, List.pairwise_cons, List.pairwise_cons] at ho
      intro p hp
      rcases List.mem_cons.1 hp with rfl | hp
      · simp only; omega
      · have := ho.2.1.2.1 p hp; simp only at this; omega

/-! ### From tempi to tick scales -/

theorem scaleAt_head (s : ℚ) (L : List (Nat × ℚ)) (j : Nat) (h : ∀ p ∈ L, j < p.1) : scaleAt ((0, s) :: L) j = s :=
  scaleAt_between [] 0 s L j (by simp) (Nat.zero_le _) h

theorem scaleAt_skip (s s' : ℚ) (x : Nat) (L : List (Nat × ℚ)) (j : Nat) (h : x ≤ j) :
    scaleAt ((0, s) :: (x, s') :: L) j = scaleAt ((0, s') :: L) j := by
  unfold scaleAt
  simp only [List.filter_cons, Nat.zero_le, decide_true, if_true, h]
  cases L.filter (fun p => decide (p.1 ≤ j)) with
  | nil => rfl
  | cons y ys => simp

theorem scalesGo_spec (S : List (Nat × ℚ)) (r : Nat) (hr : 0 < r) (D F : Nat → ℚ) (G : ℚ → ℚ) (n κ0 e : Nat) (hG : ∀ k, G (seconds S k) = F k)
    (hF : ∀ k, F (k + 1) - F k = D k) :
    ∀ (R : List (ℚ × ℚ)) (κ : Nat), Pieces S r D e κ R → ∀ (τ : Nat) (s p : ℚ), κ0 ≤ κ → τ + κ0 ≤ n + κ → 0 < s →
    F κ - p = s * ((n : ℚ) + κ - κ0 - τ) →
    (∀ x ∈ scalesGo r τ s p (R.map (fun t => (G t.1, t.2))), n + κ ≤ x.1 + κ0 ∧ x.1 + κ0 ≤ n + e ∧ 0 < x.2) ∧
    (scalesGo r τ s p (R.map (fun t => (G t.1, t.2)))).Pairwise (fun a b => a.1 ≤ b.1) ∧
    ∀ k, κ ≤ k → k < e → scaleAt ((0, s) :: scalesGo r τ s p (R.map (fun t => (G t.1, t.2)))) (n + k - κ0) = D k := by
  have hr' : (0 : ℚ) < r := by exact_mod_cast hr
  have hsum : ∀ (s : ℚ) (κ d : Nat), (∀ k, κ ≤ k → k < κ + d → s = D k) → F (κ + d) - F κ = s * d := by
    intro s κ d
    induction d with
    | zero => intro _; simp
    | succ d ih =>
      intro h
      have h1 := ih (fun k h1 h2 => h k h1 (by omega))
      have h2 := hF (κ + d)
      have h3 := h (κ + d) (by omega) (by omega)
      rw [← Nat.add_assoc]
      push_cast
      linarith
  intro R κ hp
  induction hp with
  | nil => intro τ s p _ _ _ _; simp [scalesGo]; intro k h1 h2; omega
  | cons κ κ' q R hκ hq hD hP ih =>
    intro τ s p h0 hτ hs hinv
    have hle := hP.le
    simp only [List.map_cons, hG]
    unfold scalesGo
    have htick : (τ : ℚ) + (F κ - p) / s = ((n + κ - κ0 : Nat) : ℚ) := by
      rw [hinv, mul_div_cancel_left₀ _ (ne_of_gt hs), Nat.cast_sub (by omega)]
      push_cast
      ring
    simp only [htick]
    by_cases hne : 60 / (q * r) ≠ s
    · rw [if_pos hne]
      have hs' : 0 < 60 / (q * r) := by positivity
      have hround : (roundHE ((n + κ - κ0 : Nat) : ℚ)).toNat = n + κ - κ0 := by
        have := roundHE_int ((n + κ - κ0 : Nat) : Int)
        rw [show (((n + κ - κ0 : Nat) : Int) : ℚ) = ((n + κ - κ0 : Nat) : ℚ) by norm_cast] at this
        rw [this]; simp
      obtain ⟨i1, i2, i3⟩ := ih (n + κ - κ0) (60 / (q * r)) (F κ) (by omega) (by omega) hs' (by
        have := hsum (60 / (q * r)) κ (κ' - κ) (fun k h1 h2 => hD k h1 (by omega))
        rw [show κ + (κ' - κ) = κ' by omega] at this
        rw [this, Nat.cast_sub (by omega : κ0 ≤ n + κ), Nat.cast_sub hκ]
        push_cast
        ring)
      rw [hround]
      refine ⟨?_, ?_, ?_⟩
      · intro x hx
        rcases List.mem_cons.1 hx with rfl | hx
        · exact ⟨by simp only; omega, by simp only; omega, hs'⟩
        · have := i1 x hx
          exact ⟨by omega, by omega, this.2.2⟩
      · refine List.pairwise_cons.2 ⟨?_, i2⟩
        intro x hx
        have := i1 x hx
        simp only; omega
      · intro k h1 h2
        rw [scaleAt_skip _ _ _ _ _ (by omega)]
        by_cases hk : k < κ'
        · rw [scaleAt_head _ _ _ (by intro x hx; have := i1 x hx; omega)]
          exact hD k h1 hk
        · exact i3 k (by omega) h2
    · rw [if_neg hne]
      rw [not_not] at hne
      obtain ⟨i1, i2, i3⟩ := ih τ s p (by omega) (by omega) hs (by
        have := hsum s κ (κ' - κ) (fun k h1 h2 => by rw [← hne]; exact hD k h1 (by omega))
        rw [show κ + (κ' - κ) = κ' by omega, Nat.cast_sub hκ] at this
        linarith)
      refine ⟨?_, i2, ?_⟩
      · intro x hx
        have := i1 x hx
        exact ⟨by omega, by omega, this.2.2⟩
      · intro k h1 h2
        by_cases hk : k < κ'
        · rw [scaleAt_head _ _ _ (by intro x hx; have := i1 x hx; omega), ← hne]
          exact hD k h1 hk
        · exact i3 k (by omega) h2

theorem scales_core (S : List (Nat × ℚ)) (hS : TempoMap S) (r : Nat) (hr : 0 < r) (P rest : List (Nat × ℚ)) (a b : Nat × ℚ)
    (hP : TickStrict P) (hPe : P = a :: rest) (hb : P.getLast? = some b) (n : Nat) (hn : a.2 = n * (60 / (120 * (r : ℚ))))
    (R : List (ℚ × ℚ)) (hR : Pieces S r (newLen S P) b.1 a.1 R) (s : ℚ) (hs : 0 < s) (hsn : n = 0 ∨ s = 60 / (120 * (r : ℚ)))
    (L : List (Nat × ℚ)) (hL : L = scalesGo r 0 s 0 (R.map (fun t => (interp (tickPts S P) t.1, t.2)))) :
    TempoMap ((0, s) :: L) ∧
    (∀ k, a.1 ≤ k → k ≤ b.1 → seconds ((0, s) :: L) (n + k - a.1) = interp (tickPts S P) (seconds S k)) ∧
    ∀ j, j ≤ n → seconds ((0, s) :: L) j = j * s := by
  have hFa : interp (tickPts S P) (seconds S a.1) = a.2 := by
    rw [hPe]; exact interp_le_head _ _ _ (le_refl _)
  have hna : (a.2 : ℚ) = s * n := by
    rcases hsn with rfl | rfl
    · simp [hn]
    · rw [hn]; ring
  obtain ⟨i1, i2, i3⟩ := scalesGo_spec S r hr (newLen S P) (fun k => interp (tickPts S P) (seconds S k))
    (interp (tickPts S P)) n a.1 b.1 (fun _ => rfl) (fun _ => rfl) R a.1 hR 0 s 0 (Nat.le_refl _) (by omega) hs
    (by simp only [hFa, hna]; push_cast; ring)
  simp only [Nat.cast_zero] at i1 i2 i3
  rw [← hL] at i1 i2 i3
  have hmap : TempoMap ((0, s) :: L) :=
    ⟨⟨s, L, rfl⟩, List.pairwise_cons.2 ⟨fun _ _ => Nat.zero_le _, i2⟩, by
      intro p hp
      rcases List.mem_cons.1 hp with rfl | hp
      · exact hs
      · exact (i1 p hp).2.2⟩
  have hlead : ∀ j, j ≤ n → seconds ((0, s) :: L) j = j * s := by
    intro j
    induction j with
    | zero => intro _; simp [seconds_zero]
    | succ j ih =>
      intro hj
      rw [seconds_succ, ih (by omega), scaleAt_head s L j (fun p hp => by have := i1 p hp; omega)]
      push_cast; ring
  refine ⟨hmap, ?_, hlead⟩
  intro k
  induction k with
  | zero =>
    intro h1 _
    have : n + 0 - a.1 = n := by omega
    rw [this, hlead n (Nat.le_refl _), show (0 : Nat) = a.1 by omega, hFa, hna]; ring
  | succ k ih =>
    intro h1 h2
    rcases Nat.lt_or_ge k a.1 with hk | hk
    · have : k + 1 = a.1 := by omega
      rw [this, hFa, Nat.add_sub_cancel, hlead n (Nat.le_refl _), hna]; ring
    · have e : n + (k + 1) - a.1 = (n + k - a.1) + 1 := by omega
      rw [e, seconds_succ, ih hk (by omega), i3 k hk (by omega)]
      unfold newLen; ring

/-! ### The grid -/

theorem grid_eq (c : Clock) (h : ClockOk c) (m : List (ℚ × ℚ)) (P : List (Nat × ℚ)) (b : Nat × ℚ)
    (hP : TickStrict P) (hb : P.getLast? = some b)
    (hm : List.Forall₂ (fun e p => e.2 = p.2 ∧ NearestTick c.scales e.1 p.1) m P) :
    ∃ c', gridTimes c (m.map Prod.fst) = .ok (P.map (fun p => seconds c.scales p.1), c') ∧ ClockOk c' ∧
      c'.scales = c.scales ∧ c'.res = c.res := by
  have near : ∀ d : Clock, ClockOk d → d.scales = c.scales → ∀ t k, NearestTick c.scales t k → d.timeToTick t = .ok (k : Int) := by
    intro d hd hds t k hk
    obtain ⟨k', e1, e2⟩ := C57_nearest d hd t
    rw [hds] at e2
    by_cases hkk : k' = k
    · rw [← hkk]; exact e1
    · exact absurd (e2 k) (not_le.2 (hk k' hkk))
  have hlast : ∃ t, (m.map Prod.fst).getLast? = some t ∧ NearestTick c.scales t b.1 := by
    clear hP
    induction hm with
    | nil => simp at hb
    | @cons e p m P hep hmP ih =>
      cases hmP with
      | nil =>
        simp only [List.getLast?_singleton, Option.some.injEq] at hb
        subst hb
        exact ⟨e.1, rfl, hep.2⟩
      | cons h1 h2 =>
        rw [List.getLast?_cons_cons] at hb
        obtain ⟨t, e1, e2⟩ := ih hb
        exact ⟨t, by simpa using e1, e2⟩
  obtain ⟨t, ht, htn⟩ := hlast
  obtain ⟨M, hM1, hM2, hM3⟩ := tickTable_eq c.scales h.2.1 b.1
  have hok : ClockOk { c with times := tickTable c.scales b.1 } := ⟨h.1, h.2.1, M, hM2, hM3⟩
  refine ⟨{ c with times := tickTable c.scales b.1 }, ?_, hok, rfl, rfl⟩
  unfold gridTimes
  rw [ht]
  simp only [near c h rfl t b.1 htn, bind, Except.bind, Int.toNat_natCast]
  have hle : ∀ p ∈ P, p.1 ≤ b.1 := by
    intro p hp
    have hbm : P = P.dropLast ++ [b] := by
      rw [List.getLast?_eq_some_iff] at hb
      obtain ⟨ys, rfl⟩ := hb
      simp
    rw [hbm, List.mem_append, List.mem_singleton] at hp
    rcases hp with hp | rfl
    · unfold TickStrict at hP
      rw [hbm, List.pairwise_append] at hP
      exact (hP.2.2 p hp b (by simp)).1.le
    · exact Nat.le_refl _
  have hmm : (m.map Prod.fst).mapM ({ c with times := tickTable c.scales b.1 } : Clock).gridTime
      = .ok (P.map (fun p => seconds c.scales p.1)) := by
    clear ht hb hP
    induction hm with
    | nil => rfl
    | @cons e p m P hep hmP ih =>
      have h1 := near _ hok rfl e.1 p.1 hep.2
      have h2 := ih (fun p hp => hle p (by simp [hp]))
      have h3 : (tickTable c.scales b.1)[p.1]? = some (seconds c.scales p.1) := by
        rw [hM3, List.getElem?_map, List.getElem?_range (by have := hle p (by simp); omega)]
        rfl
      have h4 : ({ c with times := tickTable c.scales b.1 } : Clock).gridTime e.1 = .ok (seconds c.scales p.1) := by
        unfold Clock.gridTime
        simp only [h1, bind, Except.bind, Int.toNat_natCast, h3]
      simp only [List.map_cons, List.mapM_cons, h4, h2, bind, Except.bind]
      rfl
  rw [hmm]

theorem nonRepeatsGo_strict : ∀ (l : List (ℚ × ℚ)) (p : ℚ × ℚ), Spec.Strict2 (p :: l) → nonRepeatsGo p l = l := by
  intro l
  induction l with
  | nil => intro p _; rfl
  | cons q l ih =>
    intro p h
    have hq := (List.pairwise_cons.1 h).1 q (by simp)
    unfold nonRepeatsGo
    rw [if_pos ⟨ne_of_lt hq.2, ne_of_lt hq.1⟩, ih q (List.pairwise_cons.1 h).2]

/-! ### The theorem -/

theorem adjTempo_eq (c : Clock) (h : ClockOk c) (hs : ∀ p ∈ c.scales, p.1 < 1000000000) (m : List (ℚ × ℚ))
    (a p2 b : Nat × ℚ) (rest : List (Nat × ℚ)) (hP : TickStrict (a :: p2 :: rest))
    (hb : (a :: p2 :: rest).getLast? = some b) (n : Nat) (hn : a.2 = n * (60 / (120 * (c.res : ℚ))))
    (hm : List.Forall₂ (fun e p => e.2 = p.2 ∧ NearestTick c.scales e.1 p.1) m (a :: p2 :: rest)) :
    ∃ c', adjTempo c m = .ok c' ∧ ClockOk c' ∧ c'.res = c.res ∧
      (∀ k, a.1 ≤ k → k ≤ b.1 →
        seconds c'.scales (n + k - a.1) = interp (tickPts c.scales (a :: p2 :: rest)) (seconds c.scales k)) ∧
      ∀ j, j ≤ n → seconds c'.scales j = j * (60 / (120 * (c.res : ℚ))) := by
  have hr : (0 : ℚ) < c.res := by exact_mod_cast h.1
  obtain ⟨c1, g1, g2, g3, g4⟩ := grid_eq c h m _ b hP hb hm
  obtain ⟨c2, t1, t2⟩ := tempoChangesGo_eq c1.scales c1 g2 (fun p hp => ⟨hs p (g3 ▸ hp), g2.2.1.pos p hp⟩)
  rw [g3, g4] at t1
  have hsnd : m.map Prod.snd = (a :: p2 :: rest).map Prod.snd := by
    clear hP hb g1
    generalize (a :: p2 :: rest) = P at hm
    induction hm with
    | nil => rfl
    | cons he _ ih => simp [he.1, ih]
  have hzip : ((a :: p2 :: rest).map (fun p => seconds c.scales p.1)).zip (m.map Prod.snd)
      = tickPts c.scales (a :: p2 :: rest) := by
    rw [hsnd]
    unfold tickPts
    generalize (a :: p2 :: rest) = P
    induction P with
    | nil => rfl
    | cons x P ih => simp [ih]
  have hnr : nonRepeats (tickPts c.scales (a :: p2 :: rest)) = tickPts c.scales (a :: p2 :: rest) := by
    show (seconds c.scales a.1, a.2) :: nonRepeatsGo (seconds c.scales a.1, a.2) (tickPts c.scales (p2 :: rest)) = _
    rw [nonRepeatsGo_strict (tickPts c.scales (p2 :: rest)) _ (tickPts_strict c.scales h.2.1 _ hP)]
    rfl
  obtain ⟨c0, later, hS0⟩ := h.2.1.zero
  obtain ⟨S1', t', c', S2', e1, e2, e3, e4⟩ := skip_pieces c.scales h.2.1 c.res a.1 later [] 0 c0 (by simp [hS0]) (Nat.zero_le _)
  have hpieces := zones_pieces c.scales h.2.1 c.res h.1 _ hP (p2 :: rest) [] a b rfl hb S1' S2' t' c' e1 e2 e3
  obtain ⟨R, hR⟩ : ∃ R, zonesGo (tickPts c.scales (a :: p2 :: rest)) (60 / (c' * c.res))
      (S2'.map (fun p => (seconds c.scales p.1, 60 / (p.2 * (c.res : ℚ))))) = R := ⟨_, rfl⟩
  rw [hR] at hpieces
  have hRne : ∃ q R', R = (seconds c.scales a.1, q) :: R' ∧ 0 < q := by
    refine Pieces.first hpieces ?_
    rw [← hR]
    simp [tickPts, zonesGo]
  obtain ⟨q, R', hRe, hq⟩ := hRne
  have hFa : interp (tickPts c.scales (a :: p2 :: rest)) (seconds c.scales a.1) = a.2 := interp_le_head _ _ _ (le_refl _)
  obtain ⟨s, hsdef⟩ : ∃ s : ℚ, s = if a.2 = 0 then 60 / (q * c.res) else 60 / (120 * (c.res : ℚ)) := ⟨_, rfl⟩
  have hspos : 0 < s := by rw [hsdef]; split <;> positivity
  have hsn : n = 0 ∨ s = 60 / (120 * (c.res : ℚ)) := by
    by_cases hn0 : n = 0
    · exact .inl hn0
    · right
      have : a.2 ≠ 0 := by
        rw [hn]
        have : (0 : ℚ) < n := by exact_mod_cast Nat.pos_of_ne_zero hn0
        positivity
      rw [hsdef, if_neg this]
  obtain ⟨L, hL⟩ : ∃ L, L = scalesGo c.res 0 s 0 (R.map (fun t => (interp (tickPts c.scales (a :: p2 :: rest)) t.1, t.2))) := ⟨_, rfl⟩
  obtain ⟨f1, f2, f3⟩ := scales_core c.scales h.2.1 c.res h.1 _ (p2 :: rest) a b hP rfl hb n hn R hpieces s hspos hsn L hL
  have hLe : L = scalesGo c.res 0 s 0 (if a.2 = 0 then R'.map (fun t => (interp (tickPts c.scales (a :: p2 :: rest)) t.1, t.2))
      else R.map (fun t => (interp (tickPts c.scales (a :: p2 :: rest)) t.1, t.2))) := by
    by_cases h0 : a.2 = 0
    · rw [if_pos h0, hL, hRe]
      simp only [List.map_cons]
      rw [scalesGo, if_neg]
      rw [hsdef, if_pos h0]
      simp
    · rw [if_neg h0]; exact hL
  obtain ⟨x, hx⟩ : ∃ x, ((0, s) :: L).getLast? = some x := ⟨_, List.getLast?_eq_some_getLast (by simp)⟩
  obtain ⟨M, m1, m2, m3⟩ := tickTable_eq _ f1 (x.1 + 1)
  refine ⟨⟨c.res, (0, s) :: L, tickTable ((0, s) :: L) (x.1 + 1)⟩, ?_, ⟨h.1, f1, M, m2, m3⟩, rfl, f2, ?_⟩
  · unfold adjTempo
    have ht1 : c1.tempoChanges = .ok (c.scales.map (fun p => (seconds c.scales p.1, 60 / (p.2 * (c.res : ℚ)))), c2) := by
      unfold Clock.tempoChanges; rw [g3]; exact t1
    have ht2 : c2.res = c.res := by rw [t2, g4]
    simp only [g1, ht1, bind, Except.bind, hzip, hnr]
    have hSm : c.scales.map (fun p => (seconds c.scales p.1, 60 / (p.2 * (c.res : ℚ))))
        = (seconds c.scales 0, 60 / (c0 * (c.res : ℚ))) :: later.map (fun p => (seconds c.scales p.1, 60 / (p.2 * (c.res : ℚ)))) := by
      have : ∀ (f : Nat × ℚ → ℚ × ℚ) (l : List (Nat × ℚ)), l = (0, c0) :: later → l.map f = f (0, c0) :: later.map f := by
        intro f l hl; rw [hl]; rfl
      exact this _ _ hS0
    rw [hSm]
    have hpts : tickPts c.scales (a :: p2 :: rest)
        = (seconds c.scales a.1, a.2) :: (seconds c.scales p2.1, p2.2) :: tickPts c.scales rest := rfl
    rw [hpts] at hR hFa hLe ⊢
    simp only [e4, hR, hRe, List.map_cons, hFa, ht2]
    rw [hRe] at hLe
    simp only [List.map_cons, hFa] at hLe
    rw [← hsdef, ← hLe, hx]
  · intro j hj
    rcases hsn with h0 | h0
    · have : j = 0 := by omega
      subst this
      simp [seconds_zero]
    · rw [f3 j hj, h0]

end NGC
