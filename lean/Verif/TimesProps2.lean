import Verif.TimesProps

/-!
C122: onsets, tempo estimation and end time.
-/

namespace NGC

/-! ### The specification -/

namespace Spec

/-- `a` and `b` are neighbours in the list. -/
def Adjacent (l : List ℚ) (a b : ℚ) : Prop := ∃ pre post, l = pre ++ a :: b :: post

/-- `y` is the first of `x`, `2x`, `4x`, … that is at least 0.2. -/
def FirstDouble (x y : ℚ) : Prop := ∃ k : Nat, y = x * 2 ^ k ∧ 1/5 ≤ y ∧ ∀ j < k, x * 2 ^ j < 1/5

end Spec

/-! ### Lemmas -/

theorem mem_ioi : ∀ (l : List ℚ) (d : ℚ), d ∈ ioi l ↔ ∃ a b, Spec.Adjacent l a b ∧ d = b - a
  | [], d => by
    constructor
    · intro h; cases h
    · rintro ⟨a, b, ⟨pre, post, h⟩, _⟩; cases pre <;> cases h
  | [x], d => by
    constructor
    · intro h; cases h
    · rintro ⟨a, b, ⟨pre, post, h⟩, _⟩
      have := congrArg List.length h
      simp at this
      omega
  | x :: y :: rest, d => by
    unfold ioi
    rw [List.mem_cons, mem_ioi (y :: rest) d]
    constructor
    · rintro (rfl | ⟨a, b, ⟨pre, post, h⟩, rfl⟩)
      · exact ⟨x, y, ⟨[], rest, rfl⟩, rfl⟩
      · exact ⟨a, b, ⟨x :: pre, post, by rw [h]; rfl⟩, rfl⟩
    · rintro ⟨a, b, ⟨pre, post, h⟩, rfl⟩
      cases pre with
      | nil =>
        simp only [List.nil_append, List.cons.injEq] at h
        obtain ⟨rfl, rfl, rfl⟩ := h
        exact Or.inl rfl
      | cons z pre =>
        simp only [List.cons_append, List.cons.injEq] at h
        exact Or.inr ⟨a, b, ⟨pre, post, h.2⟩, rfl⟩

/-- **C122, the doubling loop ends**: for an interval above 50 ms it takes at most two rounds, more fuel changes
nothing, and the result is the first doubling in the range. -/
theorem C122_doubling_ends (x : ℚ) (h : 1/20 < x) :
    (∀ fuel, 2 ≤ fuel → doubleUp fuel x = doubleUp 2 x) ∧ Spec.FirstDouble x (doubleUp 2 x) ∧
    (x < 2 → doubleUp 2 x < 2) := by
  have key : ∀ fuel, 2 ≤ fuel → doubleUp fuel x =
      if x < 1/5 then (if x * 2 < 1/5 then x * 2 * 2 else x * 2) else x := by
    intro fuel hf
    obtain ⟨n, rfl⟩ : ∃ n, fuel = n + 2 := ⟨fuel - 2, by omega⟩
    unfold doubleUp
    split
    · unfold doubleUp
      split
      · cases n with
        | zero => rfl
        | succ n =>
          unfold doubleUp
          rw [if_neg (by linarith)]
      · rfl
    · rfl
  refine ⟨fun fuel hf => by rw [key fuel hf, key 2 (le_refl _)], ?_, ?_⟩
  · rw [key 2 (le_refl _)]
    split
    · split
      · refine ⟨2, by ring, by linarith, ?_⟩
        intro j hj
        obtain rfl | rfl : j = 0 ∨ j = 1 := by omega
        · rw [pow_zero]; linarith
        · rw [pow_one]; linarith
      · refine ⟨1, by ring, by linarith, ?_⟩
        intro j hj
        obtain rfl : j = 0 := by omega
        rw [pow_zero]; linarith
    · exact ⟨0, by ring, by linarith, by intro j hj; omega⟩
  · rw [key 2 (le_refl _)]
    intro h2
    split
    · split <;> linarith
    · exact h2

example : Spec.FirstDouble (3/50) (6/25) :=
  (show doubleUp 2 (3/50) = 6/25 by decide +kernel) ▸ (C122_doubling_ends (3/50) (by decide +kernel)).2.1

theorem firstDouble_ge {x y : ℚ} (h : Spec.FirstDouble x y) : 1/5 ≤ y := by
  obtain ⟨k, _, h, _⟩ := h; exact h

theorem mem_intervals (ons : List ℚ) (y : ℚ) : y ∈ intervals ons ↔
    ∃ a b, Spec.Adjacent ons a b ∧ 1/20 < b - a ∧ b - a < 2 ∧ y = doubleUp 2 (b - a) := by
  unfold intervals
  simp only [List.mem_map, List.mem_filter, mem_ioi, decide_eq_true_eq]
  constructor
  · rintro ⟨d, ⟨⟨⟨a, b, hab, rfl⟩, h1⟩, h2⟩, rfl⟩
    exact ⟨a, b, hab, h1, h2, rfl⟩
  · rintro ⟨a, b, hab, h1, h2, rfl⟩
    exact ⟨_, ⟨⟨⟨a, b, hab, rfl⟩, h1⟩, h2⟩, rfl⟩

theorem argmin_lt : ∀ (l : List ℚ), l ≠ [] → argmin l < l.length
  | [], h => absurd rfl h
  | [_], _ => by simp [argmin]
  | x :: y :: rest, _ => by
    have := argmin_lt (y :: rest) (by simp)
    unfold argmin
    dsimp only
    split
    · simp
    · simp only [List.length_cons] at *; omega

theorem argmin_le : ∀ (l : List ℚ) (z : ℚ), z ∈ l → l.getD (argmin l) 0 ≤ z
  | [], z, h => by cases h
  | [x], z, h => by simp at h; subst h; simp [argmin]
  | x :: y :: rest, z, h => by
    have ih := argmin_le (y :: rest)
    unfold argmin
    dsimp only
    split
    · rename_i hx
      simp only [List.getD_cons_zero]
      rcases List.mem_cons.1 h with rfl | h
      · exact le_refl _
      · exact le_trans hx (ih z h)
    · rename_i hx
      rw [List.getD_cons_succ]
      rcases List.mem_cons.1 h with rfl | h
      · exact (not_le.1 hx).le
      · exact ih z h

/-- What a cluster list is after some intervals. -/
structure ClInv (xs : List ℚ) (cs : List (ℚ × ℚ)) : Prop where
  range : ∀ c ∈ cs, 1/5 ≤ c.1 ∧ c.1 < 2
  count : ∀ c ∈ cs, 1 ≤ c.2
  total : (cs.map (fun c => c.2)).sum = xs.length
  mass : (cs.map (fun c => c.2 * c.1)).sum = xs.sum
  nonempty : xs ≠ [] → cs ≠ []

theorem sum_modify (f : ℚ × ℚ → ℚ) (g : ℚ × ℚ → ℚ × ℚ) (d : ℚ) : ∀ (cs : List (ℚ × ℚ)) (k : Nat), k < cs.length →
    (∀ c ∈ cs, f (g c) = f c + d) → ((cs.modify k g).map f).sum = (cs.map f).sum + d
  | [], _, h, _ => by simp at h
  | c :: cs, 0, _, hg => by
    simp only [List.modify_zero_cons, List.map_cons, List.sum_cons]
    rw [hg c (by simp)]; ring
  | c :: cs, k + 1, h, hg => by
    simp only [List.modify_succ_cons, List.map_cons, List.sum_cons]
    rw [sum_modify f g d cs k (by simpa using h) (fun c hc => hg c (by simp [hc]))]; ring

theorem mem_modify {α : Type} (g : α → α) : ∀ (l : List α) (k : Nat) (x : α), x ∈ l.modify k g → x ∈ l ∨ ∃ y ∈ l, x = g y
  | [], k, x, h => by simp at h
  | a :: l, 0, x, h => by
    simp only [List.modify_zero_cons, List.mem_cons] at h
    rcases h with rfl | h
    · exact Or.inr ⟨a, by simp, rfl⟩
    · exact Or.inl (by simp [h])
  | a :: l, k + 1, x, h => by
    simp only [List.modify_succ_cons, List.mem_cons] at h
    rcases h with rfl | h
    · exact Or.inl (by simp)
    · rcases mem_modify g l k x h with h | ⟨y, hy, rfl⟩
      · exact Or.inl (by simp [h])
      · exact Or.inr ⟨y, by simp [hy], rfl⟩

theorem clusterStep_inv (xs : List ℚ) (cs : List (ℚ × ℚ)) (h : ClInv xs cs) (x : ℚ) (hx : 1/5 ≤ x ∧ x < 2) :
    ClInv (xs ++ [x]) (clusterStep cs x) := by
  unfold clusterStep
  split
  · rename_i hany
    have hne : cs ≠ [] := by rintro rfl; simp at hany
    have hlt : argmin (cs.map (fun c => c.1 - x)) < cs.length := by
      have := argmin_lt (cs.map (fun c => c.1 - x)) (by simpa using hne)
      simpa using this
    have hpos : ∀ c ∈ cs, (0:ℚ) < c.2 + 1 := fun c hc => by have := h.count c hc; linarith
    refine ⟨?_, ?_, ?_, ?_, ?_⟩
    · intro c hc
      rcases mem_modify _ _ _ _ hc with hc | ⟨d, hd, rfl⟩
      · exact h.range c hc
      · have h1 := h.range d hd
        have h2 := h.count d hd
        have h3 := hpos d hd
        dsimp only
        constructor
        · rw [le_div_iff₀ h3]
          nlinarith
        · rw [div_lt_iff₀ h3]
          nlinarith
    · intro c hc
      rcases mem_modify _ _ _ _ hc with hc | ⟨d, hd, rfl⟩
      · exact h.count c hc
      · have h2 := h.count d hd
        dsimp only; linarith
    · rw [sum_modify (fun c => c.2) _ 1 cs _ hlt (fun _ _ => rfl), h.total]
      simp
    · rw [sum_modify (fun c => c.2 * c.1) _ x cs _ hlt, h.mass]
      · simp
      · intro c hc
        have h3 := hpos c hc
        dsimp only
        field_simp
    · intro _ h0
      have := congrArg List.length h0
      simp at this
      exact hne this
  · refine ⟨?_, ?_, ?_, ?_, ?_⟩
    · intro c hc
      rcases List.mem_append.1 hc with hc | hc
      · exact h.range c hc
      · simp at hc; subst hc; exact hx
    · intro c hc
      rcases List.mem_append.1 hc with hc | hc
      · exact h.count c hc
      · simp at hc; subst hc; exact le_refl _
    · rw [List.map_append, List.sum_append, h.total]; simp
    · rw [List.map_append, List.sum_append, h.mass]; simp
    · intro _; simp

theorem clusters_inv (xs : List ℚ) (hx : ∀ x ∈ xs, 1/5 ≤ x ∧ x < 2) : ClInv xs (clusters xs) := by
  induction xs using List.reverseRecOn with
  | nil => exact ⟨by simp [clusters], by simp [clusters], by simp [clusters], by simp [clusters], by simp⟩
  | append_singleton xs x ih =>
    unfold clusters
    rw [List.foldl_append]
    exact clusterStep_inv xs _ (ih (fun y hy => hx y (by simp [hy]))) x (hx x (by simp))

theorem intervals_range (ons : List ℚ) : ∀ x ∈ intervals ons, 1/5 ≤ x ∧ x < 2 := by
  intro x hx
  obtain ⟨a, b, _, h1, h2, rfl⟩ := (mem_intervals ons x).1 hx
  have := C122_doubling_ends (b - a) h1
  exact ⟨firstDouble_ge this.2.1, this.2.2 h2⟩

/-! ### Theorems -/

/-- **C122, the onsets**: sorted, with one entry per note of every instrument (drums included). -/
theorem C122_onsets (insts : List PInst) :
    (onsets insts).Pairwise (· ≤ ·) ∧ (onsets insts).Perm (insts.flatMap (fun i => i.notes.map PNote.start)) := by
  unfold onsets
  exact ⟨sortByKey_sorted id _, sortByKey_perm id _⟩

/-- **C122, the estimated tempi** are in the range the method promises, 30 < tempo ≤ 300; the scores are positive, sum to
one, and do not rise. (`srt` is any way of ordering the clusters by falling count.) -/
theorem C122_tempi (srt : List (ℚ × ℚ) → List (ℚ × ℚ))
    (hs : ∀ l, (srt l).Perm l ∧ (srt l).Pairwise (fun c d => d.2 ≤ c.2)) (insts : List PInst) :
    (∀ e ∈ estimateTempi srt insts, 30 < e.1 ∧ e.1 ≤ 300 ∧ 0 < e.2 ∧ e.2 ≤ 1) ∧
    (estimateTempi srt insts ≠ [] → ((estimateTempi srt insts).map (fun e => e.2)).sum = 1) ∧
    (estimateTempi srt insts).Pairwise (fun e f => f.2 ≤ e.2) := by
  have inv := clusters_inv (intervals (onsets insts)) (intervals_range _)
  obtain ⟨hp, hd⟩ := hs (clusters (intervals (onsets insts)))
  unfold estimateTempi
  dsimp only
  generalize hcs : srt (clusters (intervals (onsets insts))) = cs at hp hd
  have hr : ∀ c ∈ cs, (1/5 ≤ c.1 ∧ c.1 < 2) ∧ 1 ≤ c.2 := fun c hc =>
    ⟨inv.range c (hp.mem_iff.1 hc), inv.count c (hp.mem_iff.1 hc)⟩
  have hle : ∀ l : List (ℚ × ℚ), (∀ c ∈ l, 1 ≤ c.2) → 0 ≤ (l.map (fun c => c.2)).sum ∧
      ∀ c ∈ l, c.2 ≤ (l.map (fun c => c.2)).sum := by
    intro l
    induction l with
    | nil => intro _; simp
    | cons d l ih =>
      intro h
      have h1 := h d (by simp)
      obtain ⟨i1, i2⟩ := ih (fun c hc => h c (by simp [hc]))
      simp only [List.map_cons, List.sum_cons]
      refine ⟨by linarith, ?_⟩
      intro c hc
      rcases List.mem_cons.1 hc with rfl | hc
      · linarith
      · have := i2 c hc; linarith
  obtain ⟨t0, t1⟩ := hle cs (fun c hc => (hr c hc).2)
  have tpos : ∀ c ∈ cs, 0 < (cs.map (fun c => c.2)).sum := fun c hc => by
    have := t1 c hc; have := (hr c hc).2; linarith
  refine ⟨?_, ?_, ?_⟩
  · intro e he
    obtain ⟨c, hc, rfl⟩ := List.mem_map.1 he
    obtain ⟨⟨h1, h2⟩, h3⟩ := hr c hc
    have h4 := t1 c hc
    have h5 := tpos c hc
    have h6 : (0:ℚ) < c.1 := by linarith
    dsimp only
    refine ⟨?_, ?_, by positivity, ?_⟩
    · rw [lt_div_iff₀ h6]; linarith
    · rw [div_le_iff₀ h6]; linarith
    · rw [div_le_one h5]; exact h4
  · intro hne
    rw [List.map_map]
    have : ((fun e : ℚ × ℚ => e.2) ∘ fun c : ℚ × ℚ => (60 / c.1, c.2 / (cs.map (fun c => c.2)).sum)) =
        fun c => c.2 * (1 / (cs.map (fun c => c.2)).sum) := by
      funext c; simp [Function.comp, div_eq_mul_inv]
    have hsum : ∀ (l : List (ℚ × ℚ)) (r : ℚ), (l.map (fun c => c.2 * r)).sum = (l.map (fun c => c.2)).sum * r := by
      intro l r
      induction l with
      | nil => simp
      | cons c l ih => simp only [List.map_cons, List.sum_cons, ih]; ring
    rw [this, hsum]
    cases hc : cs with
    | nil => rw [hc] at hne; simp at hne
    | cons c rest =>
      have := tpos c (by rw [hc]; simp)
      rw [← hc]
      field_simp
  · rw [List.pairwise_map]
    refine hd.imp ?_
    intro c d h
    dsimp only
    exact div_le_div_of_nonneg_right h t0

/-- **C122, when there is no estimate**: `estimate_tempo` raises ValueError exactly when no two successive onsets are
between 50 ms and 2 s apart, whatever the number of notes; otherwise the estimate is within 30 … 300. -/
theorem C122_estimate (srt : List (ℚ × ℚ) → List (ℚ × ℚ))
    (hs : ∀ l, (srt l).Perm l ∧ (srt l).Pairwise (fun c d => d.2 ≤ c.2)) (insts : List PInst) :
    ((∀ a b, Spec.Adjacent (onsets insts) a b → ¬ (1/20 < b - a ∧ b - a < 2)) →
      estimateTempo srt insts = .error .value) ∧
    ((∃ a b, Spec.Adjacent (onsets insts) a b ∧ 1/20 < b - a ∧ b - a < 2) →
      ∃ q, estimateTempo srt insts = .ok q ∧ 30 < q ∧ q ≤ 300) := by
  have inv := clusters_inv (intervals (onsets insts)) (intervals_range _)
  have hp := (hs (clusters (intervals (onsets insts)))).1
  constructor
  · intro h
    have : intervals (onsets insts) = [] := by
      rw [List.eq_nil_iff_forall_not_mem]
      intro y hy
      obtain ⟨a, b, hab, h1, h2, _⟩ := (mem_intervals _ _).1 hy
      exact h a b hab ⟨h1, h2⟩
    unfold estimateTempo estimateTempi
    rw [this] at hp ⊢
    have h0 : srt (clusters []) = [] := by
      have : clusters [] = [] := rfl
      rw [this] at hp ⊢
      exact hp.eq_nil
    rw [h0]; rfl
  · rintro ⟨a, b, hab, h1, h2⟩
    have hne : intervals (onsets insts) ≠ [] := by
      intro h0
      have := (mem_intervals (onsets insts) (doubleUp 2 (b - a))).2 ⟨a, b, hab, h1, h2, rfl⟩
      rw [h0] at this; cases this
    have hc : srt (clusters (intervals (onsets insts))) ≠ [] := by
      intro h0
      rw [h0] at hp
      exact inv.nonempty hne hp.nil_eq.symm
    have ht : estimateTempi srt insts ≠ [] := by
      unfold estimateTempi; simpa using hc
    have hr := (C122_tempi srt hs insts).1
    unfold estimateTempo
    cases he : estimateTempi srt insts with
    | nil => exact absurd he ht
    | cons e rest =>
      have := hr e (by rw [he]; simp)
      exact ⟨e.1, rfl, this.1, this.2.1⟩

/-- Ordering by falling count that keeps ties in order: an example of `srt`. -/
def byCount (l : List (ℚ × ℚ)) : List (ℚ × ℚ) := sortByKey (fun c => -c.2) l

theorem byCount_ok (l : List (ℚ × ℚ)) : (byCount l).Perm l ∧ (byCount l).Pairwise (fun c d => d.2 ≤ c.2) := by
  refine ⟨sortByKey_perm _ _, (sortByKey_sorted (fun c : ℚ × ℚ => -c.2) l).imp ?_⟩
  intro c d h
  have : -c.2 ≤ -d.2 := h
  linarith

/-- Three notes three seconds apart: no estimate although there are "two notes or more". -/
example : estimateTempo byCount [⟨0, false, "", [⟨90, 60, 0, 1⟩, ⟨90, 60, 3, 4⟩, ⟨90, 60, 6, 7⟩], [], []⟩] = .error .value := by
  decide +kernel

/-- **C122, a steady pulse is found**: if all successive onsets that are between 50 ms and 2 s apart are the same
distance `d` apart (chords and long rests allowed), the only estimate is the tempo of the first doubling of `d`, with
score one. -/
theorem C122_steady (srt : List (ℚ × ℚ) → List (ℚ × ℚ))
    (hs : ∀ l, (srt l).Perm l ∧ (srt l).Pairwise (fun c d => d.2 ≤ c.2)) (insts : List PInst) (d e : ℚ)
    (hd : ∀ a b, Spec.Adjacent (onsets insts) a b → 1/20 < b - a → b - a < 2 → b - a = d)
    (hex : ∃ a b, Spec.Adjacent (onsets insts) a b ∧ 1/20 < b - a ∧ b - a < 2) (he : Spec.FirstDouble d e) :
    estimateTempi srt insts = [(60 / e, 1)] ∧ estimateTempo srt insts = .ok (60 / e) := by
  obtain ⟨a, b, hab, h1, h2⟩ := hex
  have hda := hd a b hab h1 h2
  have hde : doubleUp 2 d = e := by
    obtain ⟨k, e1, e2, e3⟩ := (C122_doubling_ends d (hda ▸ h1)).2.1
    obtain ⟨j, f1, f2, f3⟩ := he
    have : k = j := by
      rcases lt_trichotomy k j with h | h | h
      · have := f3 k h; linarith
      · exact h
      · have := e3 j h; linarith
    rw [e1, f1, this]
  have hall : ∀ y ∈ intervals (onsets insts), y = e := by
    intro y hy
    obtain ⟨a', b', h, h1', h2', rfl⟩ := (mem_intervals _ _).1 hy
    rw [hd a' b' h h1' h2', hde]
  have hne : intervals (onsets insts) ≠ [] := by
    intro h0
    have := (mem_intervals (onsets insts) (doubleUp 2 (b - a))).2 ⟨a, b, hab, h1, h2, rfl⟩
    rw [h0] at this; cases this
  have key : ∀ (n : Nat), clusters (List.replicate (n + 1) e) = [(e, (n + 1 : ℚ))] := by
    intro n
    induction n with
    | zero => simp [clusters, clusterStep]
    | succ n ih =>
      rw [List.replicate_succ', clusters, List.foldl_append]
      change List.foldl clusterStep (clusters _) [e] = _
      rw [ih]
      have hn : ((n:ℚ) + 1 + 1) ≠ 0 := by positivity
      simp only [List.foldl_cons, List.foldl_nil, clusterStep, List.any_cons, sub_self, abs_zero, List.any_nil,
        Bool.or_false]
      rw [if_pos (by norm_num)]
      simp only [List.map_cons, List.map_nil, argmin, List.modify_zero_cons, Nat.cast_add, Nat.cast_one]
      congr 2
      field_simp
  have hrep : intervals (onsets insts) = List.replicate (intervals (onsets insts)).length e :=
    List.eq_replicate_iff.2 ⟨rfl, hall⟩
  obtain ⟨n, hn⟩ : ∃ n, (intervals (onsets insts)).length = n + 1 := by
    cases h : (intervals (onsets insts)) with
    | nil => exact absurd h hne
    | cons _ l => exact ⟨l.length, rfl⟩
  rw [hn] at hrep
  have hsing : srt [(e, (n + 1 : ℚ))] = [(e, (n + 1 : ℚ))] := List.perm_singleton.1 (hs _).1
  have hT : estimateTempi srt insts = [(60 / e, 1)] := by
    unfold estimateTempi
    rw [hrep, key n, hsing]
    have hn : ((n:ℚ) + 1) ≠ 0 := by positivity
    simp [hn]
  refine ⟨hT, ?_⟩
  unfold estimateTempo
  rw [hT]

/-- Notes every half second, one chord and a rest of three seconds: 120 beats per minute. -/
example : estimateTempo byCount [⟨0, false, "", [⟨90, 60, 0, 1⟩, ⟨90, 60, 1/2, 4⟩], [], []⟩,
    ⟨0, true, "", [⟨90, 36, 1/2, 1⟩, ⟨90, 36, 7/2, 4⟩, ⟨90, 36, 4, 5⟩], [], []⟩] = .ok 120 := by
  decide +kernel

/-- **C122, the wrong cluster is updated**: when some cluster is within 25 ms of an interval, the cluster that takes the
interval is the one with the least mean, however far away it is; no other cluster changes. -/
theorem C122_least_updated (cs : List (ℚ × ℚ)) (x : ℚ) (h : ∃ c ∈ cs, |c.1 - x| < 1/40) :
    ∃ (k : Nat) (c : ℚ × ℚ), cs[k]? = some c ∧ (∀ d ∈ cs, c.1 ≤ d.1) ∧
      (clusterStep cs x)[k]? = some ((c.2 * c.1 + x) / (c.2 + 1), c.2 + 1) ∧
      ∀ j : Nat, j ≠ k → (clusterStep cs x)[j]? = cs[j]? := by
  obtain ⟨c0, hc0, hx⟩ := h
  have hne : cs ≠ [] := by rintro rfl; cases hc0
  have hlt : argmin (cs.map (fun c => c.1 - x)) < cs.length := by
    have := argmin_lt (cs.map (fun c => c.1 - x)) (by simpa using hne)
    simpa using this
  have hany : cs.any (fun c => decide (|c.1 - x| < 1/40)) = true :=
    List.any_eq_true.2 ⟨c0, hc0, decide_eq_true hx⟩
  refine ⟨argmin (cs.map (fun c => c.1 - x)), cs[argmin (cs.map (fun c => c.1 - x))], List.getElem?_eq_getElem hlt, ?_, ?_, ?_⟩
  · intro d hd
    have := argmin_le (cs.map (fun c => c.1 - x)) (d.1 - x) (List.mem_map.2 ⟨d, hd, rfl⟩)
    rw [List.getD_eq_getElem?_getD, List.getElem?_map, List.getElem?_eq_getElem hlt] at this
    simp only [Option.map_some, Option.getD_some] at this
    linarith
  · unfold clusterStep
    rw [if_pos hany, List.getElem?_modify_eq, List.getElem?_eq_getElem hlt]
    rfl
  · intro j hj
    unfold clusterStep
    rw [if_pos hany, List.getElem?_modify_ne _ _ (Ne.symm hj)]

/-- Clusters at 0.2 s and 0.5 s: an interval of 0.51 s is put into the first one, which moves to 0.355 s. -/
example : clusterStep [(1/5, 1), (1/2, 1)] (51/100) = [(71/200, 2), (1/2, 1)] := by decide +kernel

/-- **C122, the end time**: `get_end_time`, when it returns, is at least the time of every note end, bend, control change,
time and key signature, lyric and tempo change, and, unless it is 0, equal to one of them. -/
theorem C122_end_time (pm : PM) (e : ℚ) (h : pm.endTime = .ok e) : ∃ tempos c,
    pm.clock.tempoChanges = .ok (tempos, c) ∧
    (∀ i ∈ pm.insts, (∀ n ∈ i.notes, n.stop ≤ e) ∧ (∀ b ∈ i.bends, b.2 ≤ e) ∧ (∀ b ∈ i.controls, b.2.2 ≤ e)) ∧
    (∀ s ∈ pm.timeSigs, s.2.2 ≤ e) ∧ (∀ s ∈ pm.keySigs, s.2 ≤ e) ∧ (∀ s ∈ pm.lyrics, s.2 ≤ e) ∧
    (∀ s ∈ tempos, s.1 ≤ e) ∧
    (e = 0 ∨ (∃ i ∈ pm.insts, (∃ n ∈ i.notes, n.stop = e) ∨ (∃ b ∈ i.bends, b.2 = e) ∨ (∃ b ∈ i.controls, b.2.2 = e)) ∨
      (∃ s ∈ pm.timeSigs, s.2.2 = e) ∨ (∃ s ∈ pm.keySigs, s.2 = e) ∨ (∃ s ∈ pm.lyrics, s.2 = e) ∨
      (∃ s ∈ tempos, s.1 = e)) := by
  unfold PM.endTime at h
  cases ht : pm.clock.tempoChanges with
  | error x => rw [ht] at h; cases h
  | ok r =>
    obtain ⟨tempos, c⟩ := r
    rw [ht] at h
    have h' := Except.ok.inj h
    refine ⟨tempos, c, rfl, ?_⟩
    have hge := maxDefault_ge 0 (pm.insts.map PInst.endTime ++ pm.timeSigs.map (fun e => e.2.2) ++
      pm.keySigs.map (fun e => e.2) ++ pm.lyrics.map (fun e => e.2) ++ tempos.map (fun e => e.1))
    have hmem := maxDefault_mem 0 (pm.insts.map PInst.endTime ++ pm.timeSigs.map (fun e => e.2.2) ++
      pm.keySigs.map (fun e => e.2) ++ pm.lyrics.map (fun e => e.2) ++ tempos.map (fun e => e.1))
    have hnil : (pm.insts.map PInst.endTime ++ pm.timeSigs.map (fun e => e.2.2) ++
      pm.keySigs.map (fun e => e.2) ++ pm.lyrics.map (fun e => e.2) ++ tempos.map (fun e => e.1)) = [] → e = 0 := by
      intro h0; rw [h0] at h'; exact h'.symm
    rw [h'] at hge hmem
    simp only [List.mem_append, List.mem_map, or_assoc] at hge hmem
    have hins : ∀ i ∈ pm.insts, ∀ y ∈ (i.notes.map PNote.stop ++ i.bends.map (fun e => e.2) ++
        i.controls.map (fun e => e.2.2)), y ≤ e := by
      intro i hi y hy
      exact le_trans (maxDefault_ge 0 _ y hy) (hge _ (Or.inl ⟨i, hi, rfl⟩))
    refine ⟨fun i hi => ⟨fun n hn => hins i hi _ ?_, fun n hn => hins i hi _ ?_, fun n hn => hins i hi _ ?_⟩,
      fun s hs => hge _ (Or.inr (Or.inl ⟨s, hs, rfl⟩)), fun s hs => hge _ (Or.inr (Or.inr (Or.inl ⟨s, hs, rfl⟩))),
      fun s hs => hge _ (Or.inr (Or.inr (Or.inr (Or.inl ⟨s, hs, rfl⟩)))),
      fun s hs => hge _ (Or.inr (Or.inr (Or.inr (Or.inr ⟨s, hs, rfl⟩)))), ?_⟩
    · exact List.mem_append.2 (Or.inl (List.mem_append.2 (Or.inl (List.mem_map.2 ⟨n, hn, rfl⟩))))
    · exact List.mem_append.2 (Or.inl (List.mem_append.2 (Or.inr (List.mem_map.2 ⟨n, hn, rfl⟩))))
    · exact List.mem_append.2 (Or.inr (List.mem_map.2 ⟨n, hn, rfl⟩))
    · by_cases h0 : (pm.insts.map PInst.endTime ++ pm.timeSigs.map (fun e => e.2.2) ++
        pm.keySigs.map (fun e => e.2) ++ pm.lyrics.map (fun e => e.2) ++ tempos.map (fun e => e.1)) = []
      · exact Or.inl (hnil h0)
      · rcases hmem h0 with ⟨i, hi, hie⟩ | hm | hm | hm | hm
        · by_cases hi0 : (i.notes.map PNote.stop ++ i.bends.map (fun e => e.2) ++ i.controls.map (fun e => e.2.2)) = []
          · left
            rw [← hie]; unfold PInst.endTime; rw [hi0]; rfl
          · right; left
            refine ⟨i, hi, ?_⟩
            have := maxDefault_mem 0 _ hi0
            change i.endTime ∈ _ at this
            rw [hie] at this
            simpa only [List.mem_append, List.mem_map, or_assoc] using this
        · exact Or.inr (Or.inr (Or.inl hm))
        · exact Or.inr (Or.inr (Or.inr (Or.inl hm)))
        · exact Or.inr (Or.inr (Or.inr (Or.inr (Or.inl hm))))
        · exact Or.inr (Or.inr (Or.inr (Or.inr (Or.inr hm))))

/-- One note, one key signature and the tempo of a new object. -/
example : ({ clock := ⟨220, [(0, 1/440)], [0]⟩, drum := 9, timeSigs := [], keySigs := [(0, 5)], lyrics := [],
             insts := [⟨0, false, "", [⟨90, 60, 0, 1⟩], [], []⟩] } : PM).endTime = .ok 5 := by decide +kernel

end NGC
