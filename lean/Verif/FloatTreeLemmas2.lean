import Verif.FloatTreeLemmas

/-!
Trees of intervals no point is close to both ends of: the restructuring operations always succeed.
-/

namespace NGC

/-- No point is close to both ends, so the code's point test never succeeds. -/
def FIv.NoPoint {D : Type} (iv : FIv D) : Prop := ∀ p, iv.containsPoint p = false

namespace ITree
variable {D : Type} [DecidableEq D]

theorem depth_nil : (nil : ITree D).depth = 0 := rfl

/-- The stored depths and balances are right. -/
def Dep : ITree D → Prop
  | nil => True
  | node _ _ l r d b => d = 1 + max l.depth r.depth ∧ b = r.depth - l.depth ∧ Dep l ∧ Dep r

/-- Only intervals without points. -/
def NoPts (t : ITree D) : Prop := ∀ iv ∈ t.ivs, iv.NoPoint

theorem Dep.depth_nonneg : ∀ (t : ITree D), Dep t → 0 ≤ t.depth ∧ (t ≠ nil → 1 ≤ t.depth)
  | nil, _ => by simp [depth]
  | node x s l r d b, h => by
    obtain ⟨h1, _, h3, h4⟩ := h
    have := (Dep.depth_nonneg l h3).1
    have := (Dep.depth_nonneg r h4).1
    simp only [depth, ne_eq, reduceCtorEq, not_false_eq_true, forall_const]
    omega

theorem Dep.child_ne_nil (t : ITree D) (h : Dep t) (hb : t.balance ≠ 0) :
    t.child (decide (0 < t.balance)) ≠ nil := by
  cases t with
  | nil => simp [balance] at hb
  | node x s l r d b =>
    obtain ⟨_, h2, h3, h4⟩ := h
    simp only [balance] at hb ⊢
    have hl := Dep.depth_nonneg l h3
    have hr := Dep.depth_nonneg r h4
    by_cases hp : 0 < b
    · simp only [hp, decide_true, child, if_true]
      rintro rfl
      rw [depth_nil] at h2
      omega
    · simp only [hp, decide_false, child, Bool.false_eq_true, if_false]
      rintro rfl
      rw [depth_nil] at h2
      omega

theorem Dep.child (t : ITree D) (h : Dep t) (dir : Bool) : Dep (t.child dir) := by
  cases t with
  | nil => exact h
  | node x s l r d b => cases dir; exact h.2.2.1; exact h.2.2.2

theorem Dep.refresh (t : ITree D) (h : ∀ dir, Dep (t.child dir)) : Dep t.refresh := by
  cases t with
  | nil => trivial
  | node x s l r d b => exact ⟨rfl, rfl, h false, h true⟩

theorem child_setChild (t : ITree D) (dir dir' : Bool) (c : ITree D) (h : t ≠ nil) :
    (t.setChild dir c).child dir' = if dir' = dir then c else t.child dir' := by
  cases t with
  | nil => exact absurd rfl h
  | node x s l r d b => cases dir <;> cases dir' <;> rfl

theorem child_refresh (t : ITree D) (dir : Bool) : t.refresh.child dir = t.child dir := by
  cases t <;> rfl

theorem count_refresh (t : ITree D) : t.refresh.count = t.count := by cases t <;> rfl

theorem count_swap_nodes (t : ITree D) (dir : Bool) (c : ITree D) (h : t ≠ nil) :
    (t.child dir).count + (t.setChild dir c).count = c.count + t.count := by
  cases t with
  | nil => exact absurd rfl h
  | node x s l r d b => cases dir <;> simp [child, setChild, count] <;> omega

theorem count_child_lt (t : ITree D) (dir : Bool) (h : t ≠ nil) :
    (t.child dir).count < t.count := by
  cases t with
  | nil => exact absurd rfl h
  | node x s l r d b => cases dir <;> simp [child, count] <;> omega

theorem count_pos (t : ITree D) (h : t ≠ nil) : 1 ≤ t.count := by
  cases t with
  | nil => exact absurd rfl h
  | node x s l r d b => simp [count]; omega

theorem NoPts.of_count (t t' : ITree D) (h : NoPts t) (hc : ∀ a, t'.ivs.count a ≤ t.ivs.count a) :
    NoPts t' := by
  intro iv hm
  apply h iv
  have := List.count_pos_iff.2 hm
  have := hc iv
  exact List.count_pos_iff.1 (by omega)

theorem promotees_nil (t : ITree D) (h : NoPts t) (x : ℚ) :
    t.center.filter (fun iv => iv.containsPoint x) = [] := by
  rw [List.filter_eq_nil_iff]
  intro iv hm
  have := h iv (by
    have h1 := List.count_pos_iff.2 hm
    have := count_center_le t iv
    exact List.count_pos_iff.1 (by omega)) x
  simp [this]

/-- Rotations always succeed on trees with right depths and no point-like intervals. -/
theorem rotate_total (n : Nat) :
    (∀ t : ITree D, t ≠ nil → (∀ dir, Dep (t.child dir)) → NoPts t → 3 * t.count + 1 ≤ n →
      ∃ t', rotate n t = .ok t' ∧ Dep t' ∧ t' ≠ nil ∧ t'.count = t.count ∧
        ∀ a, t'.ivs.count a = t.ivs.count a) ∧
    (∀ t : ITree D, t ≠ nil → Dep t → t.child (decide (0 < t.balance)) ≠ nil → NoPts t →
      3 * t.count ≤ n + 1 →
      ∃ t', srotate n t = .ok t' ∧ Dep t' ∧ t' ≠ nil ∧ t'.count = t.count ∧
        ∀ a, t'.ivs.count a = t.ivs.count a) ∧
    (∀ t : ITree D, t ≠ nil → Dep t → t.child (decide (0 < t.balance)) ≠ nil →
      (t.child (decide (0 < t.balance))).balance ≠ 0 → NoPts t → 3 * t.count ≤ n →
      ∃ t', drotate n t = .ok t' ∧ Dep t' ∧ t' ≠ nil ∧ t'.count = t.count ∧
        ∀ a, t'.ivs.count a = t.ivs.count a) := by
  induction n with
  | zero =>
    refine ⟨?_, ?_, ?_⟩
    · intro t _ _ _ h; omega
    · intro t hne _ _ _ h; have := count_pos t hne; omega
    · intro t hne _ _ _ _ h; have := count_pos t hne; omega
  | succ n ih =>
    obtain ⟨ihR, ihS, ihD⟩ := ih
    refine ⟨?_, ?_, ?_⟩
    · intro t hne hk hw hn
      have hdep : Dep t.refresh := Dep.refresh t hk
      have hne' := refresh_ne_nil t hne
      have hw' : NoPts t.refresh := by
        intro iv h; rw [ivs_refresh] at h; exact hw iv h
      rw [rotate]
      simp only
      split
      · exact ⟨_, rfl, hdep, hne', count_refresh t, fun a => by rw [ivs_refresh]⟩
      · rename_i hb
        have hb0 : t.refresh.balance ≠ 0 := by
          intro h0; rw [h0] at hb; simp at hb
        have hcn := Dep.child_ne_nil _ hdep hb0
        rw [if_neg hcn]
        split
        · obtain ⟨t', h1, h2, h3, h4, h5⟩ := ihS t.refresh hne' hdep hcn hw'
            (by rw [count_refresh]; omega)
          exact ⟨t', h1, h2, h3, by rw [h4, count_refresh], fun a => by rw [h5 a, ivs_refresh]⟩
        · rename_i hc
          obtain ⟨t', h1, h2, h3, h4, h5⟩ := ihD t.refresh hne' hdep hcn
            (fun h => hc (Or.inr h)) hw' (by rw [count_refresh]; omega)
          exact ⟨t', h1, h2, h3, by rw [h4, count_refresh], fun a => by rw [h5 a, ivs_refresh]⟩
    · intro t hne hdep hcn hw hn
      rw [srotate]
      simp only
      set heavy := decide (0 < t.balance) with hh
      cases hc : t.child heavy with
      | nil => exact absurd hc hcn
      | node sx ss sl sr sd sb =>
        simp only
        set save := node sx ss sl sr sd sb with hs
        have hsn : save ≠ nil := by rw [hs]; intro h; cases h
        have hsdep : Dep save := hc ▸ Dep.child t hdep heavy
        set t1 := t.setChild heavy (save.child (!heavy)) with ht1
        have h1n : t1 ≠ nil := setChild_ne_nil t heavy _ hne
        have hsw : ∀ a, save.ivs.count a + t1.ivs.count a =
            (save.child (!heavy)).ivs.count a + t.ivs.count a := by
          intro a
          have := count_swap t heavy (save.child (!heavy)) hne a
          rw [hc] at this
          exact this
        have hswn : save.count + t1.count = (save.child (!heavy)).count + t.count := by
          have := count_swap_nodes t heavy (save.child (!heavy)) hne
          rw [hc] at this
          exact this
        have hlt := count_child_lt save (!heavy) hsn
        have hle : ∀ a, t1.ivs.count a ≤ t.ivs.count a := by
          intro a
          have := hsw a
          have := count_child_le save (!heavy) a
          omega
        obtain ⟨sub, hr, hd, hsubn, hcnt, hiv⟩ := ihR t1 h1n (by
          intro dir
          rw [ht1, child_setChild _ _ _ _ hne]
          split
          · exact Dep.child save hsdep _
          · exact Dep.child t hdep _) (NoPts.of_count t t1 hw hle) (by omega)
        have hpn := promotees_nil sub (NoPts.of_count t1 sub (NoPts.of_count t t1 hw hle)
          (fun a => le_of_eq (hiv a))) sx
        have hn1 : ∃ m, n = m + 1 := by
          have := count_pos t1 h1n
          exact ⟨n - 1, by omega⟩
        obtain ⟨m, hm⟩ := hn1
        have hpl : promoteLoop n [] sub = .ok sub := by rw [hm, promoteLoop]
        simp only [hr, hpn, hpl, bind, Except.bind, setUpdate, List.filter_nil, List.append_nil]
        rw [← hs]
        refine ⟨_, rfl, ?_, refresh_ne_nil _ (setChild_ne_nil _ _ _ hsn), ?_, ?_⟩
        · apply Dep.refresh
          intro dir
          rw [child_setChild _ _ _ _ hsn]
          split
          · exact hd
          · exact Dep.child save hsdep _
        · rw [count_refresh]
          have := count_swap_nodes save (!heavy) sub hsn
          omega
        · intro a
          rw [ivs_refresh]
          have e1 := count_swap save (!heavy) sub hsn a
          have e2 := hsw a
          have e3 := hiv a
          omega
    · intro t hne hdep hcn hcb hw hn
      rw [drotate]
      set heavy := decide (0 < t.balance) with hh
      have hcd : Dep (t.child heavy) := Dep.child t hdep heavy
      have hlt := count_child_lt t heavy hne
      obtain ⟨c, h1, h2, h3, h4, h5⟩ := ihS (t.child heavy) hcn hcd
        (Dep.child_ne_nil _ hcd hcb)
        (NoPts.of_count t _ hw (count_child_le t heavy)) (by omega)
      simp only [← hh, h1, bind, Except.bind]
      have hne2 : (t.setChild heavy c) ≠ nil := setChild_ne_nil t heavy c hne
      have hdep2 : Dep (t.setChild heavy c).refresh := by
        apply Dep.refresh
        intro dir
        rw [child_setChild _ _ _ _ hne]
        split
        · exact h2
        · exact Dep.child t hdep _
      have hiv2 : ∀ a, (t.setChild heavy c).refresh.ivs.count a = t.ivs.count a := by
        intro a
        rw [ivs_refresh]
        have := count_swap t heavy c hne a
        have := h5 a
        omega
      have hct2 : (t.setChild heavy c).refresh.count = t.count := by
        rw [count_refresh]
        have := count_swap_nodes t heavy c hne
        omega
      have hcn2 : (t.setChild heavy c).refresh.child
          (decide (0 < (t.setChild heavy c).refresh.balance)) ≠ nil := by
        rw [child_refresh, child_setChild _ _ _ _ hne]
        split
        · exact h3
        · -- the other side is at least as deep as the new child
          intro hnil
          have hcpos := (Dep.depth_nonneg c h2).2 h3
          cases t with
          | nil => exact hne rfl
          | node x s l r d b =>
            by_cases hb : 0 < b
            · have hheavy : heavy = true := by rw [hh]; exact decide_eq_true hb
              rw [hheavy] at hnil
              rename_i hdir
              rw [hheavy] at hdir
              simp only [setChild, if_true, refresh, mk, balance] at hdir hnil
              have hd0 : ¬ (0 < c.depth - l.depth) := by simpa using hdir
              simp only [hd0, decide_false, child, Bool.false_eq_true, if_false] at hnil
              rw [hnil, depth_nil] at hd0
              omega
            · have hheavy : heavy = false := by rw [hh]; exact decide_eq_false hb
              rw [hheavy] at hnil
              rename_i hdir
              rw [hheavy] at hdir
              simp only [setChild, Bool.false_eq_true, if_false, refresh, mk, balance] at hdir hnil
              have hd0 : 0 < r.depth - c.depth := by simpa using hdir
              simp only [hd0, decide_true, child, if_true] at hnil
              rw [hnil, depth_nil] at hd0
              omega
      obtain ⟨t', g1, g2, g3, g4, g5⟩ := ihS _ (refresh_ne_nil _ hne2) hdep2 hcn2
        (NoPts.of_count t _ hw (fun a => le_of_eq (hiv2 a))) (by rw [hct2]; omega)
      exact ⟨t', g1, g2, g3, by rw [g4, hct2], fun a => by rw [g5 a, hiv2 a]⟩

/-- Adding to an existing node: success and effect, for intervals without points. -/
theorem add_total (iv : FIv D) (hiv : iv.NoPoint) : ∀ (n : Nat) (t : ITree D), t ≠ nil → Dep t →
    NoPts t → 4 * t.count + 5 ≤ n →
    ∃ t', add n t iv = .ok t' ∧ Dep t' ∧ t' ≠ nil ∧ t'.count = t.count + 1 ∧
      ∀ a, t'.ivs.count a = t.ivs.count a + [iv].count a := by
  intro n
  induction n with
  | zero => intro t _ _ _ h; omega
  | succ n ih =>
    intro t hne hdep hw hn
    cases t with
    | nil => exact absurd rfl hne
    | node x s l r d b =>
      rw [add, hiv x]
      simp only [Bool.false_eq_true, if_false]
      set t := node x s l r d b with ht
      set dir := decide (x < iv.b) with hdir
      split
      · rename_i hc
        refine ⟨_, rfl, ?_, refresh_ne_nil _ (setChild_ne_nil _ _ _ hne), ?_, ?_⟩
        · apply Dep.refresh
          intro dir'
          rw [child_setChild _ _ _ _ hne]
          split
          · exact ⟨rfl, rfl, trivial, trivial⟩
          · exact Dep.child t hdep _
        · rw [count_refresh]
          have h1 := count_swap_nodes t dir (single iv) hne
          rw [hc] at h1
          have h2 : (single iv).count = 1 := rfl
          have h3 : (nil : ITree D).count = 0 := rfl
          omega
        · intro a
          rw [ivs_refresh]
          have h1 := count_swap t dir (single iv) hne a
          rw [hc] at h1
          have h2 : (single iv).ivs = [iv] := by simp [single, ivs_mk, ivs]
          have h3 : (nil : ITree D).ivs.count a = 0 := by simp [ivs]
          rw [h2] at h1
          omega
      · rename_i hc
        have hlt := count_child_lt t dir hne
        obtain ⟨c, h1, h2, h3, h4, h5⟩ := ih (t.child dir) hc (Dep.child t hdep dir)
          (NoPts.of_count t _ hw (count_child_le t dir)) (by omega)
        simp only [h1, bind, Except.bind]
        have hne2 := setChild_ne_nil t dir c hne
        have hivs : ∀ a, (t.setChild dir c).ivs.count a = t.ivs.count a + [iv].count a := by
          intro a
          have := count_swap t dir c hne a
          have := h5 a
          omega
        have hcnt : (t.setChild dir c).count = t.count + 1 := by
          have := count_swap_nodes t dir c hne
          omega
        obtain ⟨t', g1, g2, g3, g4, g5⟩ := (rotate_total n).1 (t.setChild dir c) hne2 (by
          intro dir'
          rw [child_setChild _ _ _ _ hne]
          split
          · exact h2
          · exact Dep.child t hdep _) (by
          intro j hj
          have h0 := List.count_pos_iff.2 hj
          rw [hivs j] at h0
          by_cases hji : j = iv
          · rw [hji]; exact hiv
          · have : [iv].count j = 0 := by rw [List.count_eq_zero]; simpa using hji
            exact hw j (List.count_pos_iff.1 (by omega))) (by rw [hcnt]; omega)
        exact ⟨t', g1, g2, g3, by rw [g4, hcnt], fun a => by rw [g5 a, hivs a]⟩

/-- Removing an interval without points: the search never hits. -/
theorem removeHelper_noPoint (iv : FIv D) (hiv : iv.NoPoint) (sr : Bool) : ∀ (n : Nat) (t : ITree D),
    t ≠ nil → t.count + 1 ≤ n →
    removeHelper n t iv sr = if sr then .error .value else .ok (t, true) := by
  intro n
  induction n with
  | zero => intro t _ h; omega
  | succ n ih =>
    intro t hne hn
    cases t with
    | nil => exact absurd rfl hne
    | node x s l r d b =>
      rw [removeHelper, hiv x]
      simp only [Bool.false_eq_true, if_false]
      set t := node x s l r d b with ht
      set dir := decide (x < iv.b) with hdir
      split
      · rfl
      · rename_i hc
        have hlt := count_child_lt t dir hne
        rw [ih _ hc (by omega)]
        cases sr
        · simp only [Bool.false_eq_true, if_false, bind, Except.bind, if_true]
          congr 2
          rw [ht]
          unfold setChild child
          cases dir <;> rfl
        · rfl

theorem list_count_filter3 (p q : FIv D → Bool) (l : List (FIv D)) (a : FIv D) :
    (l.filter (fun k => !p k && q k)).count a + (l.filter (fun k => !p k && !q k)).count a +
      (l.filter p).count a = l.count a := by
  induction l with
  | nil => simp
  | cons x l ih =>
    rw [List.filter_cons, List.filter_cons, List.filter_cons, List.count_cons, ← ih]
    cases hp : p x <;> cases hq : q x <;> simp [List.count_cons] <;> omega

/-- Building from a list keeps exactly the intervals of the list, whenever it returns. -/
theorem ofSorted_conserve : ∀ (n : Nat) (xs : List (FIv D)) (t : ITree D), (∀ a, xs.count a ≤ 1) →
    ofSorted n xs = .ok t → ∀ a, t.ivs.count a = xs.count a := by
  intro n
  induction n with
  | zero =>
    intro xs t _ h a
    cases xs with
    | nil => rw [ofSorted] at h; cases h; simp [ivs]
    | cons x xs => rw [ofSorted] at h; cases h
  | succ n ih =>
    intro xs t ho h a
    cases xs with
    | nil => rw [ofSorted] at h; cases h; simp [ivs]
    | cons x xs =>
      rw [ofSorted] at h
      simp only at h
      split at h
      · cases h
      · rename_i c _
        set ys := x :: xs with hys
        set sL := ys.filter (fun k => !decide (c.b < k.b) && iclose k.e c.b) with hL
        set sR := ys.filter (fun k => decide (c.b < k.b)) with hR
        set sC := ys.filter (fun k => !decide (c.b < k.b) && !iclose k.e c.b) with hC
        have hsp : ∀ a, sL.count a + sC.count a + sR.count a = ys.count a :=
          list_count_filter3 (fun k => decide (c.b < k.b)) (fun k => iclose k.e c.b) ys
        cases hl : ofSorted n sL with
        | error e => simp only [hl, bind, Except.bind] at h; cases h
        | ok l =>
          cases hr : ofSorted n sR with
          | error e => simp only [hl, hr, bind, Except.bind] at h; cases h
          | ok r =>
            simp only [hl, hr, bind, Except.bind] at h
            have h1 := ih sL l (fun a => by have := hsp a; have := ho a; omega) hl
            have h2 := ih sR r (fun a => by have := hsp a; have := ho a; omega) hr
            have hm : ∀ a, (mk c.b sC l r).ivs.count a = ys.count a := by
              intro a
              rw [ivs_mk, List.count_append, List.count_append, h1 a, h2 a]
              have := hsp a
              omega
            have := ((conserve n).1 _ _ (fun a => by rw [hm a]; exact ho a) h (by intro h; cases h)).2 a
            rw [this, hm a]

theorem length_filter_lt_of_mem {α : Type} (p : α → Bool) (l : List α) (x : α) (hx : x ∈ l)
    (h : p x = false) : (l.filter p).length < l.length := by
  rw [List.length_filter_lt_length_iff_exists]
  exact ⟨x, hx, by simp [h]⟩

/-- Building from a list of intervals that are not close to being points succeeds. -/
theorem ofSorted_total : ∀ (n : Nat) (xs : List (FIv D)), (∀ iv ∈ xs, iv.NoPoint) →
    4 * xs.length + 1 ≤ n →
    ∃ t, ofSorted n xs = .ok t ∧ Dep t ∧ t.count ≤ xs.length ∧
      ∀ a, t.ivs.count a = xs.count a := by
  intro n
  induction n with
  | zero => intro xs _ h; omega
  | succ n ih =>
    intro xs hw hn
    cases xs with
    | nil => exact ⟨nil, by rw [ofSorted], trivial, by simp [count], by simp [ivs]⟩
    | cons x xs =>
      rw [ofSorted]
      simp only
      set ys := x :: xs with hys
      have hlen : ys.length / 2 < ys.length := by
        have : 0 < ys.length := by simp [hys]
        omega
      rw [List.getElem?_eq_getElem hlen]
      simp only
      set c := ys[ys.length / 2] with hcdef
      have hcm : c ∈ ys := List.getElem_mem hlen
      have hcw := hw c hcm
      have hnc : iclose c.e c.b = false := by
        have := hcw c.b
        unfold FIv.containsPoint at this
        have h1 : iclose c.b c.b = true := isclose_refl _ _ _ (le_refl _)
        rw [h1, Bool.true_and] at this
        unfold iclose at this ⊢
        rw [isclose_comm]
        exact this
      set sL := ys.filter (fun k => !decide (c.b < k.b) && iclose k.e c.b) with hL
      set sR := ys.filter (fun k => decide (c.b < k.b)) with hR
      set sC := ys.filter (fun k => !decide (c.b < k.b) && !iclose k.e c.b) with hC
      have hsp : ∀ a, sL.count a + sC.count a + sR.count a = ys.count a :=
        list_count_filter3 (fun k => decide (c.b < k.b)) (fun k => iclose k.e c.b) ys
      have hC1 : 1 ≤ sC.length := by
        have : c ∈ sC := List.mem_filter.2 ⟨hcm, by simp [hnc]⟩
        exact List.length_pos_of_mem this
      have hlsum : sL.length + sC.length + sR.length = ys.length := by
        have := fun l : List (FIv D) => l
        clear_value sL sR sC
        have e : ys.Perm (sL ++ sC ++ sR) := by
          rw [List.perm_iff_count]
          intro a
          rw [List.count_append, List.count_append, hsp a]
        have := e.length_eq
        simp only [List.length_append] at this
        omega
      obtain ⟨l, h1, h2, h3, h4⟩ := ih sL (fun iv h => hw iv (List.mem_filter.1 h).1) (by omega)
      obtain ⟨r, g1, g2, g3, g4⟩ := ih sR (fun iv h => hw iv (List.mem_filter.1 h).1) (by omega)
      simp only [h1, g1, bind, Except.bind]
      have hm : ∀ a, (mk c.b sC l r).ivs.count a = ys.count a := by
        intro a
        rw [ivs_mk, List.count_append, List.count_append, h4 a, g4 a]
        have := hsp a
        omega
      have hmc : (mk c.b sC l r).count = 1 + l.count + r.count := rfl
      obtain ⟨t', k1, k2, k3, k4, k5⟩ := (rotate_total n).1 (mk c.b sC l r) (by intro h; cases h)
        (by intro dir; cases dir; exact h2; exact g2)
        (by
          intro iv hiv
          apply hw
          have := List.count_pos_iff.2 hiv
          rw [hm iv] at this
          exact List.count_pos_iff.1 this) (by rw [hmc]; omega)
      exact ⟨t', k1, k2, by rw [k4, hmc]; omega, fun a => by rw [k5 a, hm a]⟩

end ITree
end NGC
