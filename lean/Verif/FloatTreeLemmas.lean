import Verif.FloatTree
import Mathlib.Data.List.Count
import Mathlib.Data.List.Perm.Subperm

/-!
Facts about the node structure: every operation that returns keeps the stored intervals.
-/

namespace NGC
namespace ITree
variable {D : Type} [DecidableEq D]

theorem count_filter_split {α : Type} [DecidableEq α] (p : α → Bool) (l : List α) (a : α) :
    (l.filter p).count a + (l.filter (fun x => !p x)).count a = l.count a := by
  induction l with
  | nil => simp
  | cons x l ih =>
    rw [List.filter_cons, List.filter_cons, List.count_cons, ← ih]
    cases hp : p x <;> simp [List.count_cons] <;> omega

theorem count_setUpdate (s xs : List (FIv D)) (h : ∀ a, s.count a + xs.count a ≤ 1) (a : FIv D) :
    (setUpdate s xs).count a = s.count a + xs.count a := by
  unfold setUpdate
  rw [List.count_append]
  congr 1
  have : xs.filter (fun x => decide (x ∉ s)) = xs := by
    rw [List.filter_eq_self]
    intro x hx
    have h1 := h x
    have h2 := List.count_pos_iff.2 hx
    have h3 : s.count x = 0 := by omega
    simpa using List.count_eq_zero.1 h3
  rw [this]

theorem count_swap (t : ITree D) (dir : Bool) (c : ITree D) (h : t ≠ nil) (a : FIv D) :
    (t.child dir).ivs.count a + (t.setChild dir c).ivs.count a = c.ivs.count a + t.ivs.count a := by
  cases t with
  | nil => exact absurd rfl h
  | node x s l r d b =>
    cases dir <;> simp [child, setChild, ivs, List.count_append] <;> omega

theorem ivs_refresh (t : ITree D) : t.refresh.ivs = t.ivs := by cases t <;> rfl

theorem ivs_mk (x : ℚ) (s : List (FIv D)) (l r : ITree D) :
    (mk x s l r).ivs = l.ivs ++ s ++ r.ivs := rfl

theorem refresh_ne_nil (t : ITree D) (h : t ≠ nil) : t.refresh ≠ nil := by
  cases t with
  | nil => exact absurd rfl h
  | node x s l r d b => intro h; cases h

theorem setChild_ne_nil (t : ITree D) (dir : Bool) (c : ITree D) (h : t ≠ nil) :
    t.setChild dir c ≠ nil := by
  cases t with
  | nil => exact absurd rfl h
  | node x s l r d b => cases dir <;> (intro h; cases h)

theorem count_child_le (t : ITree D) (dir : Bool) (a : FIv D) :
    (t.child dir).ivs.count a ≤ t.ivs.count a := by
  cases t with
  | nil => simp [child]
  | node x s l r d b => cases dir <;> simp [child, ivs, List.count_append] <;> omega

theorem count_child_center_le (t : ITree D) (dir : Bool) (a : FIv D) :
    (t.child dir).ivs.count a + t.center.count a ≤ t.ivs.count a := by
  cases t with
  | nil => simp [child, center]
  | node x s l r d b => cases dir <;> simp [child, center, ivs, List.count_append] <;> omega

theorem count_center_le (t : ITree D) (a : FIv D) : t.center.count a ≤ t.ivs.count a := by
  have := count_child_center_le t true a; omega

/-- No interval is stored twice. -/
def Once (t : ITree D) : Prop := ∀ a, t.ivs.count a ≤ 1

/-- Conservation of the stored intervals by all restructuring operations. -/
theorem conserve (n : Nat) :
    (∀ t t' : ITree D, Once t → rotate n t = .ok t' → t ≠ nil →
      t' ≠ nil ∧ ∀ a, t'.ivs.count a = t.ivs.count a) ∧
    (∀ t t' : ITree D, Once t → srotate n t = .ok t' →
      t' ≠ nil ∧ ∀ a, t'.ivs.count a = t.ivs.count a) ∧
    (∀ ps (t t' : ITree D), Once t → promoteLoop n ps t = .ok t' →
      ∀ a, ps.count a + t'.ivs.count a = t.ivs.count a) ∧
    (∀ t t' : ITree D, Once t → drotate n t = .ok t' → t ≠ nil →
      t' ≠ nil ∧ ∀ a, t'.ivs.count a = t.ivs.count a) ∧
    (∀ (t : ITree D) iv sr r, Once t → removeHelper n t iv sr = .ok r →
      (∀ a, [iv].count a + r.1.ivs.count a = t.ivs.count a) ∨
      (sr = false ∧ ∀ a, r.1.ivs.count a = t.ivs.count a)) ∧
    (∀ t t' : ITree D, Once t → t.center = [] → prune n t = .ok t' →
      ∀ a, t'.ivs.count a = t.ivs.count a) ∧
    (∀ (t : ITree D) r, Once t → popGreatest n t = .ok r →
      (∃ gx gs gd gb, r.1 = node gx gs nil nil gd gb) ∧
      ∀ a, r.1.ivs.count a + r.2.ivs.count a = t.ivs.count a) := by
  induction n with
  | zero =>
    refine ⟨?_, ?_, ?_, ?_, ?_, ?_, ?_⟩ <;>
      (intros; rename_i h _ ; first | cases h | skip) <;> rename_i h <;> cases h
  | succ n ih =>
    obtain ⟨ihRot, ihS, ihP, ihD, ihR, ihPr, ihPop⟩ := ih
    refine ⟨?_, ?_, ?_, ?_, ?_, ?_, ?_⟩
    · -- rotate
      intro t t' ho h hne
      rw [rotate] at h
      have ho' : Once t.refresh := by intro a; rw [ivs_refresh]; exact ho a
      simp only at h
      split at h
      · cases h
        exact ⟨refresh_ne_nil t hne, fun a => by rw [ivs_refresh]⟩
      · split at h
        · cases h
        · split at h
          · have := ihS _ _ ho' h
            exact ⟨this.1, fun a => by rw [this.2 a, ivs_refresh]⟩
          · have := ihD _ _ ho' h (refresh_ne_nil t hne)
            exact ⟨this.1, fun a => by rw [this.2 a, ivs_refresh]⟩
    · -- srotate
      intro t t' ho h
      rw [srotate] at h
      simp only at h
      have hne : t ≠ nil := by
        rintro rfl
        simp [child] at h
      cases hc : t.child (decide (0 < t.balance)) with
      | nil => rw [hc] at h; cases h
      | node sx ss sl sr sd sb =>
        rw [hc] at h
        simp only at h
        set heavy := decide (0 < t.balance) with hh
        set save := node sx ss sl sr sd sb with hs
        set t1 := t.setChild heavy (save.child (!heavy)) with ht1
        have h1 : t1 ≠ nil := setChild_ne_nil t heavy _ hne
        have hsw : ∀ a, save.ivs.count a + t1.ivs.count a =
            (save.child (!heavy)).ivs.count a + t.ivs.count a := by
          intro a
          have := count_swap t heavy (save.child (!heavy)) hne a
          rw [hc] at this
          exact this
        have ho1 : Once t1 := by
          intro a
          have := hsw a
          have := count_child_le save (!heavy) a
          have := ho a
          omega
        cases hr : rotate n t1 with
        | error e => simp only [hr, bind, Except.bind] at h; cases h
        | ok sub =>
          simp only [hr, bind, Except.bind] at h
          obtain ⟨hsubne, hsub⟩ := ihRot _ _ ho1 hr h1
          set ps := sub.center.filter (fun iv => iv.containsPoint sx) with hps
          have hosub : Once sub := fun a => by rw [hsub a]; exact ho1 a
          cases hl : promoteLoop n ps sub with
          | error e => simp only [hl] at h; cases h
          | ok sub' =>
            simp only [hl] at h
            have hpl := ihP _ _ _ hosub hl
            set save' := node sx (setUpdate ss ps) sl sr sd sb with hs'
            have hcnt : ∀ a, (setUpdate ss ps).count a = ss.count a + ps.count a := by
              apply count_setUpdate
              intro a
              have e1 := hsw a
              have e2 := count_child_center_le save (!heavy) a
              have e3 : save.center = ss := rfl
              rw [e3] at e2
              have e4 := hpl a
              have e5 := hsub a
              have e6 := ho a
              omega
            have hsave' : ∀ a, save'.ivs.count a = save.ivs.count a + ps.count a := by
              intro a
              simp only [hs', hs, ivs, List.count_append, hcnt a]
              omega
            have hchild : save'.child (!heavy) = save.child (!heavy) := rfl
            have hne' : save' ≠ nil := by rw [hs']; intro h; cases h
            cases h
            refine ⟨refresh_ne_nil _ (setChild_ne_nil _ _ _ hne'), ?_⟩
            intro a
            rw [ivs_refresh]
            have e0 := count_swap save' (!heavy) sub' hne' a
            rw [hchild] at e0
            have e1 := hsw a
            have e2 := hsave' a
            have e3 := hpl a
            have e4 := hsub a
            omega
    · -- promoteLoop
      intro ps t t' ho h a
      cases ps with
      | nil => rw [promoteLoop] at h; cases h; simp
      | cons iv rest =>
        rw [promoteLoop] at h
        cases hr : removeHelper n t iv true with
        | error e => simp only [hr, bind, Except.bind] at h; cases h
        | ok r =>
          simp only [hr, bind, Except.bind] at h
          rcases ihR _ _ _ _ ho hr with h1 | ⟨h1, _⟩
          · have ho' : Once r.1 := by
              intro a
              have := h1 a
              have := ho a
              omega
            have h2 := ihP _ _ _ ho' h a
            have h3 := h1 a
            rw [List.count_cons]
            rw [List.count_singleton] at h3
            omega
          · cases h1
    · -- drotate
      intro t t' ho h hne
      rw [drotate] at h
      set heavy := decide (0 < t.balance) with hh
      have hoc : Once (t.child heavy) := fun a => le_trans (count_child_le t heavy a) (ho a)
      cases hr : srotate n (t.child heavy) with
      | error e => simp only [← hh, hr, bind, Except.bind] at h; cases h
      | ok c =>
        simp only [← hh, hr, bind, Except.bind] at h
        obtain ⟨_, h1⟩ := ihS _ _ hoc hr
        have h2 : ∀ a, (t.setChild heavy c).ivs.count a = t.ivs.count a := by
          intro a
          have := count_swap t heavy c hne a
          have := h1 a
          omega
        have ho2 : Once (t.setChild heavy c).refresh := by
          intro a; rw [ivs_refresh, h2 a]; exact ho a
        obtain ⟨h3, h4⟩ := ihS _ _ ho2 h
        exact ⟨h3, fun a => by rw [h4 a, ivs_refresh, h2 a]⟩
    · -- removeHelper
      intro t iv sr r ho h
      cases t with
      | nil => rw [removeHelper] at h; cases h
      | node x s l rr d b =>
        rw [removeHelper] at h
        split at h
        · split at h
          · rename_i hcond
            cases h
            simp at hcond
            exact Or.inr ⟨hcond.1, fun a => rfl⟩
          · split at h
            · cases h
            · rename_i hin
              have hin : iv ∈ s := not_not.1 hin
              have herase : ∀ a, [iv].count a + (s.erase iv).count a = s.count a := by
                intro a
                have := (List.perm_cons_erase hin).count_eq a
                rw [List.count_cons] at this
                rw [List.count_singleton]
                omega
              split at h
              · cases h
                left
                intro a
                have := herase a
                simp only [ivs, List.count_append]
                omega
              · rename_i hem
                have hem : s.erase iv = [] := not_not.1 hem
                cases hp : prune n (node x [] l rr d b) with
                | error e => simp only [hp, bind, Except.bind] at h; cases h
                | ok t' =>
                  simp only [hp, bind, Except.bind] at h
                  cases h
                  left
                  intro a
                  have hop : Once (node x [] l rr d b) := by
                    intro a
                    have := ho a
                    simp only [ivs, List.count_append, List.count_nil] at this ⊢
                    omega
                  have h1 := ihPr _ _ hop rfl hp a
                  have h2 := herase a
                  rw [hem, List.count_nil] at h2
                  simp only [ivs, List.count_append, List.count_nil] at h1 ⊢
                  omega
        · simp only at h
          set dir := decide (x < iv.b) with hdir
          set t := node x s l rr d b with ht
          have htne : t ≠ nil := by rw [ht]; intro h; cases h
          split at h
          · split at h
            · cases h
            · rename_i hs
              cases h
              right
              exact ⟨by simpa using hs, fun a => rfl⟩
          · have hoc : Once (t.child dir) := fun a => le_trans (count_child_le t dir a) (ho a)
            cases hr : removeHelper n (t.child dir) iv sr with
            | error e => simp only [hr, bind, Except.bind] at h; cases h
            | ok q =>
              obtain ⟨c, done⟩ := q
              simp only [hr, bind, Except.bind] at h
              have key : (∀ a, [iv].count a + (t.setChild dir c).ivs.count a = t.ivs.count a) ∨
                  (sr = false ∧ ∀ a, (t.setChild dir c).ivs.count a = t.ivs.count a) := by
                rcases ihR _ _ _ _ hoc hr with h1 | ⟨h0, h1⟩
                · left
                  intro a
                  have e1 := h1 a
                  have e2 := count_swap t dir c htne a
                  have e3 : (c, done).1 = c := rfl
                  rw [e3] at e1
                  omega
                · right
                  refine ⟨h0, fun a => ?_⟩
                  have e1 := h1 a
                  have e2 := count_swap t dir c htne a
                  have e3 : (c, done).1 = c := rfl
                  rw [e3] at e1
                  omega
              have hos : Once (t.setChild dir c) := by
                intro a
                have := ho a
                rcases key with k | ⟨_, k⟩ <;> have := k a <;> omega
              split at h
              · cases h
                exact key
              · cases hro : rotate n (t.setChild dir c) with
                | error e => simp only [hro] at h; cases h
                | ok t' =>
                  simp only [hro] at h
                  cases h
                  obtain ⟨_, h1⟩ := ihRot _ _ hos hro (setChild_ne_nil t dir c htne)
                  rcases key with k | ⟨h0, k⟩
                  · left; intro a; have := k a; have := h1 a; simp only; omega
                  · right; exact ⟨h0, fun a => by have := k a; have := h1 a; simp only; omega⟩
    · -- prune
      intro t t' ho hs h a
      cases t with
      | nil => rw [prune] at h; cases h
      | node x s l r d b =>
        have hs : s = [] := hs
        subst hs
        rw [prune] at h
        split at h
        · rename_i hl
          cases h
          subst hl
          simp [ivs]
        · split at h
          · rename_i hr
            cases h
            subst hr
            simp [ivs]
          · have hol : Once l := by
              intro a
              have := ho a
              simp only [ivs, List.count_append] at this
              omega
            cases hp : popGreatest n l with
            | error e => simp only [hp, bind, Except.bind] at h; cases h
            | ok q =>
              obtain ⟨heir, l'⟩ := q
              simp only [hp, bind, Except.bind] at h
              obtain ⟨⟨gx, gs, gd, gb, hg⟩, hq⟩ := ihPop _ _ hol hp
              simp only at hg hq
              subst hg
              simp only at h
              have hom : Once (mk gx gs l' r) := by
                intro a
                have e1 := hq a
                have e2 := ho a
                simp only [ivs, ivs_mk, List.count_append, List.count_nil] at e1 e2 ⊢
                omega
              obtain ⟨_, h1⟩ := ihRot _ _ hom h (by intro h; cases h)
              rw [h1 a]
              have e1 := hq a
              simp only [ivs, ivs_mk, List.count_append, List.count_nil] at e1 ⊢
              omega
    · -- popGreatest
      intro t q ho h
      cases t with
      | nil => rw [popGreatest] at h; cases h
      | node x s l r d b =>
        rw [popGreatest] at h
        split at h
        · rename_i hr
          subst hr
          split at h
          · cases h
          · simp only at h
            cases h
            refine ⟨⟨_, _, _, _, rfl⟩, ?_⟩
            intro a
            have hsp := count_filter_split (fun iv : FIv D => iv.containsPoint (newCenter x s)) s a
            split
            · simp only [ivs, ivs_mk, List.count_append, List.count_nil]
              omega
            · rename_i hrest
              have hrest := not_not.1 hrest
              rw [hrest, List.count_nil] at hsp
              simp only [ivs, ivs_mk, List.count_append, List.count_nil]
              omega
        · have hor : Once r := by
            intro a
            have := ho a
            simp only [ivs, List.count_append] at this
            omega
          cases hp : popGreatest n r with
          | error e => simp only [hp, bind, Except.bind] at h; cases h
          | ok q' =>
            obtain ⟨g, r'⟩ := q'
            simp only [hp, bind, Except.bind] at h
            obtain ⟨⟨gx, gs, gd, gb, hg⟩, hq⟩ := ihPop _ _ hor hp
            simp only at hg hq
            subst hg
            simp only at h
            set moved := s.filter (fun iv => iv.containsPoint gx) with hm
            set rest := s.filter (fun iv => !iv.containsPoint gx) with hrs
            have hsp : ∀ a, moved.count a + rest.count a = s.count a :=
              count_filter_split (fun iv : FIv D => iv.containsPoint gx) s
            have hup : ∀ a, (setUpdate gs moved).count a = gs.count a + moved.count a := by
              apply count_setUpdate
              intro a
              have e1 := hq a
              have e2 := ho a
              have e3 := hsp a
              simp only [ivs, List.count_append, List.count_nil] at e1 e2
              omega
            split at h
            · have hom : Once (mk x rest l r') := by
                intro a
                have e1 := hq a
                have e2 := ho a
                have e3 := hsp a
                simp only [ivs, ivs_mk, List.count_append, List.count_nil] at e1 e2 ⊢
                omega
              cases hro : rotate n (mk x rest l r') with
              | error e => simp only [hro] at h; cases h
              | ok t' =>
                simp only [hro] at h
                cases h
                obtain ⟨_, h1⟩ := ihRot _ _ hom hro (by intro h; cases h)
                refine ⟨⟨_, _, _, _, rfl⟩, ?_⟩
                intro a
                have e0 := h1 a
                have e1 := hq a
                have e3 := hsp a
                have e4 := hup a
                simp only [ivs, ivs_mk, List.count_append, List.count_nil] at e0 e1 ⊢
                omega
            · rename_i hrest
              have hrest := not_not.1 hrest
              have hom : Once (node x rest l r' d b) := by
                intro a
                have e1 := hq a
                have e2 := ho a
                have e3 := hsp a
                simp only [ivs, List.count_append, List.count_nil] at e1 e2 ⊢
                omega
              cases hpr : prune n (node x rest l r' d b) with
              | error e => simp only [hpr] at h; cases h
              | ok t' =>
                simp only [hpr] at h
                cases h
                have h1 := ihPr _ _ hom hrest hpr
                refine ⟨⟨_, _, _, _, rfl⟩, ?_⟩
                intro a
                have e0 := h1 a
                have e1 := hq a
                have e3 := hsp a
                have e4 := hup a
                simp only [ivs, List.count_append, List.count_nil] at e0 e1 ⊢
                omega

end ITree
end NGC
