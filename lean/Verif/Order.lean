import Verif.Py

/-! Sorting with an arbitrary `__lt__`, and binary insertion. -/

namespace NGC

/-- `lt` is a strict weak order on the members of `l`. -/
def StrictWeakOn {α : Type} (lt : α → α → Bool) (l : List α) : Prop :=
  (∀ a ∈ l, ∀ b ∈ l, lt a b = true → lt b a = false) ∧
  (∀ a ∈ l, ∀ b ∈ l, ∀ c ∈ l, lt a c = true → lt a b = true ∨ lt b c = true)

/-- Sorted with respect to `lt`: no later element is smaller than an earlier one. -/
def SortedLt {α : Type} (lt : α → α → Bool) (l : List α) : Prop :=
  l.Pairwise (fun a b => lt b a = false)

/-- What is assumed of Python's `sorted` with a user-defined `__lt__`: the result is always a
permutation, and it is sorted when `__lt__` is a strict weak order on the list. -/
structure IsPySort {α : Type} (lt : α → α → Bool) (srt : List α → List α) : Prop where
  perm : ∀ l, (srt l).Perm l
  sorted : ∀ l, StrictWeakOn lt l → SortedLt lt (srt l)

theorem StrictWeakOn.mono {α : Type} {lt : α → α → Bool} {l l' : List α}
    (h : StrictWeakOn lt l) (hs : ∀ x ∈ l', x ∈ l) : StrictWeakOn lt l' :=
  ⟨fun a ha b hb => h.1 a (hs a ha) b (hs b hb),
   fun a ha b hb c hc => h.2 a (hs a ha) b (hs b hb) c (hs c hc)⟩

/-- Binary insertion into a sorted list splits it correctly. -/
theorem bisectLeft_spec {α : Type} (lt : α → α → Bool) (l : List α) (x : α)
    (hw : StrictWeakOn lt (x :: l)) (hs : SortedLt lt l) :
    bisectLeft lt l x ≤ l.length ∧
    (∀ i (h : i < l.length), i < bisectLeft lt l x → lt l[i] x = true) ∧
    (∀ i (h : i < l.length), bisectLeft lt l x ≤ i → lt l[i] x = false) := by
  unfold bisectLeft
  refine bisectGo_spec l (fun y => lt y x) ?_ l.length 0 l.length (by omega) (by omega) (le_refl _)
    (by intro i h h'; omega) (by intro i h h'; omega)
  intro i j hi hj hij hp
  rcases Nat.lt_or_ge i j with hlt | hge
  · have hf : lt l[j] l[i] = false := List.pairwise_iff_getElem.1 hs i j hi hj hlt
    rcases hw.2 l[j] (by simp) l[i] (by simp) x (by simp) hp with h | h
    · rw [hf] at h; cases h
    · exact h
  · have : i = j := by omega
    subst this; exact hp

/-- `bisect_right` splits a sorted list correctly. -/
theorem bisectRight_spec {α : Type} (lt : α → α → Bool) (l : List α) (x : α)
    (hw : StrictWeakOn lt (x :: l)) (hs : SortedLt lt l) :
    bisectRight lt l x ≤ l.length ∧
    (∀ i (h : i < l.length), i < bisectRight lt l x → lt x l[i] = false) ∧
    (∀ i (h : i < l.length), bisectRight lt l x ≤ i → lt x l[i] = true) := by
  unfold bisectRight
  have := bisectGo_spec l (fun y => !lt x y) ?_ l.length 0 l.length (by omega) (by omega) (le_refl _)
    (by intro i h h'; omega) (by intro i h h'; omega)
  · refine ⟨this.1, fun i h hi => ?_, fun i h hi => ?_⟩
    · simpa using this.2.1 i h hi
    · simpa using this.2.2 i h hi
  intro i j hi hj hij hp
  simp only [Bool.not_eq_true'] at hp ⊢
  rcases Nat.lt_or_ge i j with hlt | hge
  · have hf : lt l[j] l[i] = false := List.pairwise_iff_getElem.1 hs i j hi hj hlt
    by_contra hc
    have hc' : lt x l[i] = true := by simpa using hc
    rcases hw.2 x (by simp) l[j] (by simp) l[i] (by simp) hc' with h | h
    · rw [hp] at h; cases h
    · rw [hf] at h; cases h
  · have : i = j := by omega
    subst this; exact hp

/-- Inserting at a position that splits the list keeps it sorted. -/
theorem pyInsert_sorted {α : Type} (lt : α → α → Bool) (l : List α) (x : α) (k : Nat)
    (hs : SortedLt lt l)
    (h1 : ∀ i (h : i < l.length), i < k → lt x l[i] = false)
    (h2 : ∀ i (h : i < l.length), k ≤ i → lt l[i] x = false) :
    SortedLt lt (pyInsert l k x) := by
  unfold pyInsert SortedLt
  have hsplit := hs
  unfold SortedLt at hsplit
  rw [← List.take_append_drop k l, List.pairwise_append] at hsplit
  rw [List.pairwise_append]
  refine ⟨hsplit.1, ?_, ?_⟩
  · rw [List.pairwise_cons]
    refine ⟨?_, hsplit.2.1⟩
    intro b hb
    obtain ⟨i, hi, rfl⟩ := List.getElem_of_mem hb
    rw [List.length_drop] at hi
    rw [List.getElem_drop]
    exact h2 _ (by omega) (by omega)
  · intro a ha b hb
    rcases List.mem_cons.1 hb with rfl | hb
    · obtain ⟨i, hi, rfl⟩ := List.getElem_of_mem ha
      rw [List.length_take] at hi
      rw [List.getElem_take]
      exact h1 _ (by omega) (by omega)
    · exact hsplit.2.2 a ha b hb

/-- `insort_left` keeps a sorted list sorted, on a strict weak order. -/
theorem insortLeft_sorted {α : Type} (lt : α → α → Bool) (l : List α) (x : α)
    (hw : StrictWeakOn lt (x :: l)) (hs : SortedLt lt l) : SortedLt lt (insortLeft lt l x) := by
  obtain ⟨_, h1, h2⟩ := bisectLeft_spec lt l x hw hs
  refine pyInsert_sorted lt l x _ hs ?_ h2
  intro i hi hk
  exact hw.1 _ (by simp) _ (by simp) (h1 i hi hk)

theorem insortLeft_perm {α : Type} (lt : α → α → Bool) (l : List α) (x : α) :
    (insortLeft lt l x).Perm (x :: l) := pyInsert_perm _ _ _

/-- Inserting all elements one by one is a permutation. -/
theorem foldl_insortLeft_perm {α : Type} (lt : α → α → Bool) (xs l : List α) :
    (xs.foldl (insortLeft lt) l).Perm (xs ++ l) := by
  induction xs generalizing l with
  | nil => exact List.Perm.refl _
  | cons x xs ih =>
    rw [List.foldl_cons]
    refine (ih _).trans ?_
    refine ((insortLeft_perm lt l x).append_left xs).trans ?_
    exact List.perm_middle

/-- Inserting all elements one by one into a sorted list keeps it sorted. -/
theorem foldl_insortLeft_sorted {α : Type} (lt : α → α → Bool) (xs l : List α)
    (hw : StrictWeakOn lt (xs ++ l)) (hs : SortedLt lt l) : SortedLt lt (xs.foldl (insortLeft lt) l) := by
  induction xs generalizing l with
  | nil => exact hs
  | cons x xs ih =>
    rw [List.foldl_cons]
    refine ih _ (hw.mono ?_) (insortLeft_sorted lt l x (hw.mono ?_) hs)
    · intro y hy
      rw [List.mem_append, (insortLeft_perm lt l x).mem_iff, List.mem_cons] at hy
      simp only [List.cons_append, List.mem_cons, List.mem_append]
      tauto
    · intro y hy
      rw [List.mem_cons] at hy
      simp only [List.cons_append, List.mem_cons, List.mem_append]
      tauto

end NGC
