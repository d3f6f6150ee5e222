import Verif.FloatTreeProps2

/-! Properties C92-C94: interval order, overlap and distance, bulk operations. -/

namespace NGC

variable {D : Type} [DecidableEq D]

namespace FIv

/-- **C92, the order of intervals.** If `<` on the data fields is a strict total order, so is `<` on
intervals: no interval is below itself, the order is transitive, and two different intervals are comparable
in exactly one way. Smaller means smaller begin, or same begin and smaller end, or same range and smaller
data. -/
theorem C92_strict_total (dlt : D → D → Bool) (irr : ∀ x, dlt x x = false)
    (tr : ∀ x y z, dlt x y = true → dlt y z = true → dlt x z = true)
    (tot : ∀ x y, x ≠ y → dlt x y = true ∨ dlt y x = true) :
    (∀ a : FIv D, a.lt dlt a = false) ∧
    (∀ a b c : FIv D, a.lt dlt b = true → b.lt dlt c = true → a.lt dlt c = true) ∧
    (∀ a b : FIv D, a ≠ b → (a.lt dlt b = true ↔ b.lt dlt a = false)) ∧
    (∀ a b : FIv D, a.lt dlt b = true ↔
      a.b < b.b ∨ (a.b = b.b ∧ a.e < b.e) ∨ (a.b = b.b ∧ a.e = b.e ∧ dlt a.data b.data = true)) := by
  have hiff : ∀ a b : FIv D, a.lt dlt b = true ↔
      a.b < b.b ∨ (a.b = b.b ∧ a.e < b.e) ∨ (a.b = b.b ∧ a.e = b.e ∧ dlt a.data b.data = true) := by
    intro a b
    unfold lt
    by_cases h1 : a.b = b.b
    · by_cases h2 : a.e = b.e
      · simp [h1, h2]
      · simp [h1, h2]
    · simp only [ne_eq, h1, not_false_eq_true, if_true, decide_eq_true_eq, false_and, or_false]
  refine ⟨?_, ?_, ?_, hiff⟩
  · intro a; simp [lt, irr]
  · intro a b c h1 h2
    rw [hiff] at h1 h2 ⊢
    rcases h1 with h1 | ⟨h1, h1'⟩ | ⟨h1, h1', h1''⟩ <;> rcases h2 with h2 | ⟨h2, h2'⟩ | ⟨h2, h2', h2''⟩
    · left; linarith
    · left; linarith
    · left; linarith
    · left; linarith
    · right; left; exact ⟨by linarith, by linarith⟩
    · right; left; exact ⟨by linarith, by linarith⟩
    · left; linarith
    · right; left; exact ⟨by linarith, by linarith⟩
    · right; right; exact ⟨by linarith, by linarith, tr _ _ _ h1'' h2''⟩
  · intro a b hne
    rw [← Bool.not_eq_true, hiff, hiff]
    by_cases h1 : a.b = b.b
    · by_cases h2 : a.e = b.e
      · have hd : a.data ≠ b.data := by
          intro h; apply hne; cases a; cases b; simp_all
        simp only [h1, h2, lt_irrefl, and_false, true_and, false_or]
        constructor
        · intro h h'
          have := tr _ _ _ h h'
          rw [irr] at this; cases this
        · intro h
          rcases tot _ _ hd with h' | h'
          · exact h'
          · exact absurd h' h
      · simp only [h1, h2, lt_irrefl, true_and, false_and, false_or, or_false, (Ne.symm h2 : b.e ≠ a.e),
          not_lt]
        exact ⟨fun h => h.le, fun h => lt_of_le_of_ne h h2⟩
    · simp only [h1, (Ne.symm h1 : b.b ≠ a.b), false_and, or_false, not_lt]
      exact ⟨fun h => h.le, fun h => lt_of_le_of_ne h h1⟩

/-- Three intervals in order. -/
example : (⟨0, 2, 5⟩ : FIv Nat).lt (fun x y => decide (x < y)) ⟨1, 2, 0⟩ = true ∧
    (⟨1, 2, 0⟩ : FIv Nat).lt (fun x y => decide (x < y)) ⟨1, 3, 0⟩ = true ∧
    (⟨1, 3, 0⟩ : FIv Nat).lt (fun x y => decide (x < y)) ⟨1, 3, 1⟩ = true := by decide +kernel

/-- Two points more than a relative `1e-9` apart. -/
def _root_.NGC.Spec.NotClose (a b : ℚ) : Prop := 1 / 1000000000 * max |a| |b| < |a - b|

theorem iclose_false (a b : ℚ) (h : Spec.NotClose a b) : iclose a b = false := by
  unfold Spec.NotClose at h
  unfold iclose isclose
  have h0 : (0 : ℚ) ≤ 1 / 1000000000 * max |a| |b| := by positivity
  rw [max_eq_left h0]
  simpa using h

theorem iclose_self (a : ℚ) : iclose a a = true := by
  unfold iclose isclose
  simp

/-- **C93, overlap is not overlap.** A range that begins inside an interval, not within a relative `1e-9` of
its end, is reported as not overlapping, with overlap size 0, although both contain the point where it
begins. -/
theorem C93_inner_missed (iv other : FIv D) (hin : Spec.Contains iv other.b) (ho : other.b < other.e)
    (hap : Spec.NotClose other.b iv.e) :
    Spec.Contains other other.b ∧ iv.overlapsIv other = false ∧ iv.overlapSize other.b other.e = 0 := by
  have h : iv.overlapsRange other.b other.e = false := by
    unfold overlapsRange
    rw [iclose_false _ _ hap]; rfl
  exact ⟨⟨le_refl _, ho⟩, h, by unfold overlapSize; rw [h]; rfl⟩

/-- **C93, touching is reported as overlap.** Of two intervals of which the second begins where the first
ends, the first reports an overlap (of size 0), although no point is in both. -/
theorem C93_touching_overlaps (iv other : FIv D) (h1 : iv.b < iv.e) (h2 : other.b < other.e)
    (ht : other.b = iv.e) :
    iv.overlapsIv other = true ∧ iv.overlapSize other.b other.e = 0 ∧ iv.distanceTo other = 0 ∧
      ∀ p, ¬ (Spec.Contains iv p ∧ Spec.Contains other p) := by
  have h : iv.overlapsRange other.b other.e = true := by
    unfold overlapsRange
    rw [ht, iclose_self]
    simp only [Bool.true_and, decide_eq_true_eq]
    linarith
  refine ⟨h, ?_, ?_, ?_⟩
  · unfold overlapSize
    rw [h, if_pos rfl, min_eq_left (by linarith), max_eq_right (by linarith)]
    linarith
  · unfold distanceTo overlapsIv
    rw [h]; rfl
  · rintro p ⟨⟨_, a2⟩, ⟨b1, _⟩⟩
    linarith

/-- **C93, distance.** The distance of two intervals with a gap of more than a relative `1e-9` between them is
the gap, in both directions; for a range that begins inside the interval, before its end by more than that,
the "distance" is the negative of the way to the end. -/
theorem C93_distance (iv other : FIv D) (h1 : iv.b < iv.e) (h2 : other.b < other.e) :
    (iv.e < other.b → Spec.NotClose other.b iv.e → Spec.NotClose iv.b other.e →
      iv.distanceTo other = other.b - iv.e ∧ other.distanceTo iv = other.b - iv.e) ∧
    (iv.b < other.b → other.b < iv.e → Spec.NotClose other.b iv.e →
      iv.distanceTo other = other.b - iv.e ∧ iv.distanceTo other < 0) := by
  constructor
  · intro hg ha ha'
    have e1 : iv.overlapsIv other = false := by
      unfold overlapsIv overlapsRange; rw [iclose_false _ _ ha]; rfl
    have e2 : other.overlapsIv iv = false := by
      unfold overlapsIv overlapsRange; rw [iclose_false _ _ ha']; rfl
    unfold distanceTo
    rw [e1, e2]
    simp only [Bool.false_eq_true, if_false]
    rw [if_pos (by linarith), if_neg (by linarith)]
    exact ⟨rfl, rfl⟩
  · intro hb hin ha
    have e1 : iv.overlapsIv other = false := by
      unfold overlapsIv overlapsRange; rw [iclose_false _ _ ha]; rfl
    unfold distanceTo
    rw [e1]
    simp only [Bool.false_eq_true, if_false]
    rw [if_pos hb]
    exact ⟨rfl, by linarith⟩

/-- **C93, containment.** `contains_interval` is reflexive and transitive, and two intervals contain each
other exactly if `range_matches`; for non-empty `other` it says that every point of `other` is in the
interval. -/
theorem C93_containment (a c : FIv D) (hc : c.b < c.e) :
    (a.containsInterval a = true) ∧
    (∀ d : FIv D, a.containsInterval c = true → c.containsInterval d = true → a.containsInterval d = true) ∧
    (a.containsInterval c = true ∧ c.containsInterval a = true ↔ a.rangeMatches c = true) ∧
    (a.containsInterval c = true ↔ ∀ p, Spec.Contains c p → Spec.Contains a p) := by
  simp only [containsInterval, rangeMatches, Bool.and_eq_true, decide_eq_true_eq]
  refine ⟨⟨le_refl _, le_refl _⟩, ?_, ?_, ?_⟩
  · rintro d ⟨h1, h2⟩ ⟨h3, h4⟩; exact ⟨by linarith, by linarith⟩
  · constructor
    · rintro ⟨⟨h1, h2⟩, h3, h4⟩; exact ⟨by linarith, by linarith⟩
    · rintro ⟨h1, h2⟩; exact ⟨⟨h1.le, h2.ge⟩, h1.ge, h2.le⟩
  · constructor
    · rintro ⟨h1, h2⟩ p ⟨h3, h4⟩; exact ⟨by linarith, by linarith⟩
    · intro h
      refine ⟨(h c.b ⟨le_refl _, hc⟩).1, ?_⟩
      by_contra hlt
      have hm : c.b ≤ max c.b a.e ∧ max c.b a.e < c.e := ⟨le_max_left _ _, max_lt hc (by linarith)⟩
      have := (h (max c.b a.e) hm).2
      exact absurd (le_max_right c.b a.e) (by linarith)

/-- **C93, length.** The length is never negative and is 0 exactly for an empty interval. -/
theorem C93_length (a : FIv D) : 0 ≤ a.length ∧ (a.length = 0 ↔ ∀ p, ¬ Spec.Contains a p) := by
  unfold length isNull
  by_cases h : a.e ≤ a.b
  · simp only [h, decide_true, if_true, le_refl, true_and, true_iff]
    rintro p ⟨h1, h2⟩; linarith
  · simp only [h, decide_false, Bool.false_eq_true, if_false]
    have h' := not_le.1 h
    refine ⟨by linarith, ⟨fun e => by linarith, fun e => ?_⟩⟩
    exact absurd ⟨le_refl _, h'⟩ (e a.b)

/-- **C93, comparisons.** `lt`, `gt`, `le` and `ge` raise ValueError exactly if one of the two is empty.
Otherwise `lt` and `gt` mirror each other, `lt` says that all of `a` lies before all of `c`, and `ge` that
`a` does not begin lower. `le` compares the ends for closeness, so it is False for every pair with `lt` true
whose ends are apart. -/
theorem C93_compare (a c : FIv D) :
    (a.e ≤ a.b ∨ c.e ≤ c.b → a.strictlyBefore c = .error .value ∧ a.strictlyAfter c = .error .value ∧
      a.le c = .error .value ∧ a.ge c = .error .value) ∧
    (a.b < a.e → c.b < c.e →
      a.strictlyBefore c = c.strictlyAfter a ∧
      (a.strictlyBefore c = .ok true ↔ ∀ p q, Spec.Contains a p → Spec.Contains c q → p < q) ∧
      (a.ge c = .ok true ↔ c.b ≤ a.b) ∧
      (Spec.NotClose a.e c.e → a.le c = .ok false)) := by
  constructor
  · intro h
    have : (a.isNull || c.isNull) = true := by simpa [isNull] using h
    simp [strictlyBefore, strictlyAfter, le, ge, this]
  · intro h1 h2
    have hn : (a.isNull || c.isNull) = false := by simp [isNull, h1, h2]
    have hn' : (c.isNull || a.isNull) = false := by rw [Bool.or_comm]; exact hn
    refine ⟨?_, ?_, ?_, ?_⟩
    · simp [strictlyBefore, strictlyAfter, hn, hn']
    · simp only [strictlyBefore, hn, Bool.false_eq_true, if_false, Except.ok.injEq, decide_eq_true_eq]
      constructor
      · rintro h p q ⟨_, p2⟩ ⟨q1, _⟩; linarith
      · intro h
        by_contra hlt
        have hlt := not_le.1 hlt
        have hm1 : a.b ≤ max a.b c.b := le_max_left _ _
        have hm2 : max a.b c.b < a.e := max_lt h1 hlt
        have := h (max a.b c.b) c.b ⟨hm1, hm2⟩ ⟨le_refl _, h2⟩
        exact absurd (le_max_right a.b c.b) (by linarith)
    · simp [ge, hn]
    · intro h
      simp [le, hn, iclose_false _ _ h]

/-- Two intervals with a common part that are reported as not overlapping, at distance -1. -/
example : (⟨0, 2, 0⟩ : FIv Nat).overlapsIv ⟨1, 3, 0⟩ = false ∧ (⟨0, 2, 0⟩ : FIv Nat).distanceTo ⟨1, 3, 0⟩ = -1 ∧
    (⟨0, 2, 0⟩ : FIv Nat).overlapsIv ⟨2, 3, 0⟩ = true ∧
    (⟨0, 1, 0⟩ : FIv Nat).le ⟨2, 3, 0⟩ = .ok false := by decide +kernel

end FIv

/-! ### Bulk operations -/

theorem runTree_append (lim : Nat) (ops ops' : List (TOp D)) (t : FTree D) (h : runTree lim ops = .ok t) :
    runTree lim (ops ++ ops') = ops'.foldlM (fun t op => op.run lim t) t := by
  unfold runTree at *
  rw [List.foldlM_append, h]
  rfl

/-- **C94, bulk updates.** `update(xs)` on a tree reached by any history has the effect of adding the
intervals one by one, `difference_update(xs)` of discarding them one by one; so when they return, the tree is
the set union, resp. difference, and `span()` is the way from the least begin to the greatest end. -/
theorem C94_bulk (lim : Nat) (ops : List (TOp D)) (t : FTree D) (h : runTree lim ops = .ok t)
    (xs : List (FIv D)) (t' : FTree D) :
    (t.update lim xs = .ok t' →
      (∀ iv, t'.has iv = true ↔ t.has iv = true ∨ iv ∈ xs) ∧ ∀ iv ∈ xs, iv.b < iv.e) ∧
    (t.differenceUpdate lim xs = .ok t' → ∀ iv, t'.has iv = true ↔ t.has iv = true ∧ iv ∉ xs) := by
  have hset := (C41_set_semantics lim ops t h).1
  constructor
  · intro hu
    have hr : runTree lim (ops ++ xs.map TOp.add) = .ok t' := by
      rw [runTree_append lim ops _ t h, ← hu]
      unfold FTree.update
      rw [List.foldlM_map]
      rfl
    obtain ⟨g1, -, g3, -⟩ := C41_set_semantics lim _ t' hr
    have hst : ∀ (xs : List (FIv D)) (S : Finset (FIv D)) iv,
        iv ∈ (xs.map TOp.add).foldl Spec.setStep S ↔ iv ∈ S ∨ iv ∈ xs := by
      intro xs
      induction xs with
      | nil => intro S iv; simp
      | cons x xs ih =>
        intro S iv
        rw [List.map_cons, List.foldl_cons, ih]
        simp only [Spec.setStep, Finset.mem_insert, List.mem_cons]
        tauto
    have hmem : ∀ iv, iv ∈ Spec.stored (ops ++ xs.map TOp.add) ↔ t.has iv = true ∨ iv ∈ xs := by
      intro iv
      unfold Spec.stored
      rw [List.foldl_append, hst, hset]
      rfl
    exact ⟨fun iv => by rw [g1, hmem], fun iv hiv => g3 iv ((hmem iv).2 (Or.inr hiv))⟩
  · intro hu iv
    have hr : runTree lim (ops ++ xs.map TOp.discard) = .ok t' := by
      rw [runTree_append lim ops _ t h, ← hu]
      unfold FTree.differenceUpdate
      rw [List.foldlM_map]
      rfl
    obtain ⟨g1, -⟩ := C41_set_semantics lim _ t' hr
    have hst : ∀ (xs : List (FIv D)) (S : Finset (FIv D)) iv,
        iv ∈ (xs.map TOp.discard).foldl Spec.setStep S ↔ iv ∈ S ∧ iv ∉ xs := by
      intro xs
      induction xs with
      | nil => intro S iv; simp
      | cons x xs ih =>
        intro S iv
        rw [List.map_cons, List.foldl_cons, ih]
        simp only [Spec.setStep, Finset.mem_erase, List.mem_cons]
        tauto
    rw [g1]
    unfold Spec.stored
    rw [List.foldl_append, hst, hset]
    rfl

/-- **C94, wide intervals.** On a tree of wide intervals, bulk updates with wide intervals never raise. -/
theorem C94_bulk_total (lim : Nat) (ops : List (TOp D)) (hf : ∀ op ∈ ops, Spec.Fine op) (t : FTree D)
    (h : runTree lim ops = .ok t) (xs : List (FIv D)) (hx : ∀ iv ∈ xs, Spec.Wide iv)
    (hl : (ops.length + xs.length + 1) ^ 2 * 16 ≤ 2 ^ lim) :
    (∃ t', t.update lim xs = .ok t') ∧ ∃ t', t.differenceUpdate lim xs = .ok t' := by
  constructor
  · obtain ⟨t', h', -⟩ := C91_balanced lim (ops ++ xs.map TOp.add) (by
      intro op hop
      rcases List.mem_append.1 hop with ho | ho
      · exact hf op ho
      · obtain ⟨x, hx', rfl⟩ := List.mem_map.1 ho; exact hx x hx') (by simpa using hl)
    refine ⟨t', ?_⟩
    rw [runTree_append lim ops _ t h, List.foldlM_map] at h'
    exact h'
  · obtain ⟨t', h', -⟩ := C91_balanced lim (ops ++ xs.map TOp.discard) (by
      intro op hop
      rcases List.mem_append.1 hop with ho | ho
      · exact hf op ho
      · obtain ⟨x, hx', rfl⟩ := List.mem_map.1 ho; exact hx x hx') (by simpa using hl)
    refine ⟨t', ?_⟩
    rw [runTree_append lim ops _ t h, List.foldlM_map] at h'
    exact h'

/-- **C94, span.** `span()` of a tree reached by any history is the way from the least begin to the greatest
end, 0 for the empty tree. -/
theorem C94_span (lim : Nat) (ops : List (TOp D)) (t : FTree D) (h : runTree lim ops = .ok t) :
    (Spec.stored ops = ∅ → t.span = 0) ∧
    (Spec.stored ops ≠ ∅ → ∃ x ∈ Spec.stored ops, ∃ y ∈ Spec.stored ops, t.span = y.e - x.b ∧
      ∀ z ∈ Spec.stored ops, x.b ≤ z.b ∧ z.e ≤ y.e) := by
  obtain ⟨-, g2, -, -, g5, g6⟩ := C41_set_semantics lim ops t h
  constructor
  · intro he
    unfold FTree.span
    rw [if_pos (by rw [g2, he]; rfl)]
  · intro hne
    obtain ⟨⟨x, hx, ex⟩, y, hy, ey⟩ := g6 hne
    refine ⟨x, hx, y, hy, ?_, ?_⟩
    · unfold FTree.span
      rw [if_neg (by rw [g2]; simpa using hne), ex, ey]
    · intro z hz
      have := g5 z hz
      rw [ex, ey] at this
      exact this

/-- Two consecutive intervals that `merge_overlaps` would leave apart. -/
def Spec.Separate (strict : Bool) (x y : FIv D) : Prop := if strict then x.e ≤ y.b else x.e < y.b

theorem mergeGo_spec (strict : Bool) : ∀ (rest merged : List (FIv D)) (x : FIv D),
    ((x :: rest).IsChain (Spec.Separate strict) →
      FTree.mergeGo strict (merged ++ [x]) rest = .ok (merged ++ x :: rest)) ∧
    (¬ (x :: rest).IsChain (Spec.Separate strict) → FTree.mergeGo strict (merged ++ [x]) rest = .error .name) := by
  intro rest
  induction rest with
  | nil =>
    intro merged x
    refine ⟨fun _ => rfl, fun h => absurd (List.isChain_singleton _) h⟩
  | cons y rest ih =>
    intro merged x
    have hs : (decide (y.b < x.e) || (!strict && decide (y.b = x.e))) = false ↔ Spec.Separate strict x y := by
      unfold Spec.Separate
      cases strict
      · simp only [Bool.not_false, Bool.true_and, Bool.or_eq_false_iff, decide_eq_false_iff_not, not_lt,
          Bool.false_eq_true, if_false]
        exact ⟨fun h => lt_of_le_of_ne h.1 (Ne.symm h.2), fun h => ⟨h.le, (ne_of_lt h).symm⟩⟩
      · simp
    rw [List.isChain_cons_cons]
    unfold FTree.mergeGo
    rw [List.getLast?_append, List.getLast?_singleton]
    simp only [Option.or_some, Option.getD_some, Option.some_or]
    by_cases hsep : Spec.Separate strict x y
    · have hf := hs.2 hsep
      obtain ⟨i1, i2⟩ := ih (merged ++ [x]) y
      rw [if_neg (by rw [hf]; simp)]
      constructor
      · rintro ⟨_, hc⟩
        rw [i1 hc]; simp
      · intro hc
        exact i2 (fun h => hc ⟨hsep, h⟩)
    · have ht : (decide (y.b < x.e) || (!strict && decide (y.b = x.e))) = true := by
        by_contra hc
        exact hsep (hs.1 (by simpa using hc))
      rw [if_pos ht]
      exact ⟨fun h => absurd h.1 hsep, fun _ => rfl⟩

/-- **C94, merging never merges.** On a non-empty tree, `merge_overlaps` raises NameError as soon as there is
anything to merge (two neighbours in sorted order that overlap, or with `strict=False` touch); if there is
nothing to merge and the intervals are wide, it returns a tree with the same intervals. -/
theorem C94_merge (lim : Nat) (ops : List (TOp D)) (t : FTree D) (h : runTree lim ops = .ok t)
    (sorted : List (FIv D)) (hp : sorted.Perm t.all) (strict : Bool) (hne : t.len ≠ 0) :
    (¬ sorted.IsChain (Spec.Separate strict) → t.mergeOverlaps lim sorted strict = .error .name) ∧
    (sorted.IsChain (Spec.Separate strict) → (∀ iv ∈ t.all, Spec.Wide iv) → 4 * t.len + 1 ≤ lim →
      ∃ t', t.mergeOverlaps lim sorted strict = .ok t' ∧ t'.all.Perm t.all) := by
  obtain ⟨x, rest, rfl⟩ : ∃ x rest, sorted = x :: rest := by
    cases sorted with
    | nil =>
      exfalso; apply hne
      have := hp.length_eq
      simpa [FTree.len] using this.symm
    | cons x rest => exact ⟨x, rest, rfl⟩
  obtain ⟨m1, m2⟩ := mergeGo_spec strict rest [] x
  have hstart : FTree.mergeGo strict [] (x :: rest) = FTree.mergeGo strict ([] ++ [x]) rest := by
    rw [FTree.mergeGo]; rfl
  unfold FTree.mergeOverlaps
  rw [if_neg hne, hstart]
  constructor
  · intro hc
    rw [m2 hc]; rfl
  · intro hc hw hl
    rw [m1 hc]
    obtain ⟨t', h'⟩ := C42_built_tree_total lim (x :: rest) (x :: rest) (List.Perm.refl _)
      (fun iv hiv => hw iv (hp.mem_iff.1 hiv)) (by rw [hp.length_eq]; exact hl)
    have hnd : (x :: rest).Nodup := hp.nodup_iff.2 (runTree_inv lim ops t h).1.nodup
    refine ⟨t', h', ?_⟩
    rw [(C42_built_tree lim _ _ (List.Perm.refl _) hnd t' h').2]
    exact hp

/-- **C94, splitting always raises.** On every tree reached by wide operations whose intervals have at least
three different ends, `split_overlaps` raises AttributeError. -/
theorem C94_split_raises (lim : Nat) (ops : List (TOp D)) (hf : ∀ op ∈ ops, Spec.Fine op)
    (hl : 4 * ops.length + 5 ≤ lim) (t : FTree D) (h : runTree lim ops = .ok t) (hne : t.len ≠ 0)
    (h3 : 3 ≤ t.bounds.length) : t.splitOverlaps = .error .attribute := by
  obtain ⟨hat, -⟩ := C44_search_raises lim ops hf hl t h hne
  unfold FTree.splitOverlaps
  rw [if_neg hne, if_neg (by omega)]
  have hk : t.keys.length = t.bounds.length := by
    unfold FTree.keys
    rw [sortByKey_perm _ _ |>.length_eq]
    simp [dkeys]
  cases hks : t.keys with
  | nil => rw [hks] at hk; simp at hk; omega
  | cons a l =>
    cases l with
    | nil => rw [hks] at hk; simp at hk; omega
    | cons b l =>
      simp only [hat, bind, Except.bind]

/-- Nothing to merge, and something to merge. -/
example : ((runTree 1000 [.add (⟨0, 1, 0⟩ : FIv Nat), .add ⟨2, 3, 0⟩]).bind (fun t =>
      t.mergeOverlaps 1000 [⟨0, 1, 0⟩, ⟨2, 3, 0⟩] false)).map (fun t => t.len) = .ok 2 ∧
    ((runTree 1000 [.add (⟨0, 1, 0⟩ : FIv Nat), .add ⟨1/2, 3, 0⟩]).bind (fun t =>
      t.mergeOverlaps 1000 [⟨0, 1, 0⟩, ⟨1/2, 3, 0⟩] false)).map (fun t => t.len) = .error .name ∧
    ((runTree 1000 [.add (⟨0, 1, 0⟩ : FIv Nat), .add ⟨1/2, 3, 0⟩]).bind (fun t =>
      t.splitOverlaps)).map (fun t => t.len) = .error .attribute := by decide +kernel

end NGC
