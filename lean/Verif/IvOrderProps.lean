import Verif.IvOrder
import Mathlib.Tactic.Tauto
import Mathlib.Tactic.Linarith

/-!
C185: the order of intervals with arbitrary data.
-/

namespace NGC

namespace Spec

/-- Two frozensets of which neither contains the other. -/
def Crossing : IvData → IvData → Prop
  | .fset s, .fset t => ¬ s ⊆ t ∧ ¬ t ⊆ s
  | _, _ => False

/-- Two different objects of the same class without an order. -/
def Indistinct : IvData → IvData → Prop
  | .obj c i, .obj d j => c = d ∧ i ≠ j
  | _, _ => False

/-- Equal in Python: the same value, numbers by their value (`True == 1 == 1.0`). -/
def SameData (x y : IvData) : Prop :=
  x = y ∨ ∃ q, x.num = some q ∧ y.num = some q

/-- Data that sort well: `None`, numbers, strings, and objects of classes with a name that is neither of these three nor between `bool` and `int` in the dictionary. -/
def TameData : IvData → Prop
  | .fset _ => False
  | .obj c _ => c ≠ "NoneType" ∧ c ≠ "str" ∧ (c < "bool" ∨ "int" < c)
  | _ => True

/-- Objects with a class name different from those of the built-in types. -/
def OwnName : IvData → Prop
  | .obj c _ => c ∉ ["NoneType", "bool", "int", "float", "str", "frozenset"]
  | _ => True

end Spec

theorem IvData.eq_iff (x y : IvData) : x.eq y = true ↔ Spec.SameData x y := by
  unfold IvData.eq Spec.SameData
  cases hx : x.num with
  | none =>
    have : ∀ q, x.num ≠ some q := by intro q; rw [hx]; simp
    simp
  | some p =>
    cases hy : y.num with
    | none =>
      simp
    | some q =>
      simp only [decide_eq_true_eq, Option.some.injEq, exists_eq_left']
      constructor
      · rintro rfl; exact Or.inr rfl
      · rintro (rfl | h)
        · rw [hx] at hy; exact Option.some.inj hy
        · exact h.symm

theorem sameData_symm {x y : IvData} (h : Spec.SameData x y) : Spec.SameData y x := by
  rcases h with rfl | ⟨q, h1, h2⟩
  · exact Or.inl rfl
  · exact Or.inr ⟨q, h2, h1⟩

theorem IvData.eq_comm' (x y : IvData) : x.eq y = y.eq x := by
  rw [Bool.eq_iff_iff, IvData.eq_iff, IvData.eq_iff]
  exact ⟨sameData_symm, sameData_symm⟩

theorem str_neg (s t : String) : (if s = t then (0 : Int) else if s < t then -1 else 1) = -(if t = s then (0 : Int) else if t < s then -1 else 1) := by
  rcases lt_trichotomy s t with h | h | h
  · rw [if_neg h.ne, if_pos h, if_neg h.ne', if_neg (asymm h)]
  · simp [h]
  · rw [if_neg h.ne', if_neg (asymm h), if_neg h.ne, if_pos h]; rfl

theorem IvData.cmp_num (x y : IvData) (p q : ℚ) (hx : x.num = some p) (hy : y.num = some q) :
    x.cmp y = if p = q then 0 else if p < q then -1 else 1 := by
  have he : x.eq y = decide (p = q) := by unfold IvData.eq; rw [hx, hy]
  have hl : x.lt? y = some (decide (p < q)) := by unfold IvData.lt?; rw [hx, hy]
  unfold IvData.cmp
  rw [he, hl]
  by_cases h : p = q <;> simp [h]

/-- The comparison of data that are not both numbers and not equal. -/
def cmpRest (x y : IvData) : Int :=
  match x, y with
  | .str s, .str t => if s < t then -1 else 1
  | .fset s, .fset t => if s ⊂ t then -1 else 1
  | _, _ => if x.typeName = y.typeName then 0 else if x.typeName < y.typeName then -1 else 1

theorem IvData.cmp_other (x y : IvData) (h : x.num = Option.none ∨ y.num = Option.none) :
    x.cmp y = if x = y then 0 else cmpRest x y := by
  have he : x.eq y = decide (x = y) := by
    unfold IvData.eq
    rcases h with h | h
    · rw [h]
    · rw [h]; cases x.num <;> rfl
  unfold IvData.cmp
  rw [he]
  by_cases hxy : x = y
  · simp [hxy]
  · simp only [hxy, decide_false, Bool.false_eq_true, if_false]
    unfold IvData.lt? cmpRest
    rcases h with h | h
    · rw [h]
      cases x <;> cases y <;> simp_all [IvData.num]
    · rw [h]
      cases x <;> cases y <;> simp_all [IvData.num]

theorem IvData.cmp_neg (x y : IvData) (h : ¬ Spec.Crossing x y) : x.cmp y = - y.cmp x := by
  rcases hx : x.num with _ | p
  · rw [IvData.cmp_other x y (Or.inl hx), IvData.cmp_other y x (Or.inr hx)]
    by_cases hxy : x = y
    · simp [hxy]
    · rw [if_neg hxy, if_neg (Ne.symm hxy)]
      cases x <;> cases y <;>
        first
        | (simp only [cmpRest]; exact str_neg _ _)
        | (exfalso; simp [IvData.num] at hx; done)
        | (exact absurd rfl hxy)
        | skip
      · rename_i s t
        have hst : s ≠ t := fun e => hxy (by rw [e])
        have := str_neg s t
        rw [if_neg hst, if_neg hst.symm] at this
        exact this
      · rename_i s t
        have hst : s ≠ t := fun e => hxy (by rw [e])
        show (if s ⊂ t then (-1 : Int) else 1) = -(if t ⊂ s then (-1 : Int) else 1)
        by_cases h1 : s ⊆ t
        · have h2 : s ⊂ t := Finset.ssubset_iff_subset_ne.2 ⟨h1, hst⟩
          rw [if_pos h2, if_neg (fun h3 => h2.2 h3.1)]
        · have h2 : t ⊆ s := by
            by_contra h2
            exact h ⟨h1, h2⟩
          have h3 : t ⊂ s := Finset.ssubset_iff_subset_ne.2 ⟨h2, hst.symm⟩
          rw [if_neg (fun h4 => h1 h4.1), if_pos h3]; rfl
  · rcases hy : y.num with _ | q
    · rw [IvData.cmp_other x y (Or.inr hy), IvData.cmp_other y x (Or.inl hy)]
      by_cases hxy : x = y
      · simp [hxy]
      · rw [if_neg hxy, if_neg (Ne.symm hxy)]
        cases x <;> cases y <;>
          first
          | (simp only [cmpRest]; exact str_neg _ _)
          | (exfalso; simp [IvData.num] at hx; done)
    · rw [IvData.cmp_num x y p q hx hy, IvData.cmp_num y x q p hy hx]
      rcases lt_trichotomy p q with h | h | h
      · rw [if_neg h.ne, if_pos h, if_neg h.ne', if_neg (asymm h)]
      · simp [h]
      · rw [if_neg h.ne', if_neg (asymm h), if_neg h.ne, if_pos h]; rfl

/-- **C185, turning the comparison round.** `a < c` exactly if `c > a`, and never both `a < c` and `c < a`, unless both have the same ends and carry frozensets of which neither contains the other: then each
is greater than the other. -/
theorem C185_reversed (a c : FIv IvData) :
    (¬ (a.b = c.b ∧ a.e = c.e ∧ Spec.Crossing a.data c.data) → ivLt a c = ivGt c a ∧ ¬ (ivLt a c = true ∧ ivLt c a = true)) ∧
    (a.b = c.b → a.e = c.e → Spec.Crossing a.data c.data → ivGt a c = true ∧ ivGt c a = true ∧ ivLt a c = false ∧ ivLt c a = false) := by
  constructor
  · intro h
    have hc : ivCmp a c = - ivCmp c a := by
      unfold ivCmp
      by_cases h1 : a.b = c.b ∧ a.e = c.e
      · rw [if_pos h1, if_pos ⟨h1.1.symm, h1.2.symm⟩]
        exact IvData.cmp_neg _ _ (fun hx => h ⟨h1.1, h1.2, hx⟩)
      · rcases lt_trichotomy a.b c.b with hb | hb | hb
        · simp [hb.ne, hb.ne', hb, asymm hb]
        · have he' : a.e ≠ c.e := fun e => h1 ⟨hb, e⟩
          rcases lt_or_gt_of_ne he' with he | he
          · simp [hb, he.ne, he.ne', he, asymm he]
          · simp [hb, he.ne, he.ne', he, asymm he]
        · simp [hb.ne, hb.ne', hb, asymm hb]
    unfold ivLt ivGt
    refine ⟨?_, ?_⟩
    · rw [hc]; congr 1; rw [eq_iff_iff]; constructor <;> intro _ <;> omega
    · rw [decide_eq_true_eq, decide_eq_true_eq]; omega
  · intro h1 h2 hx
    have key : ∀ x y : IvData, Spec.Crossing x y → x.cmp y = 1 := by
      intro x y h
      cases x <;> cases y <;> try (exfalso; exact h)
      rename_i s t
      rw [IvData.cmp_other _ _ (Or.inl rfl), if_neg (fun e => h.1 (by rw [IvData.fset.inj e]))]
      show (if s ⊂ t then (-1 : Int) else 1) = 1
      rw [if_neg (fun h4 => h.1 h4.1)]
    have hx' : Spec.Crossing c.data a.data := by
      revert hx
      cases a.data <;> cases c.data <;> first | exact id | exact And.symm
    have e1 : ivCmp a c = 1 := by unfold ivCmp; rw [if_pos ⟨h1, h2⟩]; exact key _ _ hx
    have e2 : ivCmp c a = 1 := by unfold ivCmp; rw [if_pos ⟨h1.symm, h2.symm⟩]; exact key _ _ hx'
    unfold ivLt ivGt
    rw [e1, e2]
    decide

theorem name3 (s t : String) : (if s = t then (0 : Int) else if s < t then -1 else 1) = 0 ↔ s = t := by
  by_cases h1 : s = t
  · simp [h1]
  · rw [if_neg h1]
    by_cases h2 : s < t <;> simp [h1, h2]

theorem cmpRest_zero (x y : IvData) (hxy : x ≠ y) (h : x.num = Option.none ∨ y.num = Option.none) (hx : Spec.OwnName x) (hy : Spec.OwnName y) :
    cmpRest x y = 0 ↔ Spec.Indistinct x y := by
  cases x <;> cases y <;>
    first
    | (exfalso; simp [IvData.num] at h; done)
    | (simp only [cmpRest]; rw [name3]; simp only [IvData.typeName, Spec.Indistinct, iff_false]; decide +kernel)
    | (exact absurd rfl hxy)
    | (simp only [cmpRest]; rw [name3]; simp only [IvData.typeName, Spec.Indistinct, iff_false]; rintro rfl; revert hx hy; simp [Spec.OwnName]; done)
    | (simp only [cmpRest, Spec.Indistinct, iff_false]; split <;> decide)
    | (simp only [cmpRest]; rw [name3]; simp only [IvData.typeName, Spec.Indistinct]
       refine ⟨fun e => ⟨e, fun e2 => hxy (by rw [e, e2])⟩, fun e => e.1⟩)

/-- **C185, neither before nor after.** For intervals whose objects have class names of their own: neither `a < c` nor `a > c` exactly if they have the same ends and equal data (`a == c`), or carry two
different objects of one class without an order. -/
theorem C185_ties (a c : FIv IvData) (ha : Spec.OwnName a.data) (hc : Spec.OwnName c.data) :
    (ivEq a c = true ↔ a.b = c.b ∧ a.e = c.e ∧ Spec.SameData a.data c.data) ∧
    (ivLt a c = false ∧ ivGt a c = false ↔ ivEq a c = true ∨ a.b = c.b ∧ a.e = c.e ∧ Spec.Indistinct a.data c.data) := by
  have he : ivEq a c = true ↔ a.b = c.b ∧ a.e = c.e ∧ Spec.SameData a.data c.data := by
    unfold ivEq
    rw [Bool.and_eq_true, Bool.and_eq_true, IvData.eq_iff, decide_eq_true_eq, decide_eq_true_eq, and_assoc]
  refine ⟨he, ?_⟩
  have hz : ivLt a c = false ∧ ivGt a c = false ↔ ivCmp a c = 0 := by
    unfold ivLt ivGt
    rw [decide_eq_false_iff_not, decide_eq_false_iff_not]; omega
  rw [hz, he]
  unfold ivCmp
  by_cases h1 : a.b = c.b ∧ a.e = c.e
  · rw [if_pos h1]
    simp only [h1.1, h1.2, true_and]
    generalize a.data = x at *
    generalize c.data = y at *
    rcases hx : x.num with _ | p
    · have hs : Spec.SameData x y ↔ x = y := by
        unfold Spec.SameData; rw [hx]; simp
      rw [IvData.cmp_other x y (Or.inl hx), hs]
      by_cases hxy : x = y
      · simp [hxy]
      · rw [if_neg hxy]
        rw [cmpRest_zero x y hxy (Or.inl hx) ha hc]; simp [hxy]
    · rcases hy : y.num with _ | q
      · have hs : Spec.SameData x y ↔ x = y := by
          unfold Spec.SameData; rw [hy]; simp
        rw [IvData.cmp_other x y (Or.inr hy), hs]
        by_cases hxy : x = y
        · simp [hxy]
        · rw [if_neg hxy]
          rw [cmpRest_zero x y hxy (Or.inr hy) ha hc]; simp [hxy]
      · rw [IvData.cmp_num x y p q hx hy]
        have hs : Spec.SameData x y ↔ p = q := by
          unfold Spec.SameData
          rw [hx, hy]
          simp only [Option.some.injEq, exists_eq_left']
          constructor
          · rintro (rfl | h)
            · rw [hx] at hy; exact Option.some.inj hy
            · exact h.symm
          · intro h; exact Or.inr h.symm
        have hi : ¬ Spec.Indistinct x y := by
          cases x <;> cases y <;> simp_all [Spec.Indistinct, IvData.num]
        rw [hs]
        by_cases hpq : p = q
        · simp [hpq]
        · rw [if_neg hpq]
          simp only [hpq, hi, or_self, iff_false]
          split <;> decide
  · rw [if_neg h1]
    constructor
    · intro h; split at h <;> simp at h
    · rintro (h | h)
      · exact absurd ⟨h.1, h.2.1⟩ h1
      · exact absurd ⟨h.1, h.2.1⟩ h1

/-- The class of the data in the order: all numbers together. -/
def sortName : IvData → String
  | .bool _ => "int"
  | .int _ => "int"
  | .float _ => "int"
  | x => x.typeName

/-- The order inside a class. -/
def sortWithin (x y : IvData) : Prop :=
  (∃ p q, x.num = some p ∧ y.num = some q ∧ p < q) ∨ ∃ s t, x = .str s ∧ y = .str t ∧ s < t

theorem IvData.num_cases (x : IvData) (p : ℚ) (h : x.num = some p) : sortName x = "int" ∧ x.typeName ∈ ["bool", "int", "float"] := by
  cases x <;> simp_all [IvData.num, sortName, IvData.typeName]

theorem tame_int (x : IvData) (h : Spec.TameData x) : sortName x = "int" ↔ ∃ p, x.num = some p := by
  cases x with
  | obj c i =>
    simp only [sortName, IvData.num, IvData.typeName]
    simp only [Spec.TameData] at h
    constructor
    · rintro rfl
      rcases h.2.2 with h | h
      · exact absurd h (by decide +kernel)
      · exact absurd h (by decide +kernel)
    · rintro ⟨p, hp⟩; simp at hp
  | fset s => exact absurd h (by simp [Spec.TameData])
  | _ => simp [sortName, IvData.num, IvData.typeName]

theorem tame_str (x : IvData) (h : Spec.TameData x) : sortName x = "str" ↔ ∃ s, x = .str s := by
  cases x with
  | obj c i =>
    simp only [sortName, IvData.typeName]
    simp only [Spec.TameData] at h
    constructor
    · intro e; exact absurd e h.2.1
    · rintro ⟨s, hs⟩; simp at hs
  | fset s => exact absurd h (by simp [Spec.TameData])
  | _ => simp [sortName, IvData.typeName]

theorem tame_names (x y : IvData) (hx : Spec.TameData x) (p : ℚ) (hxn : x.num = Option.none) (hy : y.num = some p) :
    (x.typeName < y.typeName ↔ x.typeName < "int") ∧ (y.typeName < x.typeName ↔ "int" < x.typeName) ∧ x.typeName ≠ y.typeName ∧ x.typeName ≠ "int" := by
  have h1 : ("bool" : String) < "float" := by decide +kernel
  have h2 : ("float" : String) < "int" := by decide +kernel
  have ho : x.typeName < "bool" ∨ "int" < x.typeName := by
    cases x with
    | none => left; show ("NoneType" : String) < "bool"; decide +kernel
    | str s => right; show ("int" : String) < "str"; decide +kernel
    | obj c i => exact hx.2.2
    | fset s => exact absurd hx (by simp [Spec.TameData])
    | _ => simp [IvData.num] at hxn
  have hyn := (IvData.num_cases y p hy).2
  have hle : "bool" ≤ y.typeName ∧ y.typeName ≤ "int" := by
    simp only [List.mem_cons, List.not_mem_nil, or_false] at hyn
    rcases hyn with h | h | h <;> rw [h]
    · exact ⟨le_refl _, (h1.trans h2).le⟩
    · exact ⟨(h1.trans h2).le, le_refl _⟩
    · exact ⟨h1.le, h2.le⟩
  rcases ho with ho | ho
  · have hy' : x.typeName < y.typeName := lt_of_lt_of_le ho hle.1
    have hi : x.typeName < "int" := lt_of_lt_of_le hy' hle.2
    exact ⟨iff_of_true hy' hi, iff_of_false (asymm hy') (asymm hi), hy'.ne, hi.ne⟩
  · have hy' : y.typeName < x.typeName := lt_of_le_of_lt hle.2 ho
    exact ⟨iff_of_false (asymm hy') (asymm ho), iff_of_true hy' ho, hy'.ne', ho.ne'⟩

theorem IvData.cmp_lt_iff (x y : IvData) (hx : Spec.TameData x) (hy : Spec.TameData y) :
    x.cmp y < 0 ↔ sortName x < sortName y ∨ sortName x = sortName y ∧ sortWithin x y := by
  have nn : ∀ z : IvData, z.num = Option.none → sortName z = z.typeName := by
    intro z hz; cases z <;> simp_all [IvData.num, sortName]
  have lt3 : ∀ s t : String, ((if s = t then (0 : Int) else if s < t then -1 else 1) < 0) ↔ s < t := by
    intro s t
    by_cases h1 : s = t
    · simp [h1]
    · by_cases h2 : s < t <;> simp [h1, h2]
  rcases hxn : x.num with _ | p
  · rcases hyn : y.num with _ | q
    · rw [IvData.cmp_other x y (Or.inl hxn), nn x hxn, nn y hyn]
      by_cases hxy : x = y
      · subst hxy
        rw [if_pos rfl]
        simp only [lt_irrefl, false_or, true_and, false_iff]
        rintro (⟨p, q, h, _⟩ | ⟨s, t, rfl, h, hlt⟩)
        · rw [hxn] at h; simp at h
        · rw [IvData.str.inj h] at hlt; exact lt_irrefl _ hlt
      · rw [if_neg hxy]
        have wn : sortWithin x y ↔ ∃ s t, x = .str s ∧ y = .str t ∧ s < t := by
          unfold sortWithin; rw [hxn]; simp
        rw [wn]
        cases x <;> cases y <;>
          first
          | (exfalso; simp [Spec.TameData] at hx; done)
          | (exfalso; simp [Spec.TameData] at hy; done)
          | (exfalso; simp [IvData.num] at hxn; done)
          | (exfalso; simp [IvData.num] at hyn; done)
          | (unfold cmpRest; rw [lt3]; simp)
          | skip
        rename_i s t
        simp only [cmpRest, IvData.typeName, lt_irrefl, false_or, true_and, IvData.str.injEq, exists_and_left, exists_eq_left']
        by_cases h : s < t <;> simp [h]
    · obtain ⟨n1, n2, n3, n4⟩ := tame_names x y hx q hxn hyn
      rw [IvData.cmp_other x y (Or.inl hxn), if_neg (fun e => by rw [e, hyn] at hxn; simp at hxn), nn x hxn, (IvData.num_cases y q hyn).1]
      have : ¬ sortWithin x y := by
        rintro (⟨p, q, h, _⟩ | ⟨s, t, _, rfl, _⟩)
        · rw [hxn] at h; simp at h
        · simp [IvData.num] at hyn
      simp only [this, and_false, or_false]
      rw [← n1]
      cases x <;> cases y <;>
        first
        | (exfalso; simp [Spec.TameData] at hx; done)
        | (exfalso; simp [IvData.num] at hxn; done)
        | (exfalso; simp [IvData.num] at hyn; done)
        | (simp only [cmpRest]; exact lt3 _ _)
  · rcases hyn : y.num with _ | q
    · obtain ⟨n1, n2, n3, n4⟩ := tame_names y x hy p hyn hxn
      rw [IvData.cmp_other x y (Or.inr hyn), if_neg (fun e => by rw [← e, hxn] at hyn; simp at hyn), nn y hyn, (IvData.num_cases x p hxn).1]
      have : ¬ sortWithin x y := by
        rintro (⟨p, q, _, h, _⟩ | ⟨s, t, rfl, _, _⟩)
        · rw [hyn] at h; simp at h
        · simp [IvData.num] at hxn
      simp only [this, and_false, or_false]
      rw [← n2]
      cases x <;> cases y <;>
        first
        | (exfalso; simp [Spec.TameData] at hy; done)
        | (exfalso; simp [IvData.num] at hxn; done)
        | (exfalso; simp [IvData.num] at hyn; done)
        | (simp only [cmpRest]; exact lt3 _ _)
    · rw [IvData.cmp_num x y p q hxn hyn, (IvData.num_cases x p hxn).1, (IvData.num_cases y q hyn).1]
      have : sortWithin x y ↔ p < q := by
        unfold sortWithin
        rw [hxn, hyn]
        constructor
        · rintro (⟨p', q', h1, h2, h⟩ | ⟨s, t, rfl, _, _⟩)
          · rw [Option.some.inj h1, Option.some.inj h2]; exact h
          · simp [IvData.num] at hxn
        · intro h; exact Or.inl ⟨p, q, rfl, rfl, h⟩
      rw [this]
      simp only [lt_irrefl, false_or, true_and]
      by_cases h1 : p = q
      · simp [h1]
      · by_cases h2 : p < q <;> simp [h1, h2]

/-- **C185, data that sort well.** Among intervals that carry `None`, numbers, strings or objects of classes with a name outside `bool` … `int`, `<` is a strict order: no interval is before itself, and
before is transitive; by begin, then by end, then by the data. -/
theorem C185_order (a c d : FIv IvData) (ha : Spec.TameData a.data) (hc : Spec.TameData c.data) (hd : Spec.TameData d.data) :
    ivLt a a = false ∧ (ivLt a c = true → ivLt c d = true → ivLt a d = true) ∧
    (a.b < c.b ∨ a.b = c.b ∧ a.e < c.e → ivLt a c = true ∧ ivLt c a = false) := by
  have hlt : ∀ x y : FIv IvData, ivLt x y = true ↔ x.b < y.b ∨ x.b = y.b ∧ (x.e < y.e ∨ x.e = y.e ∧ x.data.cmp y.data < 0) := by
    intro x y
    unfold ivLt ivCmp
    rw [decide_eq_true_eq]
    by_cases h : x.b = y.b ∧ x.e = y.e
    · rw [if_pos h]; simp [h.1, h.2]
    · rw [if_neg h]
      by_cases h2 : x.b < y.b ∨ x.b = y.b ∧ x.e < y.e
      · rw [if_pos h2]; simp only [Int.reduceNeg, Int.reduceLT, true_iff]; tauto
      · rw [if_neg h2]
        simp only [Int.reduceLT, false_iff]; tauto
  have wt : ∀ x y z : IvData, sortWithin x y → sortWithin y z → sortWithin x z := by
    rintro x y z (⟨p, q, h1, h2, h3⟩ | ⟨s, t, h1, h2, h3⟩) (⟨q', r, h4, h5, h6⟩ | ⟨t', u, h4, h5, h6⟩)
    · rw [h2] at h4; cases h4; exact Or.inl ⟨p, r, h1, h5, h3.trans h6⟩
    · rw [h4] at h2; simp [IvData.num] at h2
    · rw [h2] at h4; simp [IvData.num] at h4
    · rw [h2] at h4; cases h4; exact Or.inr ⟨s, u, h1, h5, h3.trans h6⟩
  have dt : a.data.cmp c.data < 0 → c.data.cmp d.data < 0 → a.data.cmp d.data < 0 := by
    rw [IvData.cmp_lt_iff _ _ ha hc, IvData.cmp_lt_iff _ _ hc hd, IvData.cmp_lt_iff _ _ ha hd]
    rintro (h1 | ⟨h1, h2⟩) (h3 | ⟨h3, h4⟩)
    · exact Or.inl (h1.trans h3)
    · exact Or.inl (h3 ▸ h1)
    · exact Or.inl (h1 ▸ h3)
    · exact Or.inr ⟨h1.trans h3, wt _ _ _ h2 h4⟩
  refine ⟨?_, ?_, ?_⟩
  · rw [← Bool.not_eq_true, hlt]
    have : a.data.cmp a.data = 0 := by
      unfold IvData.cmp
      rw [if_pos ((IvData.eq_iff _ _).2 (Or.inl rfl))]
    simp [this]
  · rw [hlt, hlt, hlt]
    rintro (h1 | ⟨h1, h2 | ⟨h2, h3⟩⟩) (h4 | ⟨h4, h5 | ⟨h5, h6⟩⟩)
    · exact Or.inl (h1.trans h4)
    · exact Or.inl (h4 ▸ h1)
    · exact Or.inl (h4 ▸ h1)
    · exact Or.inl (h1 ▸ h4)
    · exact Or.inr ⟨h1.trans h4, Or.inl (h2.trans h5)⟩
    · exact Or.inr ⟨h1.trans h4, Or.inl (h5 ▸ h2)⟩
    · exact Or.inl (h1 ▸ h4)
    · exact Or.inr ⟨h1.trans h4, Or.inl (h2 ▸ h5)⟩
    · exact Or.inr ⟨h1.trans h4, Or.inr ⟨h2.trans h5, dt h3 h6⟩⟩
  · intro h
    refine ⟨(hlt _ _).2 (by tauto), ?_⟩
    rw [← Bool.not_eq_true, hlt]
    rintro (h2 | ⟨h2, h3 | ⟨h3, _⟩⟩)
    · rcases h with h | h
      · exact absurd h (asymm h2)
      · exact h2.ne h.1.symm
    · rcases h with h | h
      · exact h.ne h2.symm
      · exact absurd h.2 (asymm h3)
    · rcases h with h | h
      · exact h.ne h2.symm
      · exact h.2.ne h3.symm

/-- The value of a number: `False` is 0, `True` is 1. -/
inductive Spec.NumVal : IvData → ℚ → Prop
  | false : Spec.NumVal (.bool false) 0
  | true : Spec.NumVal (.bool true) 1
  | int (z : Int) : Spec.NumVal (.int z) z
  | float (q : ℚ) : Spec.NumVal (.float q) q

/-- **C185, equal ends.** Between intervals with the same ends the data decide: numbers by their value, strings by their text, frozensets by inclusion; a number, string, frozenset and `None` by the names of
their classes, `NoneType` first, then `bool`, `float`, `frozenset`, `int`, `str`. -/
theorem C185_data (b e : ℚ) (x y : IvData) :
    (∀ v w, Spec.NumVal x v → Spec.NumVal y w → (ivLt ⟨b, e, x⟩ ⟨b, e, y⟩ = true ↔ v < w) ∧ (ivEq ⟨b, e, x⟩ ⟨b, e, y⟩ = true ↔ v = w)) ∧
    (∀ s t : String, ivLt ⟨b, e, .str s⟩ ⟨b, e, .str t⟩ = true ↔ s < t) ∧
    (∀ s t : Finset Nat, ivLt ⟨b, e, .fset s⟩ ⟨b, e, .fset t⟩ = true ↔ s ⊂ t) ∧
    (∀ (q : ℚ) (z : Int) (u : Bool) (s : String) (t : Finset Nat),
      [IvData.none, .bool u, .fset t].Pairwise (fun p r => ivLt ⟨b, e, p⟩ ⟨b, e, r⟩ = true) ∧
      [IvData.none, .float q, .fset t, .str s].Pairwise (fun p r => ivLt ⟨b, e, p⟩ ⟨b, e, r⟩ = true) ∧
      [IvData.none, .int z, .str s].Pairwise (fun p r => ivLt ⟨b, e, p⟩ ⟨b, e, r⟩ = true) ∧
      ivLt ⟨b, e, .fset t⟩ ⟨b, e, .int z⟩ = true) := by
  have num : ∀ a v, Spec.NumVal a v → a.num = some v := by
    intro a v h
    cases h <;> simp [IvData.num]
  have base : ∀ p r : IvData, ivLt (⟨b, e, p⟩ : FIv IvData) ⟨b, e, r⟩ = decide (p.cmp r < 0) := by
    intro p r; simp [ivLt, ivCmp]
  refine ⟨?_, ?_, ?_, ?_⟩
  · intro v w hv hw
    constructor
    · rw [base]
      simp only [IvData.cmp, IvData.eq, IvData.lt?, num _ _ hv, num _ _ hw]
      rcases lt_trichotomy v w with h | h | h
      · simp [h, h.ne]
      · simp [h]
      · simp [h.not_gt, h.ne']
    · simp [ivEq, IvData.eq, num _ _ hv, num _ _ hw]
  · intro s t
    rw [base]
    simp only [IvData.cmp, IvData.eq, IvData.lt?, IvData.num]
    by_cases h : s = t
    · simp [h]
    · by_cases h2 : s < t <;> simp [h, h2]
  · intro s t
    rw [base]
    simp only [IvData.cmp, IvData.eq, IvData.lt?, IvData.num]
    by_cases h : s = t
    · simp [h]
    · by_cases h2 : s ⊂ t <;> simp [h, h2]
  · intro q z u s t
    have n1 : ("NoneType" : String) < "bool" := by decide +kernel
    have n2 : ("NoneType" : String) < "frozenset" := by decide +kernel
    have n3 : ("bool" : String) < "frozenset" := by decide +kernel
    have n4 : ("NoneType" : String) < "float" := by decide +kernel
    have n5 : ("NoneType" : String) < "str" := by decide +kernel
    have n6 : ("float" : String) < "frozenset" := by decide +kernel
    have n7 : ("float" : String) < "str" := by decide +kernel
    have n8 : ("frozenset" : String) < "str" := by decide +kernel
    have n9 : ("NoneType" : String) < "int" := by decide +kernel
    have n10 : ("int" : String) < "str" := by decide +kernel
    have n11 : ("frozenset" : String) < "int" := by decide +kernel
    have byName : ∀ p r : IvData, p.eq r = false → p.lt? r = Option.none → p.typeName < r.typeName → ivLt (⟨b, e, p⟩ : FIv IvData) ⟨b, e, r⟩ = true := by
      intro p r h1 h2 h3
      rw [base]
      have hne : p.typeName ≠ r.typeName := fun h => absurd h3 (by rw [h]; exact lt_irrefl _)
      simp only [IvData.cmp, h1, h2, if_neg hne, if_pos h3]
      decide
    refine ⟨?_, ?_, ?_, byName _ _ (by simp [IvData.eq, IvData.num]) rfl n11⟩
    · refine List.pairwise_cons.2 ⟨?_, List.pairwise_cons.2 ⟨?_, List.pairwise_singleton _ _⟩⟩ <;> simp only [List.mem_cons, List.not_mem_nil, or_false, forall_eq_or_imp, forall_eq]
      · exact ⟨byName _ _ (by simp [IvData.eq, IvData.num]) rfl n1, byName _ _ (by simp [IvData.eq, IvData.num]) rfl n2⟩
      · exact byName _ _ (by simp [IvData.eq, IvData.num]) rfl n3
    · refine List.pairwise_cons.2 ⟨?_, List.pairwise_cons.2 ⟨?_, List.pairwise_cons.2 ⟨?_, List.pairwise_singleton _ _⟩⟩⟩ <;> simp only [List.mem_cons, List.not_mem_nil, or_false, forall_eq_or_imp, forall_eq]
      · exact ⟨byName _ _ (by simp [IvData.eq, IvData.num]) rfl n4, byName _ _ (by simp [IvData.eq, IvData.num]) rfl n2, byName _ _ (by simp [IvData.eq, IvData.num]) rfl n5⟩
      · exact ⟨byName _ _ (by simp [IvData.eq, IvData.num]) rfl n6, byName _ _ (by simp [IvData.eq, IvData.num]) rfl n7⟩
      · exact byName _ _ (by simp [IvData.eq, IvData.num]) rfl n8
    · refine List.pairwise_cons.2 ⟨?_, List.pairwise_cons.2 ⟨?_, List.pairwise_singleton _ _⟩⟩ <;> simp only [List.mem_cons, List.not_mem_nil, or_false, forall_eq_or_imp, forall_eq]
      · exact ⟨byName _ _ (by simp [IvData.eq, IvData.num]) rfl n9, byName _ _ (by simp [IvData.eq, IvData.num]) rfl n5⟩
      · exact byName _ _ (by simp [IvData.eq, IvData.num]) rfl n10

/-- Two of the cases: `True < 2.0`, and a chord that is part of another. -/
example : ivLt (⟨0, 1, .bool true⟩ : FIv IvData) ⟨0, 1, .float 2⟩ = true ∧ ivLt (⟨0, 1, .fset {60}⟩ : FIv IvData) ⟨0, 1, .fset {60, 64}⟩ = true :=
  ⟨(((C185_data 0 1 (.bool true) (.float 2)).1 1 2 .true (.float 2)).1).2 (by norm_num), ((C185_data 0 1 .none .none).2.2.1 _ _).2 (by decide)⟩

/-- **C185, a circle (defect).** Integers, floats and a chord: `1 < 2.0`, `2.0 < {60}` and `{60} < 1`, as `float`, `frozenset`, `int` is the order of the names; and two chords are each greater
than the other. -/
theorem C185_circle :
    let iv := fun x : IvData => (⟨0, 1, x⟩ : FIv IvData)
    ivLt (iv (.int 1)) (iv (.float 2)) = true ∧ ivLt (iv (.float 2)) (iv (.fset {60})) = true ∧ ivLt (iv (.fset {60})) (iv (.int 1)) = true ∧
    ivGt (iv (.fset {60})) (iv (.fset {64})) = true ∧ ivGt (iv (.fset {64})) (iv (.fset {60})) = true := by
  decide +kernel

/-- The hypotheses of `C185_order` are met: note names and velocities. -/
example : ivLt ⟨0, 1, .none⟩ ⟨0, 1, .int 64⟩ = true ∧ ivLt ⟨0, 1, .int 64⟩ ⟨0, 1, .str "C4"⟩ = true ∧ ivLt ⟨0, 1, .str "C4"⟩ ⟨0, 1, .obj "zebra" 0⟩ = true := by
  decide +kernel

example : Spec.TameData (.obj "MidiReader" 3) ∧ Spec.TameData (.str "C4") ∧ Spec.OwnName (.obj "MidiReader" 3) := by
  refine ⟨⟨by decide +kernel, by decide +kernel, Or.inl (by decide +kernel)⟩, trivial, by simp [Spec.OwnName]⟩

end NGC
