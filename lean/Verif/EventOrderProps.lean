import Verif.EventOrder
import Verif.EventsProps

/-! C163: the laws of comparison of control changes, controllers and pitch bends. -/

namespace NGC

namespace Spec

/-- Two times the program cannot tell apart: within a billionth of the larger. -/
def NearTimes (s t : ℚ) : Prop := |s - t| ≤ 1/1000000000 * max |s| |t|

/-- The controllers whose entry is only a place holder. -/
def PlaceHolder (n : Int) : Prop :=
  n = 3 ∨ n = 9 ∨ n = 14 ∨ n = 15 ∨ n = 18 ∨ n = 85 ∨ n = 86 ∨ n = 87 ∨ (102 ≤ n ∧ n ≤ 119)

end Spec

theorem ccNear_iff (s t : ℚ) : isclose s t (1/1000000000) 0 = true ↔ Spec.NearTimes s t := by
  unfold isclose Spec.NearTimes
  simp only [decide_eq_true_eq]
  constructor
  · intro h
    refine h.trans (max_le (le_refl _) ?_)
    have : (0:ℚ) ≤ max |s| |t| := le_max_of_le_left (abs_nonneg _)
    positivity
  · intro h; exact h.trans (le_max_left _ _)

theorem ccNear_comm (s t : ℚ) : Spec.NearTimes s t ↔ Spec.NearTimes t s := by
  unfold Spec.NearTimes
  rw [abs_sub_comm, max_comm]

/-- **C163, equality of control changes.** `==` holds exactly if number, value, time, program, instrument, drum
mark and the three quantization fields agree (the insertion count and the quantized mark are not looked at), so it
is reflexive, symmetric and transitive, and `!=` is its negation. -/
theorem C163_cc_equality (a b c : CC) :
    (a.eq b = true ↔ a.number = b.number ∧ a.value = b.value ∧ a.time = b.time ∧ a.program = b.program ∧
      a.instrument = b.instrument ∧ a.isDrum = b.isDrum ∧ a.qstep = b.qstep ∧ a.qs = b.qs ∧ a.qe = b.qe) ∧
    a.eq a = true ∧ a.eq b = b.eq a ∧ (a.eq b = true → b.eq c = true → a.eq c = true) ∧
    a.ne b = !(a.eq b) := by
  have key : ∀ a b : CC, (a.eq b = true ↔ a.number = b.number ∧ a.value = b.value ∧ a.time = b.time ∧
      a.program = b.program ∧ a.instrument = b.instrument ∧ a.isDrum = b.isDrum ∧ a.qstep = b.qstep ∧
      a.qs = b.qs ∧ a.qe = b.qe) := by
    intro a b
    simp only [CC.eq, Bool.and_eq_true, beq_iff_eq]
    tauto
  refine ⟨key a b, (key a a).2 ⟨rfl, rfl, rfl, rfl, rfl, rfl, rfl, rfl, rfl⟩, ?_, ?_, rfl⟩
  · rw [Bool.eq_iff_iff, key, key]
    constructor <;> rintro ⟨h1, h2, h3, h4, h5, h6, h7, h8, h9⟩ <;> simp [*]
  · rw [key, key, key]
    rintro ⟨h1, h2, h3, h4, h5, h6, h7, h8, h9⟩ ⟨g1, g2, g3, g4, g5, g6, g7, g8, g9⟩
    simp [*]

/-- **C163, equality of new control changes.** Of two control changes as constructed, `==` decides whether they
are the same in every respect. -/
theorem C163_cc_equality_new (n v n' v' : Int) (t t' : ℚ) (p i p' i' : Int) (d d' : Bool) (q s e q' s' e' : Int) :
    (CC.mk' n v t p i d q s e).eq (CC.mk' n' v' t' p' i' d' q' s' e') = true ↔
      CC.mk' n v t p i d q s e = CC.mk' n' v' t' p' i' d' q' s' e' := by
  rw [(C163_cc_equality _ _ (CC.mk' 0 0)).1]
  simp only [CC.mk', CC.mk.injEq]
  constructor
  · rintro ⟨h1, h2, h3, h4, h5, h6, h7, h8, h9⟩
    exact ⟨h1, h2, h3, h4, h5, h6, h7, h8, h9, by rw [h8, h9], trivial⟩
  · rintro ⟨h1, h2, h3, h4, h5, h6, h7, h8, h9, -, -⟩
    exact ⟨h1, h2, h3, h4, h5, h6, h7, h8, h9⟩

theorem ccLt_iff (a b : CC) : a.lt b = true ↔
    (Spec.NearTimes a.time b.time ∧ a.seq < b.seq) ∨ (¬ Spec.NearTimes a.time b.time ∧ a.time < b.time) := by
  unfold CC.lt
  split_ifs with h
  · rw [ccNear_iff] at h; simp [h]
  · rw [ccNear_iff] at h; simp [h]

/-- **C163, order of control changes.** `a < b` means: the times cannot be told apart and a was inserted first,
or the times can be told apart and a is earlier. The order is irreflexive and asymmetric; two control changes of
different, distinguishable times are always ordered by time. -/
theorem C163_cc_order (a b : CC) :
    (a.lt b = true ↔
      (Spec.NearTimes a.time b.time ∧ a.seq < b.seq) ∨ (¬ Spec.NearTimes a.time b.time ∧ a.time < b.time)) ∧
    a.lt a = false ∧ (a.lt b = true → b.lt a = false) := by
  have asym : a.lt b = true → b.lt a = false := by
    intro h
    rw [← Bool.not_eq_true]
    rw [ccLt_iff] at h ⊢
    rw [ccNear_comm b.time]
    rintro (⟨h1, h2⟩ | ⟨h1, h2⟩) <;> rcases h with ⟨g1, g2⟩ | ⟨g1, g2⟩
    · omega
    · exact g1 h1
    · exact h1 g1
    · exact absurd h2 (not_lt.2 g2.le)
  refine ⟨ccLt_iff a b, ?_, asym⟩
  rw [← Bool.not_eq_true, ccLt_iff]
  rintro (⟨_, h⟩ | ⟨_, h⟩)
  · omega
  · exact absurd h (lt_irrefl _)

/-- **C163, sorting control changes.** If of any two times in the list either both are the same or they can be told
apart, sorting the list (with any sorting function that sorts by a strict weak order) puts it in order of time, and
control changes of one time in order of insertion. -/
theorem C163_cc_sorted (srt : List CC → List CC) (hs : IsPySort CC.lt srt) (l : List CC)
    (hl : ∀ a ∈ l, ∀ b ∈ l, a.time = b.time ∨ ¬ Spec.NearTimes a.time b.time) :
    (srt l).Perm l ∧
    (srt l).Pairwise (fun a b => a.time < b.time ∨ (a.time = b.time ∧ a.seq ≤ b.seq)) := by
  have near : ∀ a ∈ l, ∀ b ∈ l, (Spec.NearTimes a.time b.time ↔ a.time = b.time) := by
    intro a ha b hb
    constructor
    · intro h; rcases hl a ha b hb with h' | h'
      · exact h'
      · exact absurd h h'
    · intro h; rw [h]; rw [← ccNear_iff]; exact isclose_refl _ _ _ (le_refl _)
  have lt_iff : ∀ a ∈ l, ∀ b ∈ l, (a.lt b = true ↔ a.time < b.time ∨ (a.time = b.time ∧ a.seq < b.seq)) := by
    intro a ha b hb
    rw [ccLt_iff, near a ha b hb]
    constructor
    · rintro (⟨h1, h2⟩ | ⟨h1, h2⟩)
      · exact Or.inr ⟨h1, h2⟩
      · exact Or.inl h2
    · rintro (h | ⟨h1, h2⟩)
      · exact Or.inr ⟨ne_of_lt h, h⟩
      · exact Or.inl ⟨h1, h2⟩
  have hw : StrictWeakOn CC.lt l := by
    refine ⟨fun a _ b _ => (C163_cc_order a b).2.2, ?_⟩
    intro a ha b hb c hc
    rw [lt_iff a ha c hc, lt_iff a ha b hb, lt_iff b hb c hc]
    intro h
    rcases lt_trichotomy a.time b.time with h1 | h1 | h1
    · exact Or.inl (Or.inl h1)
    · rcases h with h | ⟨h, h'⟩
      · exact Or.inr (Or.inl (h1 ▸ h))
      · by_cases hq : a.seq < b.seq
        · exact Or.inl (Or.inr ⟨h1, hq⟩)
        · exact Or.inr (Or.inr ⟨h1 ▸ h, by omega⟩)
    · rcases h with h | ⟨h, h'⟩
      · exact Or.inr (Or.inl (h1.trans h))
      · exact Or.inr (Or.inl (h ▸ h1))
  refine ⟨hs.perm l, ?_⟩
  have hp := hs.sorted l hw
  unfold SortedLt at hp
  refine hp.imp_of_mem ?_
  intro a b ha hb h
  have ha' := (hs.perm l).mem_iff.1 ha
  have hb' := (hs.perm l).mem_iff.1 hb
  rw [← Bool.not_eq_true, lt_iff b hb' a ha'] at h
  rcases lt_trichotomy a.time b.time with h1 | h1 | h1
  · exact Or.inl h1
  · refine Or.inr ⟨h1, ?_⟩
    by_contra hc
    exact h (Or.inr ⟨h1.symm, by omega⟩)
  · exact absurd (Or.inl h1) h

/-- The hypothesis of `C163_cc_sorted` is met, and a sort exists: the stable merge sort. -/
example : ∀ a ∈ [CC.mk' 7 1 2, CC.mk' 7 2 1, CC.mk' 8 1 2], ∀ b ∈ [CC.mk' 7 1 2, CC.mk' 7 2 1, CC.mk' 8 1 2],
    a.time = b.time ∨ ¬ Spec.NearTimes a.time b.time := by
  unfold Spec.NearTimes; decide +kernel

/-- **C163, the order can run in a circle.** Three control changes at 1 s + 1.6 ns, 1 s + 0.8 ns and 1 s, numbered in
this order: the first is before the second, the second before the third and the third before the first, so no
order of the list is sorted. -/
theorem C163_cc_cycle : ∃ a b c : CC, a.lt b = true ∧ b.lt c = true ∧ c.lt a = true ∧ a.time > b.time ∧
    b.time > c.time ∧ ¬ StrictWeakOn CC.lt [a, b, c] ∧ ∀ l : List CC, l.Perm [a, b, c] → ¬ SortedLt CC.lt l := by
  have three : ∀ a b c : CC, (∀ x ∈ [a, b, c], ∀ y ∈ [a, b, c], ∀ z ∈ [a, b, c],
      [x, y, z].Perm [a, b, c] → ¬ SortedLt CC.lt [x, y, z]) →
      ∀ l : List CC, l.Perm [a, b, c] → ¬ SortedLt CC.lt l := by
    intro a b c h l hp
    have hlen := hp.length_eq
    match l, hlen with
    | [x, y, z], _ =>
      exact h x (hp.mem_iff.1 (by simp)) y (hp.mem_iff.1 (by simp)) z (hp.mem_iff.1 (by simp)) hp
  refine ⟨{ CC.mk' 7 1 (1 + 16/10000000000) with seq := 0 }, { CC.mk' 7 1 (1 + 8/10000000000) with seq := 1 },
    { CC.mk' 7 1 1 with seq := 2 }, ?_, ?_, ?_, ?_, ?_, ?_, three _ _ _ ?_⟩
  all_goals try unfold StrictWeakOn
  all_goals try unfold SortedLt
  all_goals decide +kernel

/-- **C163, new control changes are not cyclic but not sorted.** Without insertion numbers the order of two control
changes within a billionth of each other is undecided, and such pairs chain up: the times 1, 1 + 0.8 ns,
1 + 1.6 ns are undecided next to each other and decided at the ends, so undecidedness is not transitive. -/
theorem C163_cc_undecided : ∃ s t u : ℚ,
    let a := CC.mk' 7 1 s; let b := CC.mk' 7 1 t; let c := CC.mk' 7 1 u
    (a.lt b = false ∧ b.lt a = false) ∧ (b.lt c = false ∧ c.lt b = false) ∧ a.lt c = true := by
  refine ⟨1, 1 + 8/10000000000, 1 + 16/10000000000, ?_⟩
  decide +kernel

/-! ## Controllers and control changes -/

/-- **C163, equality of controllers.** For two objects of the base class `==` compares number and description,
`!=` only the number. Both are false exactly if the numbers agree and the descriptions do not; both are never
true. -/
theorem C163_base_equality (a b : BaseCC) :
    (a.eq b = true ↔ a.number = b.number ∧ a.description = b.description) ∧
    (a.ne b = true ↔ a.number ≠ b.number) ∧
    (a.eq b = false ∧ a.ne b = false ↔ a.number = b.number ∧ a.description ≠ b.description) ∧
    ¬ (a.eq b = true ∧ a.ne b = true) := by
  unfold BaseCC.eq BaseCC.ne
  simp only [Bool.and_eq_true, decide_eq_true_eq, Bool.and_eq_false_iff, decide_eq_false_iff_not, not_not]
  tauto

/-- **C163, comparisons across the two classes.** `==` and `!=` do not depend on the side: a control change equals
a base object exactly if the base object has its number and the description "Undefined n". A base object is less
than a control change by number; the other way round the comparison raises AttributeError. -/
theorem C163_mixed (b : BaseCC) (c : CC) :
    (CCObj.eq (.base b) (.change c) = true ↔
      b.number = c.number ∧ b.description = "Undefined " ++ toString c.number) ∧
    CCObj.eq (.change c) (.base b) = CCObj.eq (.base b) (.change c) ∧
    (CCObj.ne (.base b) (.change c) = true ↔ b.number ≠ c.number) ∧
    CCObj.ne (.change c) (.base b) = CCObj.ne (.base b) (.change c) ∧
    (CCObj.lt (.base b) (.change c) = .ok true ↔ b.number < c.number) ∧
    CCObj.lt (.change c) (.base b) = .error .attribute := by
  refine ⟨?_, rfl, ?_, rfl, ?_, rfl⟩
  · simp [CCObj.eq, BaseCC.eq, CC.base, BaseCC.mk']
  · simp [CCObj.ne, BaseCC.ne, CC.base, BaseCC.mk']
  · simp [CCObj.lt, BaseCC.lt, CC.base, BaseCC.mk']

/-- **C163, equality is not transitive across the classes.** A base object equals two control changes that are not
equal to each other. -/
theorem C163_mixed_not_transitive : ∃ (b : BaseCC) (c d : CC), CCObj.eq (.change c) (.base b) = true ∧
    CCObj.eq (.base b) (.change d) = true ∧ CCObj.eq (.change c) (.change d) = false :=
  ⟨BaseCC.mk' 3, CC.mk' 3 1, CC.mk' 3 2, by decide +kernel⟩

/-- **C163, descriptions.** The table has an entry exactly for the named controllers (C79), under its own number;
120..127 all have one and the same text with an unfilled place holder, 31..63 have "Controller n", the unnamed ones
"Undefined n". -/
theorem C163_entries (n : Int) :
    ((∃ b, ccEntry n = .ok b) ↔ ccNamed n = true) ∧ (ccEntry n = .error .key ↔ ccNamed n = false) ∧
    (∀ b, ccEntry n = .ok b → b.number = n ∧
      (120 ≤ n → b.description = "Channel Mode Messages {cc_num}") ∧
      (31 ≤ n ∧ n ≤ 63 → b.description = "Controller " ++ toString n) ∧
      (b.description = "Undefined " ++ toString n ↔ Spec.PlaceHolder n)) := by
  by_cases hr : 0 ≤ n ∧ n < 128
  · obtain ⟨k, rfl⟩ := Int.eq_ofNat_of_zero_le hr.1
    have hk : k < 128 := by omega
    clear hr
    have : ∀ k : Fin 128, ((∃ b, ccEntry (k.val : Int) = .ok b) ↔ ccNamed k.val = true) ∧
      (ccEntry k.val = .error .key ↔ ccNamed k.val = false) ∧
      (∀ b, ccEntry k.val = .ok b → b.number = k.val ∧
      (120 ≤ (k.val : Int) → b.description = "Channel Mode Messages {cc_num}") ∧
      (31 ≤ (k.val : Int) ∧ (k.val : Int) ≤ 63 → b.description = "Controller " ++ toString (k.val : Int)) ∧
      (b.description = "Undefined " ++ toString (k.val : Int) ↔ Spec.PlaceHolder k.val)) := by
      have conv : ∀ (x : Py BaseCC) (nm : Bool) (P : BaseCC → Bool) (Q : BaseCC → Prop), (∀ b, Q b ↔ P b = true) →
          (match x with | .ok b => nm && P b | .error .key => !nm | .error _ => false) = true →
          ((∃ b, x = .ok b) ↔ nm = true) ∧ (x = .error .key ↔ nm = false) ∧ (∀ b, x = .ok b → Q b) := by
        intro x nm P Q hq h
        match x, h with
        | .ok b, h =>
          simp only [Bool.and_eq_true] at h
          refine ⟨by simp [h.1], by simp [h.1], ?_⟩
          intro b' hb'; cases hb'; exact (hq b).2 h.2
        | .error .key, h =>
          simp only [Bool.not_eq_true'] at h
          refine ⟨by simp [h], by simp [h], ?_⟩
          intro b' hb'; cases hb'
      have dec : ∀ k : Fin 128, (match ccEntry (k.val : Int) with
          | .ok b => ccNamed k.val && (decide (b.number = k.val) &&
            (decide (120 ≤ (k.val : Int) → b.description = "Channel Mode Messages {cc_num}") &&
            (decide (31 ≤ (k.val : Int) ∧ (k.val : Int) ≤ 63 → b.description = "Controller " ++ toString (k.val : Int)) &&
             decide (b.description = "Undefined " ++ toString (k.val : Int) ↔
              ((k.val : Int) = 3 ∨ (k.val : Int) = 9 ∨ (k.val : Int) = 14 ∨ (k.val : Int) = 15 ∨ (k.val : Int) = 18 ∨
              (k.val : Int) = 85 ∨ (k.val : Int) = 86 ∨ (k.val : Int) = 87 ∨ (102 ≤ (k.val : Int) ∧ (k.val : Int) ≤ 119))))))
          | .error .key => !(ccNamed k.val) | .error _ => false) = true := by
        decide +kernel
      intro k
      refine conv _ _ _ _ ?_ (dec k)
      intro b
      simp only [Bool.and_eq_true, decide_eq_true_eq]
      rfl
    exact this ⟨k, hk⟩
  · have h1 : ccNamed n = false := by
      rw [← Bool.not_eq_true, C79_named_iff]; omega
    have h2 : ccEntry n = .error .key := by
      have hf : ccLiteral.find? (fun e => e.1 == n) = none := by
        rw [List.find?_eq_none]
        have : ∀ e ∈ ccLiteral, 0 ≤ e.1 ∧ e.1 < 128 := by decide +kernel
        intro e he h
        have := this e he
        simp only [beq_iff_eq] at h
        omega
      unfold ccEntry
      rw [if_neg (by omega), if_neg (by omega), if_neg (by omega), hf]
    rw [h1, h2]
    simp

/-- **C163, texts.** Below 120, different controllers have different descriptions; the sound controllers 70..79 are
numbered 1..10 and the effect depths 91..95 are numbered 1..5. -/
theorem C163_texts :
    (∀ (m n : Int) (a b : BaseCC), m < 120 → n < 120 → ccEntry m = .ok a → ccEntry n = .ok b →
      a.description = b.description → m = n) ∧
    (∀ i : Fin 10, ∃ b, ccEntry (70 + (i.val : Int)) = .ok b ∧
      b.description = "Sound Controller " ++ toString (i.val + 1)) ∧
    (∀ i : Fin 5, ∃ b, ccEntry (91 + (i.val : Int)) = .ok b ∧
      b.description = "Effect " ++ toString (i.val + 1) ++ " Depth") := by
  have conv : ∀ (x : Py BaseCC) (t : String),
      (match x with | .ok b => decide (b.description = t) | .error _ => false) = true →
      ∃ b, x = .ok b ∧ b.description = t := by
    intro x t h
    match x, h with
    | .ok b, h => exact ⟨b, rfl, of_decide_eq_true h⟩
  refine ⟨?_, ?_, ?_⟩
  · intro m n a b hm hn ha hb hab
    have named : ∀ (k : Int) (c : BaseCC), ccEntry k = .ok c → 0 ≤ k := by
      intro k c hc
      have h := (C163_entries k).1.1 ⟨c, hc⟩
      rw [C79_named_iff] at h
      exact h.1.1
    obtain ⟨i, rfl⟩ := Int.eq_ofNat_of_zero_le (named m a ha)
    obtain ⟨j, rfl⟩ := Int.eq_ofNat_of_zero_le (named n b hb)
    have hi : i < 120 := by omega
    have hj : j < 120 := by omega
    have text : ∀ (k : Nat) (c : BaseCC), ccEntry (k : Int) = .ok c →
        (match ccEntry (k : Int) with | .ok b => b.description | .error _ => "") = c.description := by
      intro k c hc; rw [hc]
    have pos : ∀ i j : Fin 120,
        (match ccEntry (i.val : Int) with | .ok b => b.description | .error _ => "") ≠ "" →
        (match ccEntry (i.val : Int) with | .ok b => b.description | .error _ => "") =
          (match ccEntry (j.val : Int) with | .ok b => b.description | .error _ => "") → i = j := by
      decide +kernel
    have ne : ∀ i : Fin 120, ccNamed (i.val : Int) = true →
        (match ccEntry (i.val : Int) with | .ok b => b.description | .error _ => "") ≠ "" := by decide +kernel
    have := pos ⟨i, hi⟩ ⟨j, hj⟩ (ne ⟨i, hi⟩ ((C163_entries i).1.1 ⟨a, ha⟩))
      (by show _ = _; rw [text i a ha, text j b hb, hab])
    have := congrArg Fin.val this
    simpa using this
  · intro i
    refine conv _ _ ?_
    revert i
    decide +kernel
  · intro i
    refine conv _ _ ?_
    revert i
    decide +kernel

/-- **C163, pedals and switches.** The six pedals 64..69 are described as in the MIDI standard. Marked as switches are the
pedals and the general purpose controllers 80..83, but of the pedals not the legato footswitch (68). -/
theorem C163_switches :
    (∀ i : Fin 6, ∃ b, ccEntry (64 + (i.val : Int)) = .ok b ∧ some b.description =
      ["Damper Pedal", "Portamento On/Off Switch", "Sostenuto On/Off Switch", "Soft Pedal On/Off Switch",
        "Legato FootSwitch", "Hold 2"][i.val]?) ∧
    (∀ n : Int, ccOnOff n = .ok true ↔ (64 ≤ n ∧ n ≤ 69 ∧ n ≠ 68) ∨ (80 ≤ n ∧ n ≤ 83)) ∧
    (∀ n : Int, ccOnOff n = .error .key ↔ ccEntry n = .error .key) := by
  refine ⟨?_, ?_, ?_⟩
  · have conv : ∀ (x : Py BaseCC) (t : Option String),
        (match x with | .ok b => decide (some b.description = t) | .error _ => false) = true →
        ∃ b, x = .ok b ∧ some b.description = t := by
      intro x t h
      match x, h with
      | .ok b, h => exact ⟨b, rfl, of_decide_eq_true h⟩
    intro i
    refine conv _ _ ?_
    revert i
    decide +kernel
  · intro n
    by_cases hn : ∃ b, ccEntry n = .ok b
    · obtain ⟨b, hb⟩ := hn
      have := ((C163_entries n).2.2 b hb).1
      unfold ccOnOff
      rw [hb]
      show (Except.ok ([64, 65, 66, 67, 69, 80, 81, 82, 83].contains b.number) : Py Bool) = .ok true ↔ _
      rw [this]
      simp only [Except.ok.injEq, List.contains_iff_mem, List.mem_cons, List.not_mem_nil, or_false]
      omega
    · have h0 := (C163_entries n).2.1
      have h1 := (C163_entries n).1
      have hf : ccNamed n = false := by
        rw [← Bool.not_eq_true, ← h1]; exact hn
      have := h0.2 hf
      unfold ccOnOff
      rw [this]
      constructor
      · intro h; cases h
      · intro h
        have : ccNamed n = true := by
          rw [C79_named_iff]; omega
        rw [hf] at this; cases this
  · intro n
    unfold ccOnOff
    cases ccEntry n with
    | error e => exact ⟨fun h => (by cases h; rfl), fun h => (by cases h; rfl)⟩
    | ok b => exact ⟨fun h => (by cases h), fun h => (by cases h)⟩

/-- **C163, a control change against its own table entry.** A control change is never `!=` the table entry of its
number, and `==` it only if the controller is unnamed: of a Volume change (controller 7) and the entry for 7,
both `==` and `!=` are false. -/
theorem C163_against_table (c : CC) (b : BaseCC) (hb : ccEntry c.number = .ok b) :
    CCObj.ne (.change c) (.base b) = false ∧ (CCObj.eq (.change c) (.base b) = true ↔ Spec.PlaceHolder c.number) := by
  obtain ⟨h1, -, -, h4⟩ := (C163_entries c.number).2.2 b hb
  obtain ⟨e1, e2, e3, e4, -, -⟩ := C163_mixed b c
  rw [e4, e2, e1, ← h4, ← Bool.not_eq_true, e3]
  simp [h1]

example : ccEntry (CC.mk' 7 100).number = .ok (BaseCC.mk' 7 "Volume") ∧
    CCObj.eq (.change (CC.mk' 7 100)) (.base (BaseCC.mk' 7 "Volume")) = false ∧
    CCObj.ne (.change (CC.mk' 7 100)) (.base (BaseCC.mk' 7 "Volume")) = false := by decide +kernel

/-! ## Pitch bends -/

/-- **C163, pitch bends.** `==` of two bends is equality in every respect and `!=` its negation; any sort of a
list of bends is a permutation in order of amount. -/
theorem C163_bends (a b : PitchBend) (srt : List PitchBend → List PitchBend) (hs : IsPySort PitchBend.lt srt)
    (l : List PitchBend) :
    (a.eq b = true ↔ a = b) ∧ (a.ne b = true ↔ a ≠ b) ∧ (srt l).Perm l ∧
    (srt l).Pairwise (fun x y => x.amount ≤ y.amount) := by
  have he : a.eq b = true ↔ a = b := by
    unfold PitchBend.eq
    simp only [Bool.and_eq_true, beq_iff_eq]
    constructor
    · rintro ⟨⟨⟨⟨h1, h2⟩, h3⟩, h4⟩, h5⟩
      cases a; cases b; simp_all
    · rintro rfl; simp
  refine ⟨he, ?_, hs.perm l, ?_⟩
  · unfold PitchBend.ne
    rw [Bool.not_eq_true', ← Bool.not_eq_true, he]
  · have hw : StrictWeakOn PitchBend.lt l := by
      unfold StrictWeakOn PitchBend.lt
      simp only [decide_eq_true_eq, decide_eq_false_iff_not]
      exact ⟨fun a _ b _ h => by omega, fun a _ b _ c _ h => by omega⟩
    refine (hs.sorted l hw).imp ?_
    intro x y h
    simp only [PitchBend.lt, decide_eq_false_iff_not] at h
    omega

/-- **C163, sorting bends loses their time order.** Every sort puts these two bends out of order of time. -/
theorem C163_bends_time (srt : List PitchBend → List PitchBend) (hs : IsPySort PitchBend.lt srt) :
    ∃ l : List PitchBend, l.Pairwise (fun x y => x.time < y.time) ∧ ¬ (srt l).Pairwise (fun x y => x.time < y.time) := by
  let a : PitchBend := ⟨5, 0, 0, 0, false⟩
  let b : PitchBend := ⟨1, 1, 0, 0, false⟩
  refine ⟨[a, b], by simp [a, b], fun h => ?_⟩
  obtain ⟨-, -, hp, hs'⟩ := C163_bends a b srt hs [a, b]
  generalize srt [a, b] = r at h hp hs'
  have hlen := hp.length_eq
  match r, hlen with
  | [x, y], _ =>
    have hx : x = a ∨ x = b := by simpa using hp.mem_iff.1 (by simp : x ∈ [x, y])
    have hy : y = a ∨ y = b := by simpa using hp.mem_iff.1 (by simp : y ∈ [x, y])
    simp only [List.pairwise_cons, List.mem_singleton, forall_eq, List.not_mem_nil, false_imp_iff, implies_true,
      List.Pairwise.nil, and_true] at h hs'
    rcases hx with rfl | rfl <;> rcases hy with rfl | rfl <;>
      first | (norm_num [a, b] at h; done) | (norm_num [a, b] at hs'; done)

end NGC
