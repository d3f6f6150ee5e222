import Verif.SortedDict

/-! Properties C38, C39, C40, C81. -/

namespace NGC

/-! ## C38 SortedDict -/

/-- `lt` is a strict total order: what a sorted dictionary needs of its keys. -/
structure TotalLt {K : Type} (lt : K → K → Bool) : Prop where
  irrefl : ∀ a, lt a a = false
  trans : ∀ a b c, lt a b = true → lt b c = true → lt a c = true
  total : ∀ a b, a ≠ b → lt a b = true ∨ lt b a = true

namespace Spec

/-- The abstract finite map. -/
abbrev FMap (K V : Type) := K → Option V

/-- What one mutation does to a finite map, and whether it raises. -/
def mapStep {K V : Type} [DecidableEq K] (m : FMap K V) : DictOp K V → FMap K V × Option Err
  | .set k v => (fun x => if x = k then some v else m x, none)
  | .del k => if m k = none then (m, some .key) else (fun x => if x = k then none else m x, none)

/-- A history of mutations of a finite map. -/
def mapRun {K V : Type} [DecidableEq K] : FMap K V → List (DictOp K V) → FMap K V × List (Option Err)
  | m, [] => (m, [])
  | m, op :: ops => ((mapRun (mapStep m op).1 ops).1, (mapStep m op).2 :: (mapRun (mapStep m op).1 ops).2)

end Spec

theorem TotalLt.asymm {K : Type} {lt : K → K → Bool} (h : TotalLt lt) (a b : K) (hab : lt a b = true) :
    lt b a = false := by
  by_contra hc
  have hc' : lt b a = true := by simpa using hc
  have := h.trans a b a hab hc'
  rw [h.irrefl] at this; cases this

theorem TotalLt.strictWeak {K : Type} [DecidableEq K] {lt : K → K → Bool} (h : TotalLt lt) (l : List K) :
    StrictWeakOn lt l := by
  refine ⟨fun a _ b _ hab => h.asymm a b hab, fun a _ b _ c _ hac => ?_⟩
  by_cases hab : a = b
  · subst hab; exact Or.inr hac
  · rcases h.total a b hab with h1 | h1
    · exact Or.inl h1
    · exact Or.inr (h.trans b a c h1 hac)

section
variable {K V : Type} [DecidableEq K]

/-- The representation invariant of `SortedDict`. -/
structure SDict.Inv (lt : K → K → Bool) (d : SDict K V) : Prop where
  sorted : d.keys.Pairwise (fun a b => lt a b = true)
  nodup : (d.dict.map (·.1)).Nodup
  same : ∀ k, k ∈ d.keys ↔ k ∈ d.dict.map (·.1)

theorem SDict.has_iff (d : SDict K V) (k : K) : d.has k = true ↔ k ∈ d.dict.map (·.1) := by
  unfold SDict.has
  rw [List.any_eq_true, List.mem_map]
  simp

theorem SDict.lookup_none_iff (d : SDict K V) (k : K) : d.lookup k = none ↔ d.has k = false := by
  rw [← Bool.not_eq_true, SDict.has_iff]
  unfold SDict.lookup
  rw [Option.map_eq_none_iff, List.find?_eq_none, List.mem_map]
  simp only [decide_eq_true_eq]
  constructor
  · rintro h ⟨p, hp, rfl⟩; exact h p hp rfl
  · intro h p hp he; exact h ⟨p, hp, he⟩

theorem SDict.Inv.keys_nodup {lt : K → K → Bool} (ht : TotalLt lt) {d : SDict K V} (h : d.Inv lt) :
    d.keys.Nodup := by
  refine h.sorted.imp ?_
  rintro a b hab rfl
  rw [ht.irrefl] at hab; cases hab

theorem lookup_filter (l : List (K × V)) (k x : K) :
    ((l.filter (fun p => decide (p.1 ≠ k))).find? (fun p => decide (p.1 = x))).map (·.2) =
      if x = k then none else (l.find? (fun p => decide (p.1 = x))).map (·.2) := by
  induction l with
  | nil => simp
  | cons p l ih =>
    by_cases hk : p.1 = k
    · rw [List.filter_cons_of_neg (by simpa using hk), ih]
      split_ifs with hx
      · rfl
      · rw [List.find?_cons_of_neg (by simp; intro h; exact hx (h.symm.trans hk))]
    · rw [List.filter_cons_of_pos (by simpa using hk)]
      by_cases hpx : p.1 = x
      · rw [List.find?_cons_of_pos (by simpa using hpx), List.find?_cons_of_pos (by simpa using hpx),
          if_neg (by rintro rfl; exact hk hpx)]
      · rw [List.find?_cons_of_neg (by simpa using hpx), List.find?_cons_of_neg (by simpa using hpx), ih]

theorem lookup_append (l : List (K × V)) (k x : K) (v : V) (hk : k ∉ l.map (·.1)) :
    ((l ++ [(k, v)]).find? (fun p => decide (p.1 = x))).map (·.2) =
      if x = k then some v else (l.find? (fun p => decide (p.1 = x))).map (·.2) := by
  induction l with
  | nil =>
    by_cases h : x = k
    · simp [h]
    · have : ¬ k = x := fun h' => h h'.symm
      simp [h, this]
  | cons p l ih =>
    simp only [List.map_cons, List.mem_cons, not_or] at hk
    by_cases hpx : p.1 = x
    · rw [List.cons_append, List.find?_cons_of_pos (by simpa using hpx),
        List.find?_cons_of_pos (by simpa using hpx), if_neg]
      rintro rfl; exact hk.1 hpx.symm
    · rw [List.cons_append, List.find?_cons_of_neg (by simpa using hpx),
        List.find?_cons_of_neg (by simpa using hpx), ih hk.2]

theorem SDict.delItem_spec {lt : K → K → Bool} (ht : TotalLt lt) (d : SDict K V) (h : d.Inv lt) (k : K) :
    (d.has k = false ∧ d.delItem k = .error .key) ∨
    (d.has k = true ∧ ∃ d', d.delItem k = .ok d' ∧ d'.Inv lt ∧ k ∉ d'.dict.map (·.1) ∧
      (∀ x, x ∈ d'.keys ↔ x ∈ d.keys ∧ x ≠ k) ∧
      ∀ x, d'.lookup x = if x = k then none else d.lookup x) := by
  cases hk : d.has k with
  | false => left; exact ⟨rfl, by simp [SDict.delItem, hk]⟩
  | true =>
    right
    refine ⟨rfl, ?_⟩
    have hmem : k ∈ d.keys := (h.same k).2 ((SDict.has_iff d k).1 hk)
    have hn := h.keys_nodup ht
    have hkeys : ∀ x, x ∈ d.keys.erase k ↔ x ∈ d.keys ∧ x ≠ k := by
      intro x; rw [hn.mem_erase_iff]; tauto
    have hdict : ∀ x, x ∈ (d.dict.filter (fun p => decide (p.1 ≠ k))).map (·.1) ↔
        x ∈ d.dict.map (·.1) ∧ x ≠ k := by
      intro x
      simp only [List.mem_map, List.mem_filter, decide_eq_true_eq]
      constructor
      · rintro ⟨p, ⟨hp, hpk⟩, rfl⟩; exact ⟨⟨p, hp, rfl⟩, hpk⟩
      · rintro ⟨⟨p, hp, rfl⟩, hpk⟩; exact ⟨p, ⟨hp, hpk⟩, rfl⟩
    refine ⟨_, by unfold SDict.delItem; rw [if_pos hk, if_pos hmem], ?_, ?_, hkeys, ?_⟩
    · refine ⟨h.sorted.sublist List.erase_sublist, ?_, ?_⟩
      · exact (List.Sublist.map _ List.filter_sublist).nodup h.nodup
      · intro x
        show x ∈ d.keys.erase k ↔ _
        rw [hkeys, h.same, hdict]
    · rw [hdict]; tauto
    · intro x; exact lookup_filter d.dict k x

theorem SDict.setItem_spec {lt : K → K → Bool} (ht : TotalLt lt) (d : SDict K V) (h : d.Inv lt)
    (k : K) (v : V) :
    ∃ d', d.setItem lt k v = .ok d' ∧ d'.Inv lt ∧ (∀ x, x ∈ d'.keys ↔ x = k ∨ x ∈ d.keys) ∧
      ∀ x, d'.lookup x = if x = k then some v else d.lookup x := by
  have fresh : ∀ e : SDict K V, e.Inv lt → k ∉ e.dict.map (·.1) →
      SDict.Inv lt ({ dict := e.dict ++ [(k, v)], keys := insortLeft lt e.keys k } : SDict K V) := by
    intro e he hk
    have hk' : k ∉ e.keys := fun hm => hk ((he.same k).1 hm)
    refine ⟨?_, ?_, ?_⟩
    · have hs : SortedLt lt e.keys := he.sorted.imp (fun hab => ht.asymm _ _ hab)
      have h1 := insortLeft_sorted lt e.keys k (ht.strictWeak _) hs
      have hn : (insortLeft lt e.keys k).Nodup := by
        rw [(insortLeft_perm lt e.keys k).nodup_iff, List.nodup_cons]
        exact ⟨hk', he.keys_nodup ht⟩
      have := h1.and hn
      refine this.imp ?_
      rintro a b ⟨hba, hne⟩
      rcases ht.total a b hne with h2 | h2
      · exact h2
      · rw [h2] at hba; cases hba
    · rw [List.map_append, List.nodup_append]
      refine ⟨he.nodup, by simp, ?_⟩
      intro a ha b hb
      simp at hb
      subst hb
      rintro rfl
      exact hk ha
    · intro x
      show x ∈ insortLeft lt e.keys k ↔ _
      rw [(insortLeft_perm lt e.keys k).mem_iff, List.mem_cons, he.same, List.map_append,
        List.mem_append]
      simp [or_comm]
  unfold SDict.setItem
  cases hk : d.has k with
  | false =>
    have hk' : k ∉ d.dict.map (·.1) := by rw [← SDict.has_iff, hk]; simp
    refine ⟨_, rfl, fresh d h hk', ?_, ?_⟩
    · intro x
      show x ∈ insortLeft lt d.keys k ↔ _
      rw [(insortLeft_perm lt d.keys k).mem_iff, List.mem_cons]
    · intro x; exact lookup_append d.dict k x v hk'
  | true =>
    rcases SDict.delItem_spec ht d h k with ⟨hf, _⟩ | ⟨_, e, he, hi, hke, hmem, hl⟩
    · rw [hk] at hf; cases hf
    · rw [if_pos rfl, he]
      refine ⟨_, rfl, fresh e hi hke, ?_, ?_⟩
      · intro x
        show x ∈ insortLeft lt e.keys k ↔ _
        rw [(insortLeft_perm lt e.keys k).mem_iff, List.mem_cons, hmem]
        by_cases hx : x = k <;> simp [hx]
      · intro x
        have : _ = _ := lookup_append e.dict k x v hke
        refine Eq.trans this ?_
        by_cases hx : x = k
        · rw [if_pos hx, if_pos hx]
        · rw [if_neg hx, if_neg hx]
          have := hl x
          rw [if_neg hx] at this
          exact this

theorem SDict.values_spec {lt : K → K → Bool} (d : SDict K V) (h : d.Inv lt) :
    ∃ vs, d.values = .ok vs ∧ vs.map some = d.keys.map d.lookup := by
  unfold SDict.values
  have key : ∀ l : List K, (∀ k ∈ l, d.has k = true) →
      ∃ vs, l.mapM d.getItem = .ok vs ∧ vs.map some = l.map d.lookup := by
    intro l
    induction l with
    | nil => intro _; exact ⟨[], rfl, rfl⟩
    | cons k l ih =>
      intro hl
      obtain ⟨vs, h1, h2⟩ := ih (fun x hx => hl x (List.mem_cons_of_mem _ hx))
      cases hlk : d.lookup k with
      | none =>
        rw [SDict.lookup_none_iff, hl k (by simp)] at hlk; cases hlk
      | some v =>
        refine ⟨v :: vs, ?_, by simp [h2, hlk]⟩
        rw [List.mapM_cons]
        have : d.getItem k = .ok v := by simp [SDict.getItem, hlk]
        rw [this, h1]; rfl
  exact key d.keys (fun k hk => (SDict.has_iff d k).2 ((h.same k).1 hk))

theorem SDict.items_spec {lt : K → K → Bool} (d : SDict K V) (h : d.Inv lt) :
    ∃ its, d.items = .ok its ∧ its.map (·.1) = d.keys ∧ ∀ p ∈ its, d.lookup p.1 = some p.2 := by
  unfold SDict.items
  have key : ∀ l : List K, (∀ k ∈ l, d.has k = true) →
      ∃ its, l.mapM (fun k => do let v ← d.getItem k; Except.ok (k, v)) = Except.ok its ∧
        its.map (·.1) = l ∧ ∀ p ∈ its, d.lookup p.1 = some p.2 := by
    intro l
    induction l with
    | nil => intro _; exact ⟨[], rfl, rfl, by simp⟩
    | cons k l ih =>
      intro hl
      obtain ⟨vs, h1, h2, h3⟩ := ih (fun x hx => hl x (List.mem_cons_of_mem _ hx))
      cases hlk : d.lookup k with
      | none =>
        rw [SDict.lookup_none_iff, hl k (by simp)] at hlk; cases hlk
      | some v =>
        refine ⟨(k, v) :: vs, ?_, by simp [h2], ?_⟩
        · rw [List.mapM_cons]
          have : d.getItem k = .ok v := by simp [SDict.getItem, hlk]
          rw [this, h1]; rfl
        · intro p hp
          rcases List.mem_cons.1 hp with rfl | hp
          · exact hlk
          · exact h3 p hp
  exact key d.keys (fun k hk => (SDict.has_iff d k).2 ((h.same k).1 hk))

theorem SDict.step_spec {lt : K → K → Bool} (ht : TotalLt lt) (d : SDict K V) (h : d.Inv lt)
    (op : DictOp K V) :
    (d.step lt op).1.Inv lt ∧ (d.step lt op).1.lookup = (Spec.mapStep d.lookup op).1 ∧
    (d.step lt op).2 = (Spec.mapStep d.lookup op).2 := by
  cases op with
  | set k v =>
    obtain ⟨d', h1, h2, _, h3⟩ := SDict.setItem_spec ht d h k v
    simp only [SDict.step, h1, Spec.mapStep]
    exact ⟨h2, funext h3, trivial⟩
  | del k =>
    rcases SDict.delItem_spec ht d h k with ⟨hf, he⟩ | ⟨hf, d', h1, h2, _, _, h3⟩
    · have : d.lookup k = none := (SDict.lookup_none_iff d k).2 hf
      simp only [SDict.step, he, Spec.mapStep, this]
      exact ⟨h, rfl, rfl⟩
    · have : d.lookup k ≠ none := by
        rw [Ne, SDict.lookup_none_iff, hf]; simp
      simp only [SDict.step, h1, Spec.mapStep, this, if_false]
      exact ⟨h2, funext h3, trivial⟩

theorem SDict.run_spec {lt : K → K → Bool} (ht : TotalLt lt) (ops : List (DictOp K V)) (d : SDict K V)
    (h : d.Inv lt) :
    (d.run lt ops).1.Inv lt ∧ (d.run lt ops).1.lookup = (Spec.mapRun d.lookup ops).1 ∧
    (d.run lt ops).2 = (Spec.mapRun d.lookup ops).2 := by
  induction ops generalizing d with
  | nil => exact ⟨h, rfl, rfl⟩
  | cons op ops ih =>
    obtain ⟨h1, h2, h3⟩ := SDict.step_spec ht d h op
    obtain ⟨g1, g2, g3⟩ := ih (d.step lt op).1 h1
    rw [h2] at g2 g3
    refine ⟨g1, g2, ?_⟩
    simp only [SDict.run, Spec.mapRun, h3, g3]

theorem SDict.empty_inv (lt : K → K → Bool) : (SDict.empty : SDict K V).Inv lt :=
  ⟨List.Pairwise.nil, List.nodup_nil, fun k => by simp [SDict.empty]⟩

/-- C38: after every history of assignments and deletions on an empty `SortedDict`, every lookup and
every outcome (a deletion raises KeyError exactly when the key is absent, and changes nothing) is
that of the finite map; iteration lists exactly the present keys in strictly ascending order,
`values()` and `items()` never raise and list the present entries in that order, `reversed` lists
them in descending order, and `len` counts them. -/
theorem C38_refines_map (lt : K → K → Bool) (ht : TotalLt lt) (ops : List (DictOp K V)) :
    let d := ((SDict.empty : SDict K V).run lt ops).1
    let m := (Spec.mapRun (fun _ => none) ops).1
    (∀ k, d.lookup k = m k) ∧
    ((SDict.empty : SDict K V).run lt ops).2 = (Spec.mapRun (fun _ => none) ops).2 ∧
    d.keys.Pairwise (fun a b => lt a b = true) ∧
    (∀ k, k ∈ d.keys ↔ m k ≠ none) ∧
    (∃ vs, d.values = .ok vs ∧ vs.map some = d.keys.map m) ∧
    (∃ its, d.items = .ok its ∧ its.map (·.1) = d.keys ∧ ∀ p ∈ its, m p.1 = some p.2) ∧
    d.reversed.Pairwise (fun a b => lt b a = true) ∧ (∀ k, k ∈ d.reversed ↔ m k ≠ none) ∧
    d.len = d.keys.length := by
  obtain ⟨hi, hl, ho⟩ := SDict.run_spec ht ops (SDict.empty : SDict K V) (SDict.empty_inv lt)
  have he : (SDict.empty : SDict K V).lookup = fun _ => none := rfl
  rw [he] at hl ho
  have hk : ∀ k, k ∈ ((SDict.empty : SDict K V).run lt ops).1.keys ↔
      (Spec.mapRun (fun _ => none) ops).1 k ≠ none := by
    intro k
    rw [← hl, Ne, SDict.lookup_none_iff, hi.same, ← SDict.has_iff]; simp
  refine ⟨fun k => by rw [hl], ho, hi.sorted, hk, ?_, ?_, ?_, ?_, ?_⟩
  · obtain ⟨vs, h1, h2⟩ := SDict.values_spec _ hi
    exact ⟨vs, h1, by rw [h2, hl]⟩
  · obtain ⟨its, h1, h2, h3⟩ := SDict.items_spec _ hi
    exact ⟨its, h1, h2, fun p hp => by rw [← hl]; exact h3 p hp⟩
  · unfold SDict.reversed
    rw [List.pairwise_reverse]; exact hi.sorted
  · intro k
    unfold SDict.reversed
    rw [List.mem_reverse]; exact hk k
  · unfold SDict.len
    rw [← List.length_map (f := (·.1))]
    refine ((List.perm_ext_iff_of_nodup hi.nodup (hi.keys_nodup ht)).2 ?_).length_eq
    intro a; exact (hi.same a).symm

end

theorem intLt_total : TotalLt (fun a b : Int => decide (a < b)) :=
  ⟨by simp, by simp only [decide_eq_true_eq]; intro a b c; omega,
   by simp only [decide_eq_true_eq]; intro a b; omega⟩

example : ((SDict.empty : SDict Int String).run (fun a b => decide (a < b))
    [.set 3 "c", .set 1 "a", .del 7, .set 2 "b", .set 3 "C", .del 1]).1.items = .ok [(2, "b"), (3, "C")] ∧
    ((SDict.empty : SDict Int String).run (fun a b => decide (a < b))
    [.set 3 "c", .set 1 "a", .del 7, .set 2 "b", .set 3 "C", .del 1]).2 =
      [none, none, some .key, none, none, none] := by decide +kernel

/-! ## C81 construction from items, clear -/

/-- C81 is false: building a `SortedDict` from any non-empty collection (the documented example)
raises AttributeError. -/
theorem C81_construct_raises {K V : Type} (items : List (K × V)) :
    (SDict.ofItems items = .ok SDict.empty ↔ items = []) ∧
    (items ≠ [] → SDict.ofItems items = .error .attribute) := by
  cases items with
  | nil => simp [SDict.ofItems]
  | cons a l => simp [SDict.ofItems]

/-- C81 is false: after `clear()` the keys are still listed, while `values()` and `items()` raise
KeyError unless the dictionary was empty; assigning a stale key lists it twice. -/
theorem C81_clear_stale {K V : Type} [DecidableEq K] (lt : K → K → Bool) (d : SDict K V) :
    d.clear.keys = d.keys ∧ d.clear.len = 0 ∧
    (d.keys ≠ [] → d.clear.values = .error .key ∧ d.clear.items = .error .key) ∧
    (∀ k v, ∃ d', d.clear.setItem lt k v = .ok d' ∧ d'.keys.Perm (k :: d.keys)) := by
  refine ⟨rfl, rfl, ?_, ?_⟩
  · intro hne
    cases hk : d.keys with
    | nil => exact absurd hk hne
    | cons k l =>
      have hg : ∀ x, d.clear.getItem x = .error .key := fun x => rfl
      constructor
      · show d.keys.mapM _ = _
        rw [hk, List.mapM_cons, hg]; rfl
      · show d.keys.mapM _ = _
        rw [hk, List.mapM_cons, hg]; rfl
  · intro k v
    exact ⟨_, rfl, insortLeft_perm lt d.keys k⟩

example : (((SDict.empty : SDict Int String).run (fun a b => decide (a < b)) [.set 1 "a"]).1.clear.setItem
    (fun a b => decide (a < b)) 1 "b").map (fun d => d.keys) = .ok [1, 1] := by decide +kernel

/-! ## C40 closed intervals -/

namespace Spec
/-- The set of integers of a closed interval. -/
def points (a : IVal) : Set Int := {x | a.start ≤ x ∧ x ≤ a.stop}
end Spec

theorem IVal.overlaps_iff (a b : IVal) : a.overlaps b = true ↔ ∃ x, x ∈ Spec.points a ∧ x ∈ Spec.points b := by
  unfold IVal.overlaps Spec.points
  simp only [decide_eq_true_eq, Set.mem_setOf_eq]
  constructor
  · intro h
    exact ⟨max a.start b.start, by omega, by omega⟩
  · rintro ⟨x, h1, h2⟩
    omega

/-- C40: the interval operations agree with set semantics. -/
theorem C40_set_semantics (a b : IVal) :
    (∀ x, a.contains x = true ↔ x ∈ Spec.points a) ∧
    (a.overlaps b = true ↔ (Spec.points a ∩ Spec.points b).Nonempty) ∧
    (a.overlaps b = b.overlaps a) ∧
    (a.intersection b = none ↔ Spec.points a ∩ Spec.points b = ∅) ∧
    (∀ c, a.intersection b = some c → Spec.points c = Spec.points a ∩ Spec.points b) ∧
    (a.overlaps b = true → Spec.points (a.union b) = Spec.points a ∪ Spec.points b) ∧
    (Spec.points a ∪ Spec.points b ⊆ Spec.points (a.union b)) := by
  refine ⟨?_, ?_, ?_, ?_, ?_, ?_, ?_⟩
  · intro x; simp [IVal.contains, Spec.points]
  · exact IVal.overlaps_iff a b
  · rw [Bool.eq_iff_iff, IVal.overlaps_iff, IVal.overlaps_iff]
    exact ⟨fun ⟨x, h⟩ => ⟨x, h.2, h.1⟩, fun ⟨x, h⟩ => ⟨x, h.2, h.1⟩⟩
  · rw [← Set.not_nonempty_iff_eq_empty]
    have := IVal.overlaps_iff a b
    have h2 : a.intersection b = none ↔ ¬ a.overlaps b = true := by
      unfold IVal.intersection
      split_ifs with h1 h3
      · simp [h1]
      · simp only [IVal.overlaps, decide_eq_true_eq] at h1; exact absurd h1 h3
      · simp [h1]
    rw [h2, this]; rfl
  · intro c hc
    unfold IVal.intersection at hc
    split_ifs at hc with h1 h3
    cases hc
    ext x
    simp only [Spec.points, Set.mem_setOf_eq, Set.mem_inter_iff]
    omega
  · intro h
    simp only [IVal.overlaps, decide_eq_true_eq] at h
    ext x
    simp only [Spec.points, IVal.union, Set.mem_setOf_eq, Set.mem_union]
    omega
  · intro x hx
    simp only [Spec.points, IVal.union, Set.mem_setOf_eq, Set.mem_union] at hx ⊢
    omega

theorem IVal.lt_total : TotalLt IVal.lt := by
  refine ⟨?_, ?_, ?_⟩
  · intro a; simp [IVal.lt]
  · intro a b c; simp only [IVal.lt, decide_eq_true_eq]; omega
  · rintro ⟨a, b⟩ ⟨c, d⟩ h
    simp only [ne_eq, IVal.mk.injEq] at h
    simp only [IVal.lt, decide_eq_true_eq]; omega

/-- C40: `<` is the lexicographic strict total order and `<=` its reflexive closure. -/
theorem C40_order (a b : IVal) :
    (a.lt b = true ↔ a.start < b.start ∨ (a.start = b.start ∧ a.stop < b.stop)) ∧
    (a.le b = true ↔ a.lt b = true ∨ a = b) ∧ TotalLt IVal.lt := by
  refine ⟨by simp [IVal.lt], ?_, IVal.lt_total⟩
  cases a; cases b
  simp [IVal.le]

example : (IVal.mk 1 5).overlaps ⟨3, 8⟩ = true ∧ (IVal.mk 1 5).intersection ⟨3, 8⟩ = some ⟨3, 5⟩ ∧
    (IVal.mk 1 2).intersection ⟨3, 8⟩ = none ∧ (IVal.mk 1 5).lt ⟨1, 6⟩ = true := by decide

/-! ## C39 slice lookup -/

namespace Spec
/-- The integers of the slice `lo:hi` (closed, a missing bound is infinite). -/
def slicePoints (lo hi : Option Int) : Set Int :=
  {x | (∀ a, lo = some a → a ≤ x) ∧ (∀ b, hi = some b → x ≤ b)}
end Spec

theorem SIDict.overlapsSlice_iff (k : IVal) (lo hi : Option Int) :
    SIDict.overlapsSlice k lo hi = true ↔ (Spec.points k ∩ Spec.slicePoints lo hi).Nonempty := by
  unfold SIDict.overlapsSlice Spec.points Spec.slicePoints Set.Nonempty
  cases lo with
  | none =>
    cases hi with
    | none =>
      simp only [Bool.and_true, decide_eq_true_eq, Set.mem_inter_iff, Set.mem_setOf_eq, reduceCtorEq,
        false_implies, implies_true, and_true]
      exact ⟨fun h => ⟨k.start, by omega⟩, fun ⟨x, h⟩ => by omega⟩
    | some b =>
      simp only [Bool.and_true, Bool.and_eq_true, decide_eq_true_eq, Set.mem_inter_iff,
        Set.mem_setOf_eq, reduceCtorEq, false_implies, implies_true, true_and, Option.some.injEq,
        forall_eq']
      exact ⟨fun h => ⟨k.start, by omega⟩, fun ⟨x, h⟩ => by omega⟩
  | some a =>
    cases hi with
    | none =>
      simp only [Bool.and_true, Bool.and_eq_true, decide_eq_true_eq, Set.mem_inter_iff,
        Set.mem_setOf_eq, reduceCtorEq, false_implies, implies_true, and_true, Option.some.injEq,
        forall_eq']
      exact ⟨fun h => ⟨k.stop, by omega⟩, fun ⟨x, h⟩ => by omega⟩
    | some b =>
      simp only [Bool.and_eq_true, decide_eq_true_eq, Set.mem_inter_iff,
        Set.mem_setOf_eq, Option.some.injEq, forall_eq']
      exact ⟨fun h => ⟨max k.start a, by omega⟩, fun ⟨x, h⟩ => by omega⟩

theorem SIDict.fold_spec {V : Type} (its : List (IVal × V)) (acc : SIDict V) (h : acc.Inv IVal.lt)
    (hn : (its.map (·.1)).Nodup) :
    ∃ d, its.foldlM (fun acc p => acc.setItem IVal.lt p.1 p.2) acc = .ok d ∧ d.Inv IVal.lt ∧
      ∀ k v, d.lookup k = some v ↔ (k, v) ∈ its ∨ (k ∉ its.map (·.1) ∧ acc.lookup k = some v) := by
  induction its generalizing acc with
  | nil => exact ⟨acc, rfl, h, by simp⟩
  | cons p its ih =>
    obtain ⟨d1, h1, h2, _, h3⟩ := SDict.setItem_spec IVal.lt_total acc h p.1 p.2
    rw [List.map_cons, List.nodup_cons] at hn
    obtain ⟨d, g1, g2, g3⟩ := ih d1 h2 hn.2
    refine ⟨d, by rw [List.foldlM_cons, h1]; exact g1, g2, ?_⟩
    intro k v
    rw [g3, h3]
    obtain ⟨pk, pv⟩ := p
    simp only [List.mem_cons, List.map_cons, Prod.mk.injEq, not_or]
    by_cases hk : k = pk
    · subst hk
      rw [if_pos rfl]
      have : ∀ v, (k, v) ∈ its → False := fun v hv => hn.1 (List.mem_map.2 ⟨_, hv, rfl⟩)
      constructor
      · rintro (h | ⟨_, h⟩)
        · exact (this _ h).elim
        · cases h; exact Or.inl (Or.inl ⟨rfl, rfl⟩)
      · rintro ((⟨_, rfl⟩ | h) | ⟨⟨h, _⟩, _⟩)
        · exact Or.inr ⟨hn.1, rfl⟩
        · exact (this _ h).elim
        · exact absurd rfl h
    · rw [if_neg hk]
      tauto

/-- C39: for every dictionary built by assignments, `d[a:b]` succeeds and holds exactly the entries
whose interval shares an integer point with the closed slice, in key order, unchanged. -/
theorem C39_slice {V : Type} (ops : List (DictOp IVal V)) (lo hi : Option Int) :
    let d := ((SDict.empty : SIDict V).run IVal.lt ops).1
    ∃ r, SIDict.slice d lo hi = .ok r ∧ r.keys.Pairwise (fun a b => IVal.lt a b = true) ∧
      ∀ k v, r.lookup k = some v ↔
        d.lookup k = some v ∧ (Spec.points k ∩ Spec.slicePoints lo hi).Nonempty := by
  intro d
  have hi' := (SDict.run_spec IVal.lt_total ops (SDict.empty : SIDict V) (SDict.empty_inv _)).1
  obtain ⟨its, h1, h2, h3⟩ := SDict.items_spec _ hi'
  have hn : (its.map (·.1)).Nodup := by rw [h2]; exact hi'.keys_nodup IVal.lt_total
  obtain ⟨r, g1, g2, g3⟩ := SIDict.fold_spec (its.filter (fun p => SIDict.overlapsSlice p.1 lo hi))
    SDict.empty (SDict.empty_inv _) ((List.Sublist.map _ List.filter_sublist).nodup hn)
  refine ⟨r, ?_, g2.sorted, ?_⟩
  · unfold SIDict.slice
    rw [h1]; exact g1
  · intro k v
    rw [g3]
    have he : (SDict.empty : SIDict V).lookup k = none := rfl
    rw [he]
    simp only [List.mem_filter, reduceCtorEq, and_false, or_false]
    rw [SIDict.overlapsSlice_iff]
    constructor
    · rintro ⟨hm, hs⟩; exact ⟨h3 _ hm, hs⟩
    · rintro ⟨hm, hs⟩
      refine ⟨?_, hs⟩
      have hk : k ∈ its.map (·.1) := by
        rw [h2, hi'.same, ← SDict.has_iff]
        by_contra hc
        have : d.lookup k = none := (SDict.lookup_none_iff d k).2 (by simpa using hc)
        rw [this] at hm; cases hm
      obtain ⟨p, hp, rfl⟩ := List.mem_map.1 hk
      have := h3 p hp
      have e : some p.2 = some v := this.symm.trans hm
      cases e; exact hp

example : (SIDict.slice ((SDict.empty : SIDict String).run IVal.lt
    [.set ⟨6, 9⟩ "c", .set ⟨1, 3⟩ "a", .set ⟨2, 5⟩ "b"]).1 (some 4) (some 6)).bind SDict.items =
    .ok [(⟨2, 5⟩, "b"), (⟨6, 9⟩, "c")] := by decide +kernel

end NGC
