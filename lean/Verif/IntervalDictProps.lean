import Verif.IntervalDict
import Verif.SortedDictProps

/-! C164: the interval dictionary as a mutable mapping. -/

namespace NGC

namespace Spec

/-- What a call can do to the entries: only assignments count. -/
def grow {V : Type} (m : FMap IVal V) : SIOp V → FMap IVal V
  | .set (.interval k) v => fun x => if x = k then some v else m x
  | .setDefault (.interval k) v => fun x => if x = k ∧ m k = none then some v else m x
  | .update items => items.foldl (fun m p => fun x => if x = p.1 then some p.2 else m x) m
  | _ => m

end Spec

section
variable {V : Type}

theorem SIDict.getItem_iff (d : SIDict V) (k : IVal) :
    (∀ v, d.lookup k = some v → SDict.getItem d k = .ok v) ∧ (d.lookup k = none → SDict.getItem d k = .error .key) := by
  constructor
  · intro v h; simp [SDict.getItem, h]
  · intro h; simp [SDict.getItem, h]

theorem SIDict.slice_ok (d : SIDict V) (h : d.Inv IVal.lt) (lo hi : Option Int) : ∃ r, SIDict.slice d lo hi = .ok r := by
  obtain ⟨its, h1, h2, _⟩ := SDict.items_spec d h
  have hn : (its.map (·.1)).Nodup := by rw [h2]; exact h.keys_nodup IVal.lt_total
  obtain ⟨r, g1, _, _⟩ := SIDict.fold_spec (its.filter (fun p => SIDict.overlapsSlice p.1 lo hi))
    SDict.empty (SDict.empty_inv _) ((List.Sublist.map _ List.filter_sublist).nodup hn)
  exact ⟨r, by unfold SIDict.slice; rw [h1]; exact g1⟩

theorem SIDict.mem_keys_iff (d : SIDict V) (h : d.Inv IVal.lt) (k : IVal) : k ∈ d.keys ↔ d.lookup k ≠ none := by
  rw [h.same, ← SDict.has_iff, Ne, SDict.lookup_none_iff]
  simp

theorem SIDict.update_spec (items : List (IVal × V)) (d : SIDict V) (h : d.Inv IVal.lt) :
    ∃ d', d.update items = .ok d' ∧ d'.Inv IVal.lt ∧
      d'.lookup = items.foldl (fun m p => fun x => if x = p.1 then some p.2 else m x) d.lookup := by
  induction items generalizing d with
  | nil => exact ⟨d, rfl, h, rfl⟩
  | cons p items ih =>
    obtain ⟨d1, h1, h2, _, h3⟩ := SDict.setItem_spec IVal.lt_total d h p.1 p.2
    obtain ⟨d', g1, g2, g3⟩ := ih d1 h2
    refine ⟨d', ?_, g2, ?_⟩
    · unfold SIDict.update at g1 ⊢
      rw [List.foldlM_cons]
      simp only [SIDict.setKey, h1, bind, Except.bind] at g1 ⊢
      exact g1
    · rw [g3, List.foldl_cons]
      congr 1
      exact funext h3

theorem SIDict.delRange (d : SIDict V) (lo hi : Option Int) :
    (SIDict.pySliceList d.keys lo hi = [] → d.delKey (.range lo hi) = .ok d) ∧
    (SIDict.pySliceList d.keys lo hi ≠ [] → d.delKey (.range lo hi) = .error .attribute) := by
  simp only [SIDict.delKey]
  constructor
  · intro h; rw [h]; rfl
  · intro h
    cases hl : SIDict.pySliceList d.keys lo hi with
    | nil => exact absurd hl h
    | cons k l => rw [List.foldlM_cons]; rfl

theorem SIDict.popItem_spec (d : SIDict V) (h : d.Inv IVal.lt) :
    (d.keys = [] → d.popItem = .error .key) ∧ (d.keys ≠ [] → d.popItem = .error .attribute) := by
  unfold SIDict.popItem
  constructor
  · intro hk; rw [hk]
  · intro hk
    cases hl : d.keys with
    | nil => exact absurd hl hk
    | cons k l =>
      have hm : d.lookup k ≠ none := (d.mem_keys_iff h k).1 (by rw [hl]; simp)
      cases hv : d.lookup k with
      | none => exact absurd hv hm
      | some v =>
        simp only [(d.getItem_iff k).1 v hv, bind, Except.bind, SIDict.delKey, SIDict.delItem]

theorem SIDict.clear_spec (d : SIDict V) (h : d.Inv IVal.lt) :
    (d.keys = [] → d.clear = .ok d) ∧ (d.keys ≠ [] → d.clear = .error .attribute) := by
  unfold SIDict.clear
  constructor
  · intro hk; rw [SIDict.clearGo, (d.popItem_spec h).1 hk]
  · intro hk; rw [SIDict.clearGo, (d.popItem_spec h).2 hk]

theorem SIDict.pop_keeps (d : SIDict V) (k : SIKey) (v : Option V) (r : SIOut V × SIDict V) (h : d.pop k v = .ok r) :
    r.2 = d := by
  have del : ∀ d', d.delKey k = .ok d' → d' = d := by
    intro d' hd
    cases k with
    | interval k => cases hd
    | range lo hi =>
      by_cases hp : SIDict.pySliceList d.keys lo hi = []
      · rw [(d.delRange lo hi).1 hp] at hd; cases hd; rfl
      · rw [(d.delRange lo hi).2 hp] at hd; cases hd
    | other => cases hd
  unfold SIDict.pop at h
  split at h
  · cases hd : d.delKey k with
    | error e => rw [hd] at h; cases h
    | ok d' => rw [hd] at h; cases h; exact del d' hd
  · split at h
    · cases h; rfl
    · cases h
  · cases h

theorem SIDict.call_spec (d : SIDict V) (h : d.Inv IVal.lt) (op : SIOp V) :
    (d.call op).1.Inv IVal.lt ∧ (d.call op).1.lookup = Spec.grow d.lookup op := by
  cases op with
  | set k v =>
    cases k with
    | interval k =>
      obtain ⟨d', h1, h2, _, h3⟩ := SDict.setItem_spec IVal.lt_total d h k v
      simp only [SIDict.call, SIDict.setKey, h1, Spec.grow]
      exact ⟨h2, funext h3⟩
    | range lo hi => exact ⟨h, rfl⟩
    | other => exact ⟨h, rfl⟩
  | del k =>
    cases k with
    | interval k => exact ⟨h, rfl⟩
    | range lo hi =>
      simp only [SIDict.call]
      by_cases hp : SIDict.pySliceList d.keys lo hi = []
      · rw [(d.delRange lo hi).1 hp]; exact ⟨h, rfl⟩
      · rw [(d.delRange lo hi).2 hp]; exact ⟨h, rfl⟩
    | other => exact ⟨h, rfl⟩
  | setDefault k v =>
    cases k with
    | interval k =>
      cases hv : d.lookup k with
      | some w =>
        simp only [SIDict.call, SIDict.setDefault, SIDict.getKey, (d.getItem_iff k).1 w hv, bind, Except.bind, Spec.grow, hv]
        exact ⟨h, by simp⟩
      | none =>
        obtain ⟨d', h1, h2, _, h3⟩ := SDict.setItem_spec IVal.lt_total d h k v
        simp only [SIDict.call, SIDict.setDefault, SIDict.getKey, (d.getItem_iff k).2 hv, bind, Except.bind, Spec.grow, hv,
          SIDict.setKey, h1]
        exact ⟨h2, by simpa using funext h3⟩
    | range lo hi =>
      obtain ⟨r, hr⟩ := d.slice_ok h lo hi
      simp only [SIDict.call, SIDict.setDefault, SIDict.getKey, hr, bind, Except.bind, Spec.grow]
      exact ⟨h, trivial⟩
    | other => exact ⟨h, rfl⟩
  | pop k v =>
    have : (d.call (.pop k v)).1 = d := by
      simp only [SIDict.call]
      cases hp : d.pop k v with
      | ok r => exact d.pop_keeps k v r hp
      | error e => rfl
    rw [this]
    exact ⟨h, rfl⟩
  | popItem =>
    simp only [SIDict.call]
    by_cases hk : d.keys = []
    · rw [(d.popItem_spec h).1 hk]; exact ⟨h, rfl⟩
    · rw [(d.popItem_spec h).2 hk]; exact ⟨h, rfl⟩
  | clear =>
    simp only [SIDict.call]
    by_cases hk : d.keys = []
    · rw [(d.clear_spec h).1 hk]; exact ⟨h, rfl⟩
    · rw [(d.clear_spec h).2 hk]; exact ⟨h, rfl⟩
  | update items =>
    obtain ⟨d', h1, h2, h3⟩ := d.update_spec items h
    simp only [SIDict.call, h1, Spec.grow]
    exact ⟨h2, h3⟩

theorem SIDict.calls_spec (ops : List (SIOp V)) (d : SIDict V) (h : d.Inv IVal.lt) :
    (d.calls ops).Inv IVal.lt ∧ (d.calls ops).lookup = ops.foldl Spec.grow d.lookup := by
  induction ops generalizing d with
  | nil => exact ⟨h, rfl⟩
  | cons op ops ih =>
    obtain ⟨h1, h2⟩ := d.call_spec h op
    obtain ⟨g1, g2⟩ := ih (d.call op).1 h1
    refine ⟨g1, ?_⟩
    rw [List.foldl_cons, ← h2]
    exact g2

theorem grow_mono (m : Spec.FMap IVal V) (op : SIOp V) (k : IVal) (h : m k ≠ none) : Spec.grow m op k ≠ none := by
  have upd : ∀ (items : List (IVal × V)) (m : Spec.FMap IVal V), m k ≠ none →
      items.foldl (fun m p => fun x => if x = p.1 then some p.2 else m x) m k ≠ none := by
    intro items
    induction items with
    | nil => intro m h; exact h
    | cons p items ih =>
      intro m h
      rw [List.foldl_cons]
      apply ih
      show (if k = p.1 then some p.2 else m k) ≠ none
      split
      · simp
      · exact h
  cases op with
  | set k' v =>
    cases k' with
    | interval k' =>
      show (if k = k' then some v else m k) ≠ none
      split
      · simp
      · exact h
    | range lo hi => exact h
    | other => exact h
  | del k => exact h
  | setDefault k' v =>
    cases k' with
    | interval k' =>
      show (if k = k' ∧ m k' = none then some v else m k) ≠ none
      split
      · simp
      · exact h
    | range lo hi => exact h
    | other => exact h
  | pop k' v => exact h
  | popItem => exact h
  | clear => exact h
  | update items => exact upd items m h

/-- **C164, histories.** After every history of calls on an empty dictionary (assignments, deletions, `setdefault`,
`pop`, `popitem`, `clear`, `update`, with keys of any kind, each call allowed to raise) the entries are those of the
map that sees only the assignments; the keys are in strictly ascending order and are exactly the assigned ones. -/
theorem C164_history (ops : List (SIOp V)) :
    let d := SIDict.calls (SDict.empty : SIDict V) ops
    let m := ops.foldl Spec.grow (fun _ => none)
    (∀ k, d.lookup k = m k) ∧ (∀ k, k ∈ d.keys ↔ m k ≠ none) ∧
    d.keys.Pairwise (fun a b => IVal.lt a b = true) := by
  obtain ⟨h1, h2⟩ := SIDict.calls_spec ops (SDict.empty : SIDict V) (SDict.empty_inv _)
  have he : (SDict.empty : SIDict V).lookup = fun _ => none := rfl
  rw [he] at h2
  refine ⟨fun k => by rw [h2], fun k => ?_, h1.sorted⟩
  rw [SIDict.mem_keys_iff _ h1, h2]

/-- **C164, nothing can be removed.** Whatever is called after a key was assigned, the key stays. -/
theorem C164_nothing_removed (ops more : List (SIOp V)) (k : IVal)
    (h : (SIDict.calls (SDict.empty : SIDict V) ops).lookup k ≠ none) :
    (SIDict.calls (SDict.empty : SIDict V) (ops ++ more)).lookup k ≠ none := by
  rw [(C164_history (ops ++ more)).1, List.foldl_append]
  rw [(C164_history ops).1] at h
  generalize ops.foldl Spec.grow (fun _ => none) = m at h
  induction more generalizing m with
  | nil => exact h
  | cons op more ih => exact ih _ (grow_mono m op k h)

/-- **C164, what the calls answer.** On every reachable dictionary:
deleting an interval raises AttributeError, present or not; `pop` of a present interval raises AttributeError, of an
absent one it gives the default or raises KeyError; `popitem` and `clear` of a non-empty dictionary and `del d[:]` of
one raise AttributeError, on an empty one they raise KeyError, do nothing, do nothing; `setdefault` gives the
present value or the default; a slice as key of an assignment, and any key that is neither interval nor slice,
raises KeyError. -/
theorem C164_outcomes (ops : List (SIOp V)) (k : IVal) (v : V) :
    let d := SIDict.calls (SDict.empty : SIDict V) ops
    (d.call (.del (.interval k))).2 = .error .attribute ∧
    (d.lookup k ≠ none → ∀ o, (d.call (.pop (.interval k) o)).2 = .error .attribute) ∧
    (d.lookup k = none → (d.call (.pop (.interval k) (some v))).2 = .ok (.value v) ∧
      (d.call (.pop (.interval k) none)).2 = .error .key) ∧
    (d.keys ≠ [] → (d.call .popItem).2 = .error .attribute ∧ (d.call .clear).2 = .error .attribute ∧
      (d.call (.del (.range none none))).2 = .error .attribute) ∧
    (d.keys = [] → (d.call .popItem).2 = .error .key ∧ (d.call .clear).2 = .ok .none ∧
      (d.call (.del (.range none none))).2 = .ok .none) ∧
    (∀ w, d.lookup k = some w → (d.call (.setDefault (.interval k) v)).2 = .ok (.value w)) ∧
    (d.lookup k = none → (d.call (.setDefault (.interval k) v)).2 = .ok (.value v)) ∧
    (∀ lo hi, (d.call (.set (.range lo hi) v)).2 = .error .key) ∧
    (d.call (.set .other v)).2 = .error .key ∧ (d.call (.del .other)).2 = .error .key ∧
    (d.call (.pop .other none)).2 = .error .key ∧ (d.call (.setDefault .other v)).2 = .error .key := by
  intro d
  have h : d.Inv IVal.lt := (SIDict.calls_spec ops (SDict.empty : SIDict V) (SDict.empty_inv _)).1
  refine ⟨rfl, ?_, ?_, ?_, ?_, ?_, ?_, fun _ _ => rfl, rfl, rfl, rfl, rfl⟩
  · intro hk o
    cases hv : d.lookup k with
    | none => exact absurd hv hk
    | some w =>
      simp only [SIDict.call, SIDict.pop, SIDict.getKey, (d.getItem_iff k).1 w hv, bind, Except.bind, SIDict.delKey,
        SIDict.delItem]
  · intro hk
    simp only [SIDict.call, SIDict.pop, SIDict.getKey, (d.getItem_iff k).2 hk, bind, Except.bind, and_self]
  · intro hk
    refine ⟨?_, ?_, ?_⟩
    · simp only [SIDict.call]; rw [(d.popItem_spec h).2 hk]
    · simp only [SIDict.call]; rw [(d.clear_spec h).2 hk]
    · simp only [SIDict.call]; rw [(d.delRange none none).2 (by simpa [SIDict.pySliceList] using hk)]
  · intro hk
    refine ⟨?_, ?_, ?_⟩
    · simp only [SIDict.call]; rw [(d.popItem_spec h).1 hk]
    · simp only [SIDict.call]; rw [(d.clear_spec h).1 hk]
    · simp only [SIDict.call]; rw [(d.delRange none none).1 (by simp [SIDict.pySliceList, hk])]
  · intro w hv
    simp only [SIDict.call, SIDict.setDefault, SIDict.getKey, (d.getItem_iff k).1 w hv, bind, Except.bind]
  · intro hv
    obtain ⟨d', h1, -, -, -⟩ := SDict.setItem_spec IVal.lt_total d h k v
    simp only [SIDict.call, SIDict.setDefault, SIDict.getKey, (d.getItem_iff k).2 hv, bind, Except.bind, SIDict.setKey, h1]

/-- `i` is a position chosen by the slice `a:b` of a list of length `n`: a bound that is not negative counts from the
front, a negative one from the end. -/
def Spec.ChosenBySlice (n : Nat) (a b : Int) (i : Int) : Prop :=
  0 ≤ i ∧ i < n ∧ (if a < 0 then n + a ≤ i else a ≤ i) ∧ (if b < 0 then i < n + b else i < b)

/-- **C164, deleting a slice.** `del d[a:b]` does not choose by overlap, as `d[a:b]` does, but by position in the list
of keys, negative positions counting from the end: it raises AttributeError exactly if the list has a position that
the slice chooses, and otherwise does nothing. -/
theorem C164_delete_slice (ops : List (SIOp V)) (a b : Int) :
    let d := SIDict.calls (SDict.empty : SIDict V) ops
    ((∃ i, Spec.ChosenBySlice d.keys.length a b i) → (d.call (.del (.range (some a) (some b)))).2 = .error .attribute) ∧
    (¬ (∃ i, Spec.ChosenBySlice d.keys.length a b i) → (d.call (.del (.range (some a) (some b)))).2 = .ok .none) := by
  intro d
  have hs : SIDict.pySliceList d.keys (some a) (some b) = [] ↔
      ¬ (∃ i, Spec.ChosenBySlice d.keys.length a b i) := by
    simp only [SIDict.pySliceList, Option.map_some, Option.getD_some, SIDict.slicePos, Spec.ChosenBySlice]
    rw [← List.length_eq_zero_iff, List.length_drop, List.length_take]
    constructor
    · rintro h ⟨i, h1, h2, h3, h4⟩
      split at h3 <;> split at h4 <;> simp_all <;> omega
    · intro h
      by_contra hc
      by_cases ha : a < 0 <;> by_cases hb : b < 0 <;> simp only [ha, hb, if_true, if_false] at h hc
      · exact h ⟨max (a + d.keys.length) 0, by omega, by omega, by omega, by omega⟩
      · exact h ⟨max (a + d.keys.length) 0, by omega, by omega, by omega, by omega⟩
      · exact h ⟨a, by omega, by omega, by omega, by omega⟩
      · exact h ⟨a, by omega, by omega, by omega, by omega⟩
  constructor
  · intro h
    simp only [SIDict.call]
    rw [(d.delRange _ _).2 (fun hc => hs.1 hc h)]
  · intro h
    simp only [SIDict.call]
    rw [(d.delRange _ _).1 (hs.2 h)]

/-- **C164, membership.** On every reachable dictionary `key in d` is True for an interval exactly if it was assigned,
False for keys of other kinds, and True for every slice, even of an empty dictionary; `get` gives the value or the
default. -/
theorem C164_membership (ops : List (SIOp V)) (k : IVal) (o : SIOut V) :
    let d := SIDict.calls (SDict.empty : SIDict V) ops
    (d.hasKey (.interval k) = .ok true ↔ d.lookup k ≠ none) ∧ (d.hasKey (.interval k) = .ok false ↔ d.lookup k = none) ∧
    (∀ lo hi, d.hasKey (.range lo hi) = .ok true) ∧ d.hasKey .other = .ok false ∧
    (∀ v, d.lookup k = some v → d.getD' (.interval k) o = .ok (.value v)) ∧
    (d.lookup k = none → d.getD' (.interval k) o = .ok o) := by
  intro d
  have h : d.Inv IVal.lt := (SIDict.calls_spec ops (SDict.empty : SIDict V) (SDict.empty_inv _)).1
  have hh : (∀ v, d.lookup k = some v → d.hasKey (.interval k) = .ok true) ∧
      (d.lookup k = none → d.hasKey (.interval k) = .ok false) := by
    constructor
    · intro v hv
      simp only [SIDict.hasKey, SIDict.getKey, (d.getItem_iff k).1 v hv, bind, Except.bind]
    · intro hv
      simp only [SIDict.hasKey, SIDict.getKey, (d.getItem_iff k).2 hv, bind, Except.bind]
  refine ⟨?_, ?_, ?_, rfl, ?_, ?_⟩
  · cases hv : d.lookup k with
    | none => rw [hh.2 hv]; simp
    | some v => rw [hh.1 v hv]; simp
  · cases hv : d.lookup k with
    | none => rw [hh.2 hv]; simp
    | some v => rw [hh.1 v hv]; simp
  · intro lo hi
    obtain ⟨r, hr⟩ := d.slice_ok h lo hi
    simp only [SIDict.hasKey, SIDict.getKey, hr, bind, Except.bind]
  · intro v hv
    simp only [SIDict.getD', SIDict.getKey, (d.getItem_iff k).1 v hv, bind, Except.bind]
  · intro hv
    simp only [SIDict.getD', SIDict.getKey, (d.getItem_iff k).2 hv, bind, Except.bind]

end

/-- A history with every kind of call: the two assigned intervals are still there, in order. -/
example : (SIDict.calls (SDict.empty : SIDict String) [.set (.interval ⟨6, 9⟩) "c", .update [(⟨1, 3⟩, "a")],
    .del (.interval ⟨6, 9⟩), .pop (.interval ⟨1, 3⟩) none, .popItem, .clear, .setDefault (.interval ⟨1, 3⟩) "z",
    .del (.range (some 0) (some 1))]).items = .ok [(⟨1, 3⟩, "a"), (⟨6, 9⟩, "c")] := by decide +kernel

end NGC
