import Verif.Sequences
import Verif.SortedDictProps
import Verif.SeqProps

/-! Properties C32, C33, C36, C37, C83. -/

namespace NGC

theorem intLt_total' : TotalLt intLt := intLt_total

section
variable {V : Type}

/-! ## C33 iteration -/

/-- Both tables keep the representation invariant of `SortedDict`. -/
def Tracks.Inv (t : Tracks V) : Prop := t.seqs.Inv intLt ∧ t.toIdx.Inv intLt

theorem Tracks.empty_inv : (Tracks.empty : Tracks V).Inv := ⟨SDict.empty_inv _, SDict.empty_inv _⟩

theorem SDict.getItem_ok_iff (d : SDict Int V) (k : Int) (v : V) :
    d.getItem k = .ok v ↔ d.lookup k = some v := by
  unfold SDict.getItem
  cases d.lookup k <;> simp

theorem Tracks.getItem_ok (t : Tracks V) (h : t.Inv) (f : V) (i : Int) (hi : 0 ≤ i ∧ i < 128) :
    (∃ j, t.toIdx.lookup i = some j ∧
      t.getItem f i = (t.seqs.getItem j).bind (fun v => .ok (v, t))) ∨
    (t.toIdx.lookup i = none ∧ ∃ t', t'.Inv ∧ t.getItem f i = .ok (f, t') ∧
      (∀ x, t'.toIdx.lookup x = if x = i then some (t.seqs.len : Int) else t.toIdx.lookup x) ∧
      (∀ x, t'.seqs.lookup x = if x = (t.seqs.len : Int) then some f else t.seqs.lookup x)) := by
  unfold Tracks.getItem
  rw [if_neg (by omega)]
  cases hl : t.toIdx.lookup i with
  | some j =>
    left
    have hh : t.toIdx.has i = true := by
      by_contra hc
      rw [(SDict.lookup_none_iff _ _).2 (by simpa using hc)] at hl; cases hl
    refine ⟨j, rfl, ?_⟩
    have : t.toIdx.getItem i = .ok j := (SDict.getItem_ok_iff _ _ _).2 hl
    simp only [hh, if_true, bind, Except.bind, this]
  | none =>
    right
    have hh : t.toIdx.has i = false := (SDict.lookup_none_iff _ _).1 hl
    obtain ⟨d1, h1, h2, _, h3⟩ := SDict.setItem_spec intLt_total' t.toIdx h.2 i (t.seqs.len : Int)
    obtain ⟨d2, g1, g2, _, g3⟩ := SDict.setItem_spec intLt_total' t.seqs h.1 (t.seqs.len : Int) f
    refine ⟨rfl, ⟨d2, d1⟩, ⟨g2, h2⟩, ?_, h3, g3⟩
    have e1 : d1.getItem i = .ok (t.seqs.len : Int) := by
      rw [SDict.getItem_ok_iff, h3, if_pos rfl]
    have e2 : d2.getItem (t.seqs.len : Int) = .ok f := by
      rw [SDict.getItem_ok_iff, g3, if_pos rfl]
    simp only [hh, bind, Except.bind, h1, g1, e1, e2, Bool.false_eq_true, if_false]

theorem Tracks.setItem_ok (t : Tracks V) (h : t.Inv) (i : Int) (v : V) (hi : 0 ≤ i ∧ i < 128) :
    ∃ t', t.setItem i v = .ok t' ∧ t'.Inv ∧ t'.toIdx = t.toIdx ∧
      ∀ x, t'.seqs.lookup x = if x = i then some v else t.seqs.lookup x := by
  obtain ⟨d, h1, h2, _, h3⟩ := SDict.setItem_spec intLt_total' t.seqs h.1 i v
  refine ⟨⟨d, t.toIdx⟩, ?_, ⟨h2, h.2⟩, rfl, h3⟩
  unfold Tracks.setItem
  rw [if_neg (by omega), h1]; rfl

theorem Tracks.createTrack_ok (t : Tracks V) (h : t.Inv) (f : V) (i p : Int) (hp : 0 ≤ p ∧ p < 128) :
    (∃ j, t.toIdx.lookup i = some j ∧ t.createTrack f i p = .ok (j, t)) ∨
    (t.toIdx.lookup i = none ∧ ∃ t', t.createTrack f i p = .ok (i, t') ∧ t'.Inv ∧
      (∀ x, t'.toIdx.lookup x = if x = i then some i else t.toIdx.lookup x) ∧
      (∀ x, t'.seqs.lookup x = if x = i then some f else t.seqs.lookup x)) := by
  unfold Tracks.createTrack
  rw [if_neg (not_not.2 hp)]
  cases hl : t.toIdx.lookup i with
  | some j => left; exact ⟨j, rfl, rfl⟩
  | none =>
    right
    obtain ⟨d1, h1, h2, _, h3⟩ := SDict.setItem_spec intLt_total' t.toIdx h.2 i i
    obtain ⟨d2, g1, g2, _, g3⟩ := SDict.setItem_spec intLt_total' t.seqs h.1 i f
    refine ⟨rfl, ⟨d2, d1⟩, ?_, ⟨g2, h2⟩, h3, g3⟩
    simp only [g1, h1, bind, Except.bind]

theorem Tracks.step_inv (t : Tracks V) (h : t.Inv) (op : TrackOp V) : (t.step op).1.Inv := by
  cases op with
  | get i f =>
    by_cases hi : 0 ≤ i ∧ i < 128
    · rcases Tracks.getItem_ok t h f i hi with ⟨j, _, he⟩ | ⟨_, t', ht, he, _⟩
      · simp only [Tracks.step, he]
        cases t.seqs.getItem j <;> exact h
      · simp only [Tracks.step, he]; exact ht
    · have : t.getItem f i = .error .value := by
        unfold Tracks.getItem; rw [if_pos (by omega)]
      simp only [Tracks.step, this]; exact h
  | set i v =>
    by_cases hi : 0 ≤ i ∧ i < 128
    · obtain ⟨t', he, ht, _⟩ := Tracks.setItem_ok t h i v hi
      simp only [Tracks.step, he]; exact ht
    · have : t.setItem i v = .error .value := by
        unfold Tracks.setItem; rw [if_pos (by omega)]
      simp only [Tracks.step, this]; exact h
  | create i p f =>
    by_cases hp : 0 ≤ p ∧ p < 128
    · rcases Tracks.createTrack_ok t h f i p hp with ⟨j, _, he⟩ | ⟨_, t', he, ht, _⟩
      · simp only [Tracks.step, he]; exact h
      · simp only [Tracks.step, he]; exact ht
    · have : t.createTrack f i p = .error .value := by
        unfold Tracks.createTrack; rw [if_pos hp]
      simp only [Tracks.step, this]; exact h
  | track i p f =>
    simp only [Tracks.step]
    cases hc : t.getTrack f i p with
    | error e => exact h
    | ok r =>
      unfold Tracks.getTrack at hc
      split_ifs at hc with h1 h2
      · simp only [bind, Except.bind] at hc
        cases hg : t.seqs.getItem i with
        | error e => rw [hg] at hc; cases hc
        | ok v => rw [hg] at hc; cases hc; exact h
      · by_cases hp : 0 ≤ p ∧ p < 128
        · rcases Tracks.createTrack_ok t h f i p hp with ⟨j, _, he⟩ | ⟨_, t', he, ht, _⟩
          · simp only [bind, Except.bind, he] at hc
            cases hg : t.seqs.getItem i with
            | error e => rw [hg] at hc; cases hc
            | ok v => rw [hg] at hc; cases hc; exact h
          · simp only [bind, Except.bind, he] at hc
            cases hg : t'.seqs.getItem i with
            | error e => rw [hg] at hc; cases hc
            | ok v => rw [hg] at hc; cases hc; exact ht
        · have : t.createTrack f i p = .error .value := by
            unfold Tracks.createTrack; rw [if_pos hp]
          simp only [bind, Except.bind, this] at hc
          cases hc

theorem Tracks.run_inv (ops : List (TrackOp V)) (t : Tracks V) (h : t.Inv) : (t.run ops).1.Inv := by
  induction ops generalizing t with
  | nil => exact h
  | cons op ops ih => exact ih _ (Tracks.step_inv t h op)

/-- C33: whatever the history of accesses, assignments and creations, iterating lists each track
index once, in strictly ascending order, each of them is a present track, and `len` is their number. -/
theorem C33_iteration (ops : List (TrackOp V)) :
    let t := ((Tracks.empty : Tracks V).run ops).1
    t.iter.Pairwise (· < ·) ∧ (∀ i, i ∈ t.iter ↔ t.seqs.lookup i ≠ none) ∧ t.len = t.iter.length := by
  intro t
  have h : t.Inv := Tracks.run_inv ops _ Tracks.empty_inv
  refine ⟨?_, ?_, ?_⟩
  · refine h.1.sorted.imp ?_
    intro a b hab
    simpa [intLt] using hab
  · intro i
    rw [Ne, SDict.lookup_none_iff, Tracks.iter, h.1.same, ← SDict.has_iff]; simp
  · unfold Tracks.len Tracks.iter SDict.len
    rw [← List.length_map (f := (·.1))]
    exact ((List.perm_ext_iff_of_nodup h.1.nodup (h.1.keys_nodup intLt_total')).2
      (fun a => (h.1.same a).symm)).length_eq

example : (((Tracks.empty : Tracks Nat).run
    [.create 7 0 1, .track 3 0 2, .set 5 3, .create 3 0 4]).1.iter) = [3, 5, 7] := by decide +kernel

/-! ## C32 track access -/

namespace Spec

/-- The track created for an index: the one supplied at its first access. -/
def firstFor (ops : List (Int × V)) (i : Int) : Option V :=
  (ops.find? (fun p => decide (p.1 = i))).map (·.2)

end Spec

theorem firstFor_append (ops : List (Int × V)) (i j : Int) (v : V) :
    Spec.firstFor (ops ++ [(j, v)]) i =
      match Spec.firstFor ops i with
      | some x => some x
      | none => if i = j then some v else none := by
  unfold Spec.firstFor
  rw [List.find?_append]
  cases ops.find? (fun p => decide (p.1 = i)) with
  | some x => rfl
  | none =>
    by_cases h : i = j
    · subst h; simp
    · have : ¬ j = i := fun h' => h h'.symm
      simp [h, this]

/-- Invariant of tables reached by `[]` alone. -/
structure Tracks.Dense (t : Tracks V) (ops : List (Int × V)) : Prop where
  inv : t.Inv
  dom : ∀ k, t.seqs.lookup k ≠ none ↔ 0 ≤ k ∧ k < t.seqs.len
  rng : ∀ i j, t.toIdx.lookup i = some j → 0 ≤ j ∧ j < t.seqs.len
  inj : ∀ i i' j, t.toIdx.lookup i = some j → t.toIdx.lookup i' = some j → i = i'
  first : ∀ i, (t.toIdx.lookup i).bind t.seqs.lookup = Spec.firstFor ops i

theorem SDict.setItem_len (d : SDict Int V) (k : Int) (v : V) (h : d.has k = false) :
    ∃ d', d.setItem intLt k v = .ok d' ∧ d'.len = d.len + 1 := by
  refine ⟨_, by unfold SDict.setItem; rw [h]; rfl, by simp [SDict.len]⟩

theorem Tracks.dense_get (t : Tracks V) (ops : List (Int × V)) (h : t.Dense ops) (f : V) (i : Int)
    (hi : 0 ≤ i ∧ i < 128) :
    ∃ v t', t.getItem f i = .ok (v, t') ∧ t'.Dense (ops ++ [(i, f)]) ∧
      Spec.firstFor (ops ++ [(i, f)]) i = some v := by
  rcases Tracks.getItem_ok t h.inv f i hi with ⟨j, hj, he⟩ | ⟨hn, t', ht, he, hx, hs⟩
  · have hr := h.rng i j hj
    have hne := (h.dom j).2 hr
    cases hv : t.seqs.lookup j with
    | none => exact absurd hv hne
    | some v =>
      have hfirst : Spec.firstFor ops i = some v := by rw [← h.first, hj]; exact hv
      have hsame : ∀ x, Spec.firstFor (ops ++ [(i, f)]) x = Spec.firstFor ops x := by
        intro x
        rw [firstFor_append]
        cases hc : Spec.firstFor ops x with
        | some y => rfl
        | none =>
          simp only []
          rw [if_neg]
          rintro rfl
          rw [hfirst] at hc; cases hc
      refine ⟨v, t, ?_, ⟨h.inv, h.dom, h.rng, h.inj, fun x => by rw [hsame, h.first]⟩, ?_⟩
      · rw [he, (SDict.getItem_ok_iff _ _ _).2 hv]; rfl
      · rw [hsame, hfirst]
  · have hfn : Spec.firstFor ops i = none := by rw [← h.first, hn]; rfl
    have hnl : t.seqs.has (t.seqs.len : Int) = false := by
      rw [← SDict.lookup_none_iff]
      by_contra hc
      have := (h.dom _).1 hc
      omega
    have hlen : t'.seqs.len = t.seqs.len + 1 := by
      obtain ⟨d', hd, hdl⟩ := SDict.setItem_len t.seqs (t.seqs.len : Int) f hnl
      obtain ⟨d1, h1, h2, _, h3⟩ := SDict.setItem_spec intLt_total' t.toIdx h.inv.2 i (t.seqs.len : Int)
      have hh : t.toIdx.has i = false := (SDict.lookup_none_iff _ _).1 hn
      have hd2 : d'.lookup (t.seqs.len : Int) = some f := by
        obtain ⟨d2, g1, _, _, g3⟩ := SDict.setItem_spec intLt_total' t.seqs h.inv.1 (t.seqs.len : Int) f
        rw [hd] at g1; cases g1
        rw [g3, if_pos rfl]
      have e1 : d1.getItem i = .ok (t.seqs.len : Int) := by
        rw [SDict.getItem_ok_iff, h3, if_pos rfl]
      have e2 : d'.getItem (t.seqs.len : Int) = .ok f := (SDict.getItem_ok_iff _ _ _).2 hd2
      have : t.getItem f i = .ok (f, ⟨d', d1⟩) := by
        unfold Tracks.getItem
        rw [if_neg (by omega)]
        simp only [hh, bind, Except.bind, h1, hd, e1, e2, Bool.false_eq_true, if_false]
      rw [he] at this
      cases this
      exact hdl
    refine ⟨f, t', he, ⟨ht, ?_, ?_, ?_, ?_⟩, ?_⟩
    · intro k
      rw [hs, hlen]
      by_cases hk : k = (t.seqs.len : Int)
      · rw [if_pos hk]; simp; omega
      · rw [if_neg hk, h.dom]; push_cast; omega
    · intro x j hxj
      rw [hx] at hxj
      rw [hlen]
      by_cases hxi : x = i
      · rw [if_pos hxi] at hxj; cases hxj; push_cast; omega
      · rw [if_neg hxi] at hxj
        have := h.rng x j hxj
        push_cast; omega
    · intro x x' j h1 h2
      rw [hx] at h1 h2
      by_cases hxi : x = i
      · by_cases hxi' : x' = i
        · rw [hxi, hxi']
        · rw [if_pos hxi] at h1; rw [if_neg hxi'] at h2
          cases h1
          have := h.rng x' _ h2
          omega
      · by_cases hxi' : x' = i
        · rw [if_neg hxi] at h1; rw [if_pos hxi'] at h2
          cases h2
          have := h.rng x _ h1
          omega
        · rw [if_neg hxi] at h1; rw [if_neg hxi'] at h2
          exact h.inj x x' j h1 h2
    · intro x
      rw [firstFor_append, hx]
      by_cases hxi : x = i
      · subst hxi
        rw [if_pos rfl, hfn, if_pos rfl]
        show t'.seqs.lookup _ = _
        rw [hs, if_pos rfl]
      · rw [if_neg hxi, ← h.first]
        cases hc : t.toIdx.lookup x with
        | none => simp [hxi]
        | some j =>
          have hr := h.rng x j hc
          show t'.seqs.lookup j = _
          rw [hs, if_neg (by omega)]
          show _ = match t.seqs.lookup j with
            | some x => some x
            | none => _
          cases hv : t.seqs.lookup j with
          | none => exact absurd hv ((h.dom j).2 hr)
          | some y => rfl
    · rw [firstFor_append, hfn, if_pos rfl]

/-- A history of `[]` accesses. -/
def bracketOps (ops : List (Int × V)) : List (TrackOp V) := ops.map (fun p => .get p.1 p.2)

/-- C32: in a set accessed by `[]` alone (each access supplies the object to be created if
needed), every access to a valid index succeeds and hands out the track created at the first access
to that index; so accesses to one index always give the same track, and no access destroys or
replaces the track of another index. Boundary: histories that mix `[]` with `create_track`,
`get_track` or assignment (`C32_bracket_destroys`). -/
theorem C32_brackets (ops : List (Int × V)) (hv : ∀ p ∈ ops, 0 ≤ p.1 ∧ p.1 < 128)
    (i : Int) (hi : 0 ≤ i ∧ i < 128) (f : V) :
    ∃ v t', (((Tracks.empty : Tracks V).run (bracketOps ops)).1).getItem f i = .ok (v, t') ∧
      Spec.firstFor (ops ++ [(i, f)]) i = some v := by
  have key : ∀ (ops done : List (Int × V)) (t : Tracks V), t.Dense done →
      (∀ p ∈ ops, 0 ≤ p.1 ∧ p.1 < 128) → ((t.run (bracketOps ops)).1).Dense (done ++ ops) := by
    intro ops
    induction ops with
    | nil => intro done t h _; simpa [bracketOps, Tracks.run] using h
    | cons p ops ih =>
      intro done t h hv
      obtain ⟨v, t', h1, h2, _⟩ := Tracks.dense_get t done h p.2 p.1 (hv p (by simp))
      have := ih (done ++ [p]) t' h2 (fun q hq => hv q (List.mem_cons_of_mem _ hq))
      rw [List.append_assoc] at this
      have e : (t.run (bracketOps (p :: ops))).1 = (t'.run (bracketOps ops)).1 := by
        simp only [bracketOps, List.map_cons, Tracks.run, Tracks.step, h1]
      rw [e]
      exact this
  have hd : (Tracks.empty : Tracks V).Dense [] := by
    refine ⟨Tracks.empty_inv, ?_, ?_, ?_, ?_⟩
    · intro k
      simp only [Tracks.empty, SDict.empty, SDict.lookup, SDict.len, List.find?_nil, List.length_nil]
      simp
    · intro i j h; cases h
    · intro i i' j h; cases h
    · intro i; rfl
  have := key ops [] _ hd hv
  rw [List.nil_append] at this
  obtain ⟨v, t', h1, _, h3⟩ := Tracks.dense_get _ _ this f i hi
  exact ⟨v, t', h1, h3⟩

example : ((Tracks.empty : Tracks Nat).run (bracketOps [(5, 10), (3, 11), (5, 12), (0, 13), (3, 14)])).2
    = [.ok (some 10), .ok (some 11), .ok (some 10), .ok (some 13), .ok (some 11)] := by decide +kernel

/-- Invariant of tables reached by `create_track` and `get_track` alone. -/
structure Tracks.Own (t : Tracks V) (ops : List (Int × V)) : Prop where
  inv : t.Inv
  idx : ∀ i, t.toIdx.lookup i = none ↔ t.seqs.lookup i = none
  ident : ∀ i j, t.toIdx.lookup i = some j → j = i
  first : ∀ i, t.seqs.lookup i = Spec.firstFor ops i

theorem Tracks.own_create (t : Tracks V) (ops : List (Int × V)) (h : t.Own ops) (f : V) (i p : Int)
    (hp : 0 ≤ p ∧ p < 128) :
    ∃ t', t.createTrack f i p = .ok (i, t') ∧ t'.Own (ops ++ [(i, f)]) := by
  rcases Tracks.createTrack_ok t h.inv f i p hp with ⟨j, hj, he⟩ | ⟨hn, t', he, ht, hx, hs⟩
  · have hji := h.ident i j hj
    subst hji
    refine ⟨t, he, h.inv, h.idx, h.ident, ?_⟩
    intro x
    rw [firstFor_append, ← h.first]
    cases hc : t.seqs.lookup x with
    | some y => rfl
    | none =>
      simp only []
      rw [if_neg]
      rintro rfl
      rw [(h.idx x).2 hc] at hj; cases hj
  · refine ⟨t', he, ht, ?_, ?_, ?_⟩
    · intro x
      rw [hx, hs]
      by_cases hxi : x = i
      · rw [if_pos hxi, if_pos hxi]; simp
      · rw [if_neg hxi, if_neg hxi]; exact h.idx x
    · intro x j hxj
      rw [hx] at hxj
      by_cases hxi : x = i
      · rw [if_pos hxi] at hxj; cases hxj; exact hxi.symm
      · rw [if_neg hxi] at hxj; exact h.ident x j hxj
    · intro x
      rw [firstFor_append, hs, ← h.first]
      by_cases hxi : x = i
      · subst hxi; rw [if_pos rfl, (h.idx x).1 hn, if_pos rfl]
      · rw [if_neg hxi, if_neg hxi]; cases t.seqs.lookup x <;> rfl

theorem Tracks.own_track (t : Tracks V) (ops : List (Int × V)) (h : t.Own ops) (f : V) (i p : Int)
    (hi : 0 ≤ i ∧ i < 128) (hp : 0 ≤ p ∧ p < 128) :
    ∃ v t', t.getTrack f i p = .ok (v, t') ∧ t'.Own (ops ++ [(i, f)]) ∧
      Spec.firstFor (ops ++ [(i, f)]) i = some v := by
  unfold Tracks.getTrack
  rw [if_neg (by omega)]
  cases hh : t.seqs.has i with
  | true =>
    cases hv : t.seqs.lookup i with
    | none => rw [SDict.lookup_none_iff, hh] at hv; cases hv
    | some v =>
      obtain ⟨t', he, ht⟩ := Tracks.own_create t ops h f i p hp
      have hsame : t' = t := by
        rcases Tracks.createTrack_ok t h.inv f i p hp with ⟨j, hj, he'⟩ | ⟨hn, _⟩
        · rw [he] at he'; cases he'; rfl
        · rw [h.idx, hv] at hn; cases hn
      subst hsame
      refine ⟨v, t', ?_, ht, by rw [← ht.first]; exact hv⟩
      have : t'.seqs.getItem i = .ok v := (SDict.getItem_ok_iff _ _ _).2 hv
      simp only [if_true, bind, Except.bind, this]
  | false =>
    obtain ⟨t', he, ht⟩ := Tracks.own_create t ops h f i p hp
    have hv0 : t.seqs.lookup i = none := (SDict.lookup_none_iff _ _).2 hh
    have hv : t'.seqs.lookup i = some f := by
      rw [ht.first, firstFor_append, ← h.first, hv0, if_pos rfl]
    refine ⟨f, t', ?_, ht, by rw [← ht.first]; exact hv⟩
    have : t'.seqs.getItem i = .ok f := (SDict.getItem_ok_iff _ _ _).2 hv
    simp only [Bool.false_eq_true, if_false, bind, Except.bind, he, this]

/-- A history of `create_track` (`true`) and `get_track` (`false`) calls. -/
def ownOps (ops : List (Bool × Int × Int × V)) : List (TrackOp V) :=
  ops.map (fun o => if o.1 then .create o.2.1 o.2.2.1 o.2.2.2 else .track o.2.1 o.2.2.1 o.2.2.2)

/-- C32: in a set accessed by `create_track` and `get_track` alone, with valid indices and
programs, `get_track` always succeeds and hands out the track created first for that index.
Boundary: mixing with `[]` (`C32_bracket_destroys`). -/
theorem C32_create_track (ops : List (Bool × Int × Int × V))
    (hv : ∀ o ∈ ops, (0 ≤ o.2.1 ∧ o.2.1 < 128) ∧ (0 ≤ o.2.2.1 ∧ o.2.2.1 < 128))
    (i p : Int) (hi : 0 ≤ i ∧ i < 128) (hp : 0 ≤ p ∧ p < 128) (f : V) :
    ∃ v t', (((Tracks.empty : Tracks V).run (ownOps ops)).1).getTrack f i p = .ok (v, t') ∧
      Spec.firstFor (ops.map (fun o => (o.2.1, o.2.2.2)) ++ [(i, f)]) i = some v := by
  have key : ∀ (ops : List (Bool × Int × Int × V)) (done : List (Int × V)) (t : Tracks V), t.Own done →
      (∀ o ∈ ops, (0 ≤ o.2.1 ∧ o.2.1 < 128) ∧ (0 ≤ o.2.2.1 ∧ o.2.2.1 < 128)) →
      ((t.run (ownOps ops)).1).Own (done ++ ops.map (fun o => (o.2.1, o.2.2.2))) := by
    intro ops
    induction ops with
    | nil => intro done t h _; simpa [ownOps, Tracks.run] using h
    | cons o ops ih =>
      intro done t h hv
      obtain ⟨b, j, q, g⟩ := o
      have hvo := hv (b, j, q, g) (by simp)
      have hrest := fun o ho => hv o (List.mem_cons_of_mem _ ho)
      cases b with
      | true =>
        obtain ⟨t', h1, h2⟩ := Tracks.own_create t done h g j q hvo.2
        have := ih (done ++ [(j, g)]) t' h2 hrest
        rw [List.append_assoc] at this
        have e : (t.run (ownOps ((true, j, q, g) :: ops))).1 = (t'.run (ownOps ops)).1 := by
          simp only [ownOps, List.map_cons, Tracks.run, if_true, Tracks.step, h1]
        rw [e]; exact this
      | false =>
        obtain ⟨v, t', h1, h2, _⟩ := Tracks.own_track t done h g j q hvo.1 hvo.2
        have := ih (done ++ [(j, g)]) t' h2 hrest
        rw [List.append_assoc] at this
        have e : (t.run (ownOps ((false, j, q, g) :: ops))).1 = (t'.run (ownOps ops)).1 := by
          simp only [ownOps, List.map_cons, Tracks.run, Bool.false_eq_true, if_false, Tracks.step, h1]
        rw [e]; exact this
  have hd : (Tracks.empty : Tracks V).Own [] :=
    ⟨Tracks.empty_inv, fun i => ⟨fun _ => rfl, fun _ => rfl⟩, fun i j h => (by cases h), fun i => rfl⟩
  have := key ops [] _ hd hv
  rw [List.nil_append] at this
  obtain ⟨v, t', h1, _, h3⟩ := Tracks.own_track _ _ this f i p hi hp
  exact ⟨v, t', h1, h3⟩

example : ((Tracks.empty : Tracks Nat).run
    (ownOps [(true, 5, 0, 10), (false, 5, 0, 11), (false, 3, 0, 12), (true, 3, 0, 13), (false, 3, 0, 14)])).2
    = [.ok none, .ok (some 10), .ok (some 12), .ok none, .ok (some 12)] := by decide +kernel

end

/-- C32 is false when the two ways of access are mixed: creating track 1 and then reading index 5
with `[]` destroys track 1 (token 10 is gone, index 1 now gives the track of index 5); and reading
index 5 with `[]` first makes `get_track(5)` raise KeyError while `get_track(0)` gives that track. -/
theorem C32_bracket_destroys :
    ((Tracks.empty : Tracks Nat).run [.create 1 0 10, .get 5 11, .get 1 12, .track 1 0 13]).2 =
      [.ok none, .ok (some 11), .ok (some 11), .ok (some 11)] ∧
    ((Tracks.empty : Tracks Nat).run [.get 5 10, .track 5 0 11, .track 0 0 12]).2 =
      [.ok (some 10), .error .key, .ok (some 10)] := by decide +kernel

/-! ## C83 assignment to a track -/

/-- C83 is false for `[]`: after `seqs[i] = s` on a fresh set, `seqs[i]` gives a newly created track,
not `s`. -/
theorem C83_assigned_not_read {V : Type} (i : Int) (hi : 0 ≤ i ∧ i < 128) (s f : V) :
    ∃ t' t'', (Tracks.empty : Tracks V).setItem i s = .ok t' ∧ t'.getItem f i = .ok (f, t'') := by
  obtain ⟨t', h1, h2, h3, _⟩ := Tracks.setItem_ok (Tracks.empty : Tracks V) Tracks.empty_inv i s hi
  refine ⟨t', ?_⟩
  rcases Tracks.getItem_ok t' h2 f i hi with ⟨j, hj, _⟩ | ⟨_, t'', _, he, _⟩
  · rw [h3] at hj; cases hj
  · exact ⟨t'', h1, he⟩

/-- C83: after any history, an assigned track is what `get_track` hands out next for that
index. Boundary: `[]` (`C83_assigned_not_read`). -/
theorem C83_assigned_get_track {V : Type} (ops : List (TrackOp V)) (i p : Int)
    (hi : 0 ≤ i ∧ i < 128) (s f : V) :
    ∃ t', (((Tracks.empty : Tracks V).run ops).1).setItem i s = .ok t' ∧
      t'.getTrack f i p = .ok (s, t') := by
  obtain ⟨t', h1, _, _, h4⟩ := Tracks.setItem_ok _ (Tracks.run_inv ops _ Tracks.empty_inv) i s hi
  refine ⟨t', h1, ?_⟩
  have hl : t'.seqs.lookup i = some s := by rw [h4, if_pos rfl]
  have hh : t'.seqs.has i = true := by
    by_contra hc
    rw [(SDict.lookup_none_iff _ _).2 (by simpa using hc)] at hl; cases hl
  unfold Tracks.getTrack
  rw [if_neg (by omega)]
  have : t'.seqs.getItem i = .ok s := (SDict.getItem_ok_iff _ _ _).2 hl
  simp only [hh, if_true, bind, Except.bind, this]

/-! ## C36 import -/

theorem SDict.values_perm {V : Type} (d : SDict Int V) (h : d.Inv intLt) :
    ∃ vs, d.values = .ok vs ∧ vs.Perm (d.dict.map (·.2)) := by
  obtain ⟨vs, h1, h2⟩ := SDict.values_spec d h
  refine ⟨vs, h1, ?_⟩
  have hp : d.keys.Perm (d.dict.map (·.1)) :=
    (List.perm_ext_iff_of_nodup (h.keys_nodup intLt_total') h.nodup).2 h.same
  have hl : ∀ l : List (Int × V), (l.map (·.1)).Nodup →
      (l.map (·.1)).map (fun x => (l.find? (fun p => decide (p.1 = x))).map (·.2)) =
        (l.map (·.2)).map some := by
    intro l hn
    rw [List.map_map, List.map_map]
    apply List.map_congr_left
    intro p hp
    simp only [Function.comp]
    have : l.find? (fun q => decide (q.1 = p.1)) = some p := by
      induction l with
      | nil => simp at hp
      | cons q l ih =>
        rw [List.map_cons, List.nodup_cons] at hn
        rcases List.mem_cons.1 hp with rfl | hp
        · simp
        · rw [List.find?_cons_of_neg]
          · exact ih hn.2 hp
          · simp only [decide_eq_true_eq]
            intro he
            exact hn.1 (he ▸ List.mem_map.2 ⟨p, hp, rfl⟩)
    rw [this]; rfl
  have h3 : (vs.map some).Perm ((d.dict.map (·.2)).map some) := by
    rw [h2, ← hl d.dict h.nodup]
    exact hp.map _
  exact (List.map_perm_map_iff (Option.some_injective _)).1 h3

namespace Spec
/-- Two sequences can share a track: same instrument, same resolution, all notes of both carry
the instrument number. -/
def Compatible (s o : MSeq) : Prop :=
  s.instr = o.instr ∧ s.resolution = o.resolution ∧
  (∀ n ∈ s.notes, n.instrument = s.instr.num) ∧ (∀ n ∈ o.notes, n.instrument = o.instr.num)
end Spec

/-- Invariant of the import loop. -/
structure Tracks.Imported (t : Tracks MSeq) (done : List MSeq) : Prop where
  inv : t.Inv
  ident : ∀ i j, t.toIdx.lookup i = some j → j = i
  idx : ∀ i, t.toIdx.lookup i = none ↔ t.seqs.lookup i = none
  num : ∀ p ∈ t.seqs.dict, p.2.instr.num = p.1
  notes : ((t.seqs.dict.map (·.2)).flatMap MSeq.notes).Perm (done.flatMap MSeq.notes)
  dom : ∀ k, t.seqs.lookup k ≠ none ↔ ∃ s ∈ done, s.instr.num = k
  head : ∀ k s, t.seqs.lookup k = some s → ∃ s0 ∈ done, s0.instr = s.instr ∧
    s0.resolution = s.resolution ∧ s0.instr.num = k ∧
    ((∀ n ∈ s.notes, n.instrument = s.instr.num) ↔
      ∀ o ∈ done, o.instr.num = k → ∀ n ∈ o.notes, n.instrument = o.instr.num)
  all : ∀ k s, t.seqs.lookup k = some s → ∀ o ∈ done, o.instr.num = k →
    o.instr = s.instr ∧ o.resolution = s.resolution

theorem resolution_merge (srt : List Note → List Note) (s o r : MSeq) (h : s.merge srt o = .ok r) :
    r.resolution = s.resolution := by
  unfold MSeq.merge at h
  split_ifs at h
  cases h
  simp [MSeq.adjustTotal]

theorem mem_of_lookup (d : SDict Int V) (k : Int) (v : V) (h : d.lookup k = some v) : (k, v) ∈ d.dict := by
  unfold SDict.lookup at h
  rw [Option.map_eq_some_iff] at h
  obtain ⟨p, hp, rfl⟩ := h
  have h1 := List.find?_some hp
  simp only [decide_eq_true_eq] at h1
  rw [← h1]
  exact List.mem_of_find?_eq_some hp

theorem flatMap_replace (l : List (Int × MSeq)) (k : Int) (old new : MSeq) (extra : List Note)
    (hn : (l.map (·.1)).Nodup) (hm : (k, old) ∈ l) (hp : new.notes.Perm (old.notes ++ extra)) :
    (((l.map (fun p => if p.1 = k then (p.1, new) else p)).map (·.2)).flatMap MSeq.notes).Perm
      ((l.map (·.2)).flatMap MSeq.notes ++ extra) := by
  induction l with
  | nil => simp at hm
  | cons p l ih =>
    rw [List.map_cons, List.nodup_cons] at hn
    simp only [List.map_cons, List.flatMap_cons]
    rcases List.mem_cons.1 hm with rfl | hm
    · simp only [if_true]
      have : l.map (fun p => if p.1 = k then (p.1, new) else p) = l := by
        conv_rhs => rw [← List.map_id l]
        apply List.map_congr_left
        intro q hq
        rw [if_neg]; · rfl
        rintro rfl
        exact hn.1 (List.mem_map.2 ⟨q, hq, rfl⟩)
      rw [this]
      refine (hp.append_right _).trans ?_
      rw [List.append_assoc, List.append_assoc]
      exact (List.perm_append_comm).append_left _
    · have hpk : p.1 ≠ k := by
        rintro rfl
        exact hn.1 (List.mem_map.2 ⟨_, hm, rfl⟩)
      rw [if_neg hpk, List.append_assoc]
      exact (ih hn.2 hm).append_left _

theorem lookup_replace (l : List (Int × MSeq)) (k x : Int) (new : MSeq) :
    ((l.map (fun p => if p.1 = k then (p.1, new) else p)).find? (fun p => decide (p.1 = x))).map (·.2) =
      if x = k then (l.find? (fun p => decide (p.1 = x))).map (fun _ => new)
      else (l.find? (fun p => decide (p.1 = x))).map (·.2) := by
  induction l with
  | nil => simp
  | cons p l ih =>
    rw [List.map_cons]
    have e : (if p.1 = k then (p.1, new) else p).1 = p.1 := by split_ifs <;> rfl
    by_cases hpx : p.1 = x
    · rw [List.find?_cons_of_pos (by simpa [e] using hpx), List.find?_cons_of_pos (by simpa using hpx)]
      by_cases hxk : x = k
      · rw [if_pos hxk, if_pos (hpx.trans hxk)]; rfl
      · rw [if_neg hxk, if_neg (by rw [hpx]; exact hxk)]
    · rw [List.find?_cons_of_neg (by simpa [e] using hpx), List.find?_cons_of_neg (by simpa using hpx), ih]

theorem map_fst_replace (l : List (Int × MSeq)) (k : Int) (new : MSeq) :
    (l.map (fun p => if p.1 = k then (p.1, new) else p)).map (·.1) = l.map (·.1) := by
  rw [List.map_map]
  apply List.map_congr_left
  intro p _
  simp only [Function.comp]
  split_ifs <;> rfl

theorem Tracks.addSeq_spec (srt : List Note → List Note) (hs : IsPySort Note.lt srt)
    (t : Tracks MSeq) (done : List MSeq) (h : t.Imported done) (s : MSeq) :
    (∃ t', t.addSeq srt s = .ok t' ∧ t'.Imported (done ++ [s]) ∧
      ∀ o ∈ done, o.instr.num = s.instr.num → Spec.Compatible o s) ∨
    (raises (t.addSeq srt s) ∧ ∃ o ∈ done, o.instr.num = s.instr.num ∧ ¬ Spec.Compatible o s) := by
  unfold Tracks.addSeq
  cases hl : t.toIdx.lookup s.instr.num with
  | none =>
    left
    obtain ⟨d1, h1, h2, hk1, h3⟩ := SDict.setItem_spec intLt_total' t.toIdx h.inv.2 s.instr.num s.instr.num
    obtain ⟨d2, g1, g2, hk2, g3⟩ := SDict.setItem_spec intLt_total' t.seqs h.inv.1 s.instr.num s
    have hnone := (h.idx _).1 hl
    have hno : ∀ o ∈ done, o.instr.num ≠ s.instr.num := by
      intro o ho he
      exact (h.dom s.instr.num).2 ⟨o, ho, he⟩ hnone
    have hd2 : d2.dict = t.seqs.dict ++ [(s.instr.num, s)] := by
      have hh := (SDict.lookup_none_iff _ _).1 hnone
      unfold SDict.setItem at g1
      rw [hh] at g1
      cases g1; rfl
    refine ⟨⟨d2, d1⟩, by simp only [g1, h1, bind, Except.bind],
      ⟨⟨g2, h2⟩, ?_, ?_, ?_, ?_, ?_, ?_, ?_⟩, fun o ho he => absurd he (hno o ho)⟩
    · intro i j hij
      change d1.lookup i = some j at hij
      rw [h3] at hij
      by_cases hi : i = s.instr.num
      · rw [if_pos hi] at hij; cases hij; exact hi.symm
      · rw [if_neg hi] at hij; exact h.ident i j hij
    · intro i
      show d1.lookup i = none ↔ d2.lookup i = none
      rw [h3, g3]
      by_cases hi : i = s.instr.num
      · rw [if_pos hi, if_pos hi]; simp
      · rw [if_neg hi, if_neg hi]; exact h.idx i
    · intro p hp
      change p ∈ d2.dict at hp
      rw [hd2, List.mem_append] at hp
      rcases hp with hp | hp
      · exact h.num p hp
      · simp at hp; subst hp; rfl
    · show ((d2.dict.map (·.2)).flatMap MSeq.notes).Perm _
      rw [hd2, List.map_append, List.flatMap_append, List.flatMap_append]
      exact h.notes.append (by simp)
    · intro k
      show d2.lookup k ≠ none ↔ _
      rw [g3]
      by_cases hk : k = s.instr.num
      · rw [if_pos hk]
        simp only [ne_eq, reduceCtorEq, not_false_eq_true, true_iff]
        exact ⟨s, by simp, hk.symm⟩
      · rw [if_neg hk, h.dom]
        constructor
        · rintro ⟨o, ho, he⟩; exact ⟨o, by simp [ho], he⟩
        · rintro ⟨o, ho, he⟩
          rw [List.mem_append, List.mem_singleton] at ho
          rcases ho with ho | rfl
          · exact ⟨o, ho, he⟩
          · exact absurd he.symm hk
    · intro k x hx
      change d2.lookup k = some x at hx
      rw [g3] at hx
      by_cases hk : k = s.instr.num
      · rw [if_pos hk] at hx; cases hx
        refine ⟨s, by simp, rfl, rfl, hk.symm, ?_⟩
        constructor
        · intro hv o ho he
          rw [List.mem_append, List.mem_singleton] at ho
          rcases ho with ho | rfl
          · exact absurd (he.trans hk) (hno o ho)
          · exact hv
        · intro hv; exact hv s (by simp) hk.symm
      · rw [if_neg hk] at hx
        obtain ⟨s0, hs0, e1, e2, e3, e4⟩ := h.head k x hx
        refine ⟨s0, by simp [hs0], e1, e2, e3, e4.trans ?_⟩
        constructor
        · intro hv o ho he
          rw [List.mem_append, List.mem_singleton] at ho
          rcases ho with ho | rfl
          · exact hv o ho he
          · exact absurd he.symm hk
        · intro hv o ho he; exact hv o (by simp [ho]) he
    · intro k x hx o ho he
      change d2.lookup k = some x at hx
      rw [g3] at hx
      rw [List.mem_append, List.mem_singleton] at ho
      by_cases hk : k = s.instr.num
      · rw [if_pos hk] at hx; cases hx
        rcases ho with ho | rfl
        · exact absurd (he.trans hk) (hno o ho)
        · exact ⟨rfl, rfl⟩
      · rw [if_neg hk] at hx
        rcases ho with ho | rfl
        · exact h.all k x hx o ho he
        · exact absurd he.symm hk
  | some j =>
    have hj := h.ident _ _ hl
    subst hj
    cases hold : t.seqs.lookup s.instr.num with
    | none => rw [(h.idx _).2 hold] at hl; cases hl
    | some old =>
      have hg : t.seqs.getItem s.instr.num = .ok old := (SDict.getItem_ok_iff _ _ _).2 hold
      obtain ⟨s0, hs0, e1, e2, e3, e4⟩ := h.head _ _ hold
      have hall := h.all _ _ hold
      have hinum : old.instr.num = s.instr.num := by rw [← e1]; exact e3
      cases hm : old.merge srt s with
      | error e =>
        right
        refine ⟨⟨e, by simp only [hg, hm, bind, Except.bind]⟩, ?_⟩
        by_contra hc
        push Not at hc
        have hok : ∃ r, old.merge srt s = .ok r := by
          rw [(C21_merge_raises_iff srt old s).2]
          have c0 := hc s0 hs0 e3
          refine ⟨e1 ▸ c0.1, e2 ▸ c0.2.1, ?_, c0.2.2.2⟩
          rw [e4]
          intro o ho he
          exact (hc o ho he).2.2.1
        obtain ⟨r, hr⟩ := hok
        rw [hm] at hr; cases hr
      | ok new =>
        left
        obtain ⟨c1, c2, c3, c4⟩ := (C21_merge_raises_iff srt old s).2.1 ⟨new, hm⟩
        obtain ⟨hp, _, hin⟩ := C21_merge_multiset srt hs old s new hm
        have hres := resolution_merge srt old s new hm
        have hlook : ∀ x, (t.seqs.replace s.instr.num new).lookup x = if x = s.instr.num then some new else t.seqs.lookup x := by
          intro x
          refine (lookup_replace t.seqs.dict s.instr.num x new).trans ?_
          by_cases hx : x = s.instr.num
          · rw [if_pos hx, if_pos hx]
            subst hx
            unfold SDict.lookup at hold
            rw [Option.map_eq_some_iff] at hold
            obtain ⟨p, hp, _⟩ := hold
            rw [hp]; rfl
          · rw [if_neg hx, if_neg hx]; rfl
        refine ⟨⟨t.seqs.replace s.instr.num new, t.toIdx⟩, by simp only [hg, hm, bind, Except.bind],
          ⟨⟨⟨h.inv.1.sorted, ?_, ?_⟩, h.inv.2⟩, h.ident,
          ?_, ?_, ?_, ?_, ?_, ?_⟩, ?_⟩
        · show ((t.seqs.dict.map _).map _).Nodup
          rw [map_fst_replace]; exact h.inv.1.nodup
        · intro k
          show k ∈ t.seqs.keys ↔ k ∈ (t.seqs.dict.map _).map _
          rw [map_fst_replace]; exact h.inv.1.same k
        · intro i
          show _ ↔ (t.seqs.replace s.instr.num new).lookup i = none
          rw [hlook]
          by_cases hi : i = s.instr.num
          · rw [if_pos hi, hi, hl]; simp
          · rw [if_neg hi]; exact h.idx i
        · intro p hp
          change p ∈ t.seqs.dict.map _ at hp
          obtain ⟨q, hq, rfl⟩ := List.mem_map.1 hp
          by_cases hqk : q.1 = s.instr.num
          · rw [if_pos hqk]
            show new.instr.num = q.1
            rw [hin, hinum, hqk]
          · rw [if_neg hqk]; exact h.num q hq
        · rw [List.flatMap_append]
          refine (flatMap_replace t.seqs.dict _ old new s.notes h.inv.1.nodup
            (mem_of_lookup _ _ _ hold) hp).trans ?_
          refine h.notes.append ?_
          simp
        · intro k
          show (t.seqs.replace s.instr.num new).lookup k ≠ none ↔ _
          rw [hlook]
          by_cases hk : k = s.instr.num
          · rw [if_pos hk]
            simp only [ne_eq, reduceCtorEq, not_false_eq_true, true_iff]
            exact ⟨s, by simp, hk.symm⟩
          · rw [if_neg hk, h.dom]
            constructor
            · rintro ⟨o, ho, he⟩; exact ⟨o, by simp [ho], he⟩
            · rintro ⟨o, ho, he⟩
              rw [List.mem_append, List.mem_singleton] at ho
              rcases ho with ho | rfl
              · exact ⟨o, ho, he⟩
              · exact absurd he.symm hk
        · intro k x hx
          change (t.seqs.replace s.instr.num new).lookup k = some x at hx
          rw [hlook] at hx
          by_cases hk : k = s.instr.num
          · rw [if_pos hk] at hx; cases hx
            refine ⟨s0, by simp [hs0], by rw [hin, e1], by rw [hres, e2], by rw [e3, hk], ?_⟩
            constructor
            · intro _ o ho he
              rw [List.mem_append, List.mem_singleton] at ho
              rcases ho with ho | rfl
              · exact e4.1 c3 o ho (he.trans hk)
              · exact c4
            · intro _ n hn
              rw [hp.mem_iff, List.mem_append] at hn
              rw [hin]
              rcases hn with hn | hn
              · exact c3 n hn
              · rw [hinum]; exact c4 n hn
          · rw [if_neg hk] at hx
            obtain ⟨s1, hs1, f1, f2, f3, f4⟩ := h.head k x hx
            refine ⟨s1, by simp [hs1], f1, f2, f3, f4.trans ?_⟩
            constructor
            · intro hv o ho he
              rw [List.mem_append, List.mem_singleton] at ho
              rcases ho with ho | rfl
              · exact hv o ho he
              · exact absurd he.symm hk
            · intro hv o ho he; exact hv o (by simp [ho]) he
        · intro k x hx o ho he
          change (t.seqs.replace s.instr.num new).lookup k = some x at hx
          rw [hlook] at hx
          rw [List.mem_append, List.mem_singleton] at ho
          by_cases hk : k = s.instr.num
          · rw [if_pos hk] at hx; cases hx
            rw [hin, hres]
            rcases ho with ho | rfl
            · exact hall o ho (he.trans hk)
            · exact ⟨c1.symm, c2.symm⟩
          · rw [if_neg hk] at hx
            rcases ho with ho | rfl
            · exact h.all k x hx o ho he
            · exact absurd he.symm hk
        · intro o ho he
          obtain ⟨a1, a2⟩ := hall o ho he
          refine ⟨a1.trans c1, a2.trans c2, ?_, c4⟩
          exact e4.1 c3 o ho he

theorem Tracks.ofSeqs_aux (srt : List Note → List Note) (hs : IsPySort Note.lt srt) (l done : List MSeq)
    (t : Tracks MSeq) (h : t.Imported done)
    (hdone : done.Pairwise (fun s o => s.instr.num = o.instr.num → Spec.Compatible s o)) :
    (∃ t', l.foldlM (Tracks.addSeq srt) t = .ok t' ∧ t'.Imported (done ++ l) ∧
      (done ++ l).Pairwise (fun s o => s.instr.num = o.instr.num → Spec.Compatible s o)) ∨
    (raises (l.foldlM (Tracks.addSeq srt) t) ∧
      ¬ (done ++ l).Pairwise (fun s o => s.instr.num = o.instr.num → Spec.Compatible s o)) := by
  induction l generalizing done t with
  | nil => left; exact ⟨t, rfl, by simpa using h, by simpa using hdone⟩
  | cons s l ih =>
    rcases Tracks.addSeq_spec srt hs t done h s with ⟨t', h1, h2, h3⟩ | ⟨⟨e, he⟩, o, ho, hn, hc⟩
    · have hd : (done ++ [s]).Pairwise (fun s o => s.instr.num = o.instr.num → Spec.Compatible s o) := by
        rw [List.pairwise_append]
        refine ⟨hdone, by simp, ?_⟩
        intro a ha b hb
        simp at hb; subst hb
        exact h3 a ha
      have := ih (done ++ [s]) t' h2 hd
      rw [List.append_assoc] at this
      rw [List.foldlM_cons, h1]
      exact this
    · right
      rw [List.foldlM_cons, he]
      refine ⟨⟨e, rfl⟩, ?_⟩
      intro hp
      rw [List.pairwise_append] at hp
      exact hc (hp.2.2 o ho s (by simp) hn)

/-- C36: importing a list of sequences succeeds exactly when any two sequences with the same
instrument number are compatible (otherwise it raises); then the tracks are exactly the instrument
numbers of the sequences, and the notes of all tracks together are exactly the notes of all
sequences, each as often as given. -/
theorem C36_import (srt : List Note → List Note) (hs : IsPySort Note.lt srt) (l : List MSeq) :
    (l.Pairwise (fun s o => s.instr.num = o.instr.num → Spec.Compatible s o) ↔
      ∃ t, Tracks.ofSeqs srt l = .ok t) ∧
    (∀ t, Tracks.ofSeqs srt l = .ok t →
      (∃ vs, t.allSeqs = .ok vs ∧ (vs.flatMap MSeq.notes).Perm (l.flatMap MSeq.notes)) ∧
      (∀ k, k ∈ t.iter ↔ ∃ s ∈ l, s.instr.num = k) ∧
      (∀ k s, t.seqs.lookup k = some s → s.instr.num = k)) := by
  have h0 : (Tracks.empty : Tracks MSeq).Imported [] := by
    refine ⟨Tracks.empty_inv, fun i j h => (by cases h), fun i => ⟨fun _ => rfl, fun _ => rfl⟩,
      fun p hp => (by cases hp), List.Perm.refl _, fun k => ?_, fun k s h => (by cases h),
      fun k s h => (by cases h)⟩
    simp [Tracks.empty, SDict.empty, SDict.lookup]
  rcases Tracks.ofSeqs_aux srt hs l [] Tracks.empty h0 List.Pairwise.nil with ⟨t, h1, h2, h3⟩ | ⟨⟨e, he⟩, hn⟩
  · rw [List.nil_append] at h2 h3
    refine ⟨⟨fun _ => ⟨t, h1⟩, fun _ => h3⟩, ?_⟩
    intro t' ht'
    unfold Tracks.ofSeqs at ht'
    rw [h1] at ht'
    cases ht'
    refine ⟨?_, ?_, ?_⟩
    · obtain ⟨vs, g1, g2⟩ := SDict.values_perm _ h2.inv.1
      exact ⟨vs, g1, (g2.flatMap_right _).trans h2.notes⟩
    · intro k
      rw [← h2.dom, Ne, SDict.lookup_none_iff, Tracks.iter, h2.inv.1.same, ← SDict.has_iff]; simp
    · intro k s hks
      exact h2.num _ (mem_of_lookup _ _ _ hks)
  · rw [List.nil_append] at hn
    refine ⟨⟨fun h => absurd h hn, ?_⟩, ?_⟩
    · rintro ⟨t, ht⟩
      unfold Tracks.ofSeqs at ht
      rw [he] at ht; cases ht
    · intro t ht
      unfold Tracks.ofSeqs at ht
      rw [he] at ht; cases ht

example : ((Tracks.ofSeqs id [MSeq.mk' [exNote] { num := 0, name := "Piano", isDrum := false },
      MSeq.mk' [{ exNote with instrument := 4 }] { num := 4, name := "Organ", isDrum := false },
      MSeq.mk' [{ exNote with pitch := 64 }] { num := 0, name := "Piano", isDrum := false }]).bind
      (fun t => t.allSeqs)).map (fun vs => vs.map (fun s => s.notes.length)) = .ok [2, 1] := by
  decide +kernel

/-! ## C37 whole-set operations -/

/-- C37 is false about `is_quantized`: it is true on every set of tracks. -/
theorem C37_is_quantized_always (t : Tracks MSeq) (h : t.Inv) : t.isQuantized = .ok true := by
  obtain ⟨vs, h1, _⟩ := SDict.values_spec t.seqs h.1
  unfold Tracks.isQuantized
  rw [h1]
  simp [bind, Except.bind]

/-- C37 is false about `trim`: whenever it does not raise, nothing has changed. -/
theorem C37_trim_noop (t r : Tracks MSeq) (e i : ℚ) (h : t.trim e i = .ok r) : r = t := by
  unfold Tracks.trim at h
  simp only [bind, Except.bind] at h
  cases hv : t.seqs.values with
  | error e => rw [hv] at h; cases h
  | ok vs =>
    rw [hv] at h
    simp only [] at h
    cases hm : vs.mapM (fun s => s.slice i e) with
    | error e => rw [hm] at h; cases h
    | ok _ => rw [hm] at h; cases h; rfl

/-- C37 is false about `truncate(from_start=b)`: on tracks with at least one event it never returns
a time: it raises AttributeError if the event that starts first ends by `b`, and otherwise returns
`None` and changes nothing. -/
theorem C37_truncate_from_start (t : Tracks MSeq) (h : t.Inv) (i b : ℚ) (hb : 0 ≤ b) (n : Note)
    (rest : List Note) (he : t.allEvents = .ok (n :: rest)) :
    (n.stop ≤ b → t.truncate i (some b) = .error .attribute) ∧
    (b < n.stop → t.truncate i (some b) = .ok (none, t)) := by
  have hsome : ∀ (l : List Note) (x : ℚ), ∃ y, lastWithin b l (some x) = some y := by
    intro l
    induction l with
    | nil => intro x; exact ⟨x, rfl⟩
    | cons m l ih =>
      intro x
      rw [lastWithin]
      split_ifs
      · exact ih _
      · exact ⟨x, rfl⟩
  have hkeys : t.seqs.keys ≠ [] := by
    intro hk
    unfold Tracks.allEvents at he
    have : t.seqs.values = .ok [] := by unfold SDict.values; rw [hk]; rfl
    rw [this] at he
    simp only [bind, Except.bind, List.flatMap_nil, sortByKey] at he
    cases he
  constructor
  · intro hn
    unfold Tracks.truncate
    simp only [if_neg (not_lt.2 hb), he, bind, Except.bind]
    rw [lastWithin, if_pos hn]
    obtain ⟨y, hy⟩ := hsome rest n.stop
    rw [hy]
    simp only [if_neg hkeys]
  · intro hn
    unfold Tracks.truncate
    simp only [if_neg (not_lt.2 hb), he, bind, Except.bind]
    rw [lastWithin, if_neg (not_le.2 hn)]

/-- C37: `truncate()` without a bound, when it does not raise, returns the largest end of all
events and changes nothing; it raises ValueError when there is no event. Boundary: any trimming. -/
theorem C37_truncate (t : Tracks MSeq) (i : ℚ) (evs : List Note) (he : t.allEvents = .ok evs) :
    (evs = [] → t.truncate i none = .error .value) ∧
    (∀ r, t.truncate i none = .ok r → r.2 = t ∧ r.1 = some (maxEnd evs) ∧
      (∃ n ∈ evs, n.stop = maxEnd evs) ∧ ∀ n ∈ evs, n.stop ≤ maxEnd evs) := by
  unfold Tracks.truncate
  simp only [he, bind, Except.bind]
  constructor
  · intro h; rw [if_pos h]
  · intro r hr
    split_ifs at hr with h
    cases ht : t.trim i (maxEnd evs) with
    | error e => rw [ht] at hr; cases hr
    | ok t' =>
      rw [ht] at hr
      cases hr
      exact ⟨C37_trim_noop _ _ _ _ ht, rfl, maxEnd_mem _ h, fun n hn => maxEnd_ge _ n hn⟩

/-- A set with one track of one unquantized note: `is_quantized` is true, `trim(1/2)` keeps the note
that ends later, `truncate(from_start=5)` raises. -/
example : (Tracks.ofSeqs id [exSeq]).bind (fun t => t.isQuantized) = .ok true ∧
    exSeq.isQuantized = false ∧
    ((Tracks.ofSeqs id [exSeq]).bind (fun t => t.trim (1/2))).bind Tracks.allEvents = .ok exSeq.notes ∧
    ((Tracks.ofSeqs id [exSeq]).bind (fun t => t.truncate 0 (some 5))).map (·.1) = .error .attribute ∧
    ((Tracks.ofSeqs id [exSeq]).bind (fun t => t.truncate 0 none)).map (·.1) = .ok (some 3) := by
  decide +kernel

end NGC
