import Verif.DataCheck
import Verif.FeatureProps
import Verif.PipelineProps2

/-!
C190 (a node leads back to its pitches; what the reverse checks report) and C191 (`compute_statistics`).
-/

namespace NGC

namespace Spec

/-- Tables reached from others by further builds. -/
inductive LaterTables (env : PyEnv) (t : Tables) : Tables → Prop
  | same : LaterTables env t t
  | build {t₁ t₂ : Tables} {g' : MGraph} (s : MSeq) (o : BuildOpts) (g : Option MGraph) :
      LaterTables env t t₁ → buildSequence env t₁ s o g = .ok (t₂, g') → LaterTables env t t₂

/-- The tables lead from a class label to a chord. -/
def LeadsTo (t : Tables) (y : Nat) (c : Finset Int) : Prop :=
  ∃ h, dget t.indexToHash y = some h ∧ dget t.hashToNotes h = some c

/-- The row lists the pitches of the chord, in some order, filled up with zeros to the given width. -/
def RowOf (width : Nat) (c : Finset Int) (row : List ℚ) : Prop :=
  ∃ ps : List Int, ps.Nodup ∧ (∀ p, p ∈ ps ↔ p ∈ c) ∧
    row.Perm (ps.map (fun p : Int => (p : ℚ)) ++ List.replicate (width - c.card) 0)

end Spec

open Spec

theorem LeadsTo.unique {t : Tables} {y : Nat} {c c' : Finset Int} (h : LeadsTo t y c) (h' : LeadsTo t y c') : c = c' := by
  obtain ⟨k, h1, h2⟩ := h
  obtain ⟨k', h1', h2'⟩ := h'
  rw [h1] at h1'; cases h1'
  rw [h2] at h2'; cases h2'
  rfl

/-! ### Sorting decides equality of multisets -/

theorem sortQ_eq_iff (a b : List ℚ) :
    sortByKey (fun x : ℚ => x) a = sortByKey (fun x : ℚ => x) b ↔ a.Perm b := by
  constructor
  · intro h
    exact (sortByKey_perm _ a).symm.trans (h ▸ sortByKey_perm _ b)
  · intro h
    refine List.Perm.eq_of_pairwise (le := fun a b : ℚ => a ≤ b) ?_ (sortByKey_sorted _ a) (sortByKey_sorted _ b) ?_
    · intro x y _ _ h1 h2; exact le_antisymm h1 h2
    · exact (sortByKey_perm _ a).trans (h.trans (sortByKey_perm _ b).symm)

theorem iter_length (env : PyEnv) (henv : env.IterOk) (c : Finset Int) : (env.iter c).length = c.card := by
  obtain ⟨hnd, hm⟩ := henv c
  rw [← List.toFinset_card_of_nodup hnd]
  congr 1
  ext x
  rw [List.mem_toFinset]
  exact hm x

theorem rowAgrees_iff (env : PyEnv) (henv : env.IterOk) (row : List ℚ) (c : Finset Int) (zeros cut : Nat)
    (hc : c.card ≤ cut) (hrow : row.length = cut) :
    rowAgrees row (env.iter c) zeros cut = true ↔ cut ≤ c.card + zeros ∧ RowOf cut c row := by
  have hlen := iter_length env henv c
  have htake : ((env.iter c).map (fun p : Int => (p : ℚ)) ++ List.replicate zeros 0).take cut =
      (env.iter c).map (fun p : Int => (p : ℚ)) ++ List.replicate (min (cut - c.card) zeros) 0 := by
    rw [List.take_append, List.take_of_length_le (by rw [List.length_map, hlen]; exact hc), List.length_map, hlen,
      List.take_replicate]
  unfold rowAgrees
  rw [decide_eq_true_eq, sortQ_eq_iff, htake]
  constructor
  · intro hp
    have hl := hp.length_eq
    rw [List.length_append, List.length_map, hlen, List.length_replicate, hrow] at hl
    have hz : min (cut - c.card) zeros = cut - c.card := by omega
    rw [hz] at hp
    exact ⟨by omega, env.iter c, (henv c).1, (henv c).2, hp⟩
  · rintro ⟨hz, ps, hnd, hm, hp⟩
    have hz : min (cut - c.card) zeros = cut - c.card := by omega
    rw [hz]
    refine hp.trans (List.Perm.append_right _ (List.Perm.map _ ?_))
    exact (List.perm_ext_iff_of_nodup hnd (henv c).1).2 (fun p => (hm p).trans ((henv c).2 p).symm)

/-- A row of another length never agrees. -/
theorem rowAgrees_short (env : PyEnv) (row : List ℚ) (notes : List Int) (zeros cut : Nat)
    (hrow : row.length ≠ min cut (notes.length + zeros)) : rowAgrees row notes zeros cut = false := by
  unfold rowAgrees
  rw [decide_eq_false_iff_not, sortQ_eq_iff]
  intro hp
  apply hrow
  rw [hp.length_eq, List.length_take, List.length_append, List.length_map, List.length_replicate]

/-! ### The loop -/

theorem checkLoop_ok (env : PyEnv) (t : Tables) (zeros cut : Nat) : ∀ (rows : List (List ℚ)) (ys : List Nat) (i : Nat),
    rows.length = ys.length → (∀ y ∈ ys, ∃ c, LeadsTo t y c) →
    ∃ bad, checkLoop env t zeros cut i rows ys = .ok bad ∧
      ∀ j, j ∈ bad ↔ ∃ m row y c, j = i + m ∧ rows[m]? = some row ∧ ys[m]? = some y ∧ LeadsTo t y c ∧
        rowAgrees row (env.iter c) zeros cut = false := by
  intro rows
  induction rows with
  | nil =>
    intro ys i hl _
    refine ⟨[], by simp [checkLoop], ?_⟩
    intro j
    simp
  | cons row rows ih =>
    intro ys i hl hy
    cases ys with
    | nil => simp at hl
    | cons y ys =>
      obtain ⟨bad, hb, hbad⟩ := ih ys (i + 1) (by simpa using hl) (fun y' h' => hy y' (List.mem_cons_of_mem _ h'))
      obtain ⟨c, h, h1, h2⟩ := hy y (by simp)
      have hrun : checkLoop env t zeros cut i (row :: rows) (y :: ys) =
          .ok (if rowAgrees row (env.iter c) zeros cut then bad else i :: bad) := by
        simp only [checkLoop, lookupKey, h1, h2, hb, bind, Except.bind]
      refine ⟨_, hrun, ?_⟩
      intro j
      have hshift : (j ∈ bad ↔ ∃ m row' y' c', j = i + (m + 1) ∧ (row :: rows)[m + 1]? = some row' ∧
          (y :: ys)[m + 1]? = some y' ∧ LeadsTo t y' c' ∧ rowAgrees row' (env.iter c') zeros cut = false) := by
        rw [hbad]
        constructor
        · rintro ⟨m, r, y', c', e, e1, e2, e3, e4⟩
          exact ⟨m, r, y', c', by omega, by simpa using e1, by simpa using e2, e3, e4⟩
        · rintro ⟨m, r, y', c', e, e1, e2, e3, e4⟩
          exact ⟨m, r, y', c', by omega, by simpa using e1, by simpa using e2, e3, e4⟩
      constructor
      · intro hj
        by_cases ha : rowAgrees row (env.iter c) zeros cut = true
        · rw [if_pos ha] at hj
          obtain ⟨m, r, y', c', e⟩ := hshift.1 hj
          exact ⟨m + 1, r, y', c', e⟩
        · rw [if_neg ha] at hj
          rcases List.mem_cons.1 hj with rfl | hj
          · exact ⟨0, row, y, c, by omega, by simp, by simp, ⟨h, h1, h2⟩, by simpa using ha⟩
          · obtain ⟨m, r, y', c', e⟩ := hshift.1 hj
            exact ⟨m + 1, r, y', c', e⟩
      · rintro ⟨m, r, y', c', e, e1, e2, e3, e4⟩
        cases m with
        | zero =>
          have er : row = r := by simpa using e1
          have ey : y = y' := by simpa using e2
          subst er ey
          have := LeadsTo.unique ⟨h, h1, h2⟩ e3
          subst this
          rw [e4]
          simp [e]
        | succ m =>
          have := hshift.2 ⟨m, r, y', c', e, e1, e2, e3, e4⟩
          by_cases ha : rowAgrees row (env.iter c) zeros cut = true
          · rw [if_pos ha]; exact this
          · rw [if_neg ha]; exact List.mem_cons_of_mem _ this

theorem checkLoop_key (env : PyEnv) (t : Tables) (zeros cut : Nat) : ∀ (rows : List (List ℚ)) (ys : List Nat) (i : Nat),
    rows.length = ys.length → (∃ y ∈ ys, ¬ ∃ c, LeadsTo t y c) → checkLoop env t zeros cut i rows ys = .error .key := by
  intro rows
  induction rows with
  | nil =>
    rintro ys i hl ⟨y, hy, _⟩
    cases ys with
    | nil => cases hy
    | cons => simp at hl
  | cons row rows ih =>
    rintro ys i hl ⟨y0, hy0, hn⟩
    cases ys with
    | nil => cases hy0
    | cons y ys =>
      simp only [checkLoop, lookupKey]
      cases h1 : dget t.indexToHash y with
      | none => rfl
      | some h =>
        dsimp only [bind, Except.bind]
        cases h2 : dget t.hashToNotes h with
        | none => rfl
        | some c =>
          dsimp only
          rw [ih ys (i + 1) (by simpa using hl)]
          rcases List.mem_cons.1 hy0 with rfl | hm
          · exact absurd ⟨c, h, h1, h2⟩ hn
          · exact ⟨y0, hm, hn⟩

/-! ### Selection by a mask -/

namespace Spec

/-- The elements at the positions where the mask is set, in order. -/
def selected {α : Type} (l : List α) (mask : List Bool) : List α :=
  ((l.zip mask).filter (fun p => p.2)).map (fun p => p.1)

end Spec

theorem selected_length {α : Type} : ∀ (l : List α) (mask : List Bool), l.length = mask.length →
    (selected l mask).length = mask.count true := by
  intro l
  induction l with
  | nil => intro mask h; cases mask with | nil => rfl | cons => simp at h
  | cons a l ih =>
    intro mask h
    cases mask with
    | nil => simp at h
    | cons b mask =>
      have := ih mask (by simpa using h)
      cases b <;> simp [selected] at this ⊢ <;> omega

theorem maskRows_eq {α : Type} (l : List α) (mask : List Bool) (h : l.length = mask.length) :
    maskRows l mask = .ok (selected l mask) := by
  unfold maskRows; rw [if_neg (by simpa using h)]; rfl

theorem selected_mem {α : Type} {l : List α} {mask : List Bool} {a : α} (h : a ∈ selected l mask) : a ∈ l := by
  unfold selected at h
  obtain ⟨p, hp, rfl⟩ := List.mem_map.1 h
  exact (List.of_mem_zip (List.mem_filter.1 hp).1).1

/-- Selecting from two lists keeps them aligned. -/
theorem selected_zip {α β : Type} : ∀ (l : List α) (r : List β) (mask : List Bool), l.length = mask.length → r.length = mask.length →
    ∀ (m : Nat) (a : α) (b : β), (selected l mask)[m]? = some a → (selected r mask)[m]? = some b →
      ∃ i : Nat, l[i]? = some a ∧ r[i]? = some b := by
  intro l
  induction l with
  | nil => intro r mask _ _ m a b h; simp [selected] at h
  | cons x l ih =>
    intro r mask h1 h2 m a b ha hb
    cases mask with
    | nil => simp at h1
    | cons q mask =>
      cases r with
      | nil => simp at h2
      | cons y r =>
        have h1' : l.length = mask.length := by simpa using h1
        have h2' : r.length = mask.length := by simpa using h2
        cases q with
        | false =>
          obtain ⟨i, e1, e2⟩ := ih r mask h1' h2' m a b (by simpa [selected] using ha) (by simpa [selected] using hb)
          exact ⟨i + 1, by simpa using e1, by simpa using e2⟩
        | true =>
          cases m with
          | zero =>
            refine ⟨0, ?_, ?_⟩
            · simpa [selected] using ha
            · simpa [selected] using hb
          | succ m =>
            obtain ⟨i, e1, e2⟩ := ih r mask h1' h2' m a b (by simpa [selected] using ha) (by simpa [selected] using hb)
            exact ⟨i + 1, by simpa using e1, by simpa using e2⟩

/-! ### Tables later -/

theorem register_notes_keep (env : PyEnv) (t : Tables) (c c' : Finset Int) (h : dget t.notesToHash c = some (env.hashSet c)) :
    dget (t.register env c').notesToHash c = some (env.hashSet c) := by
  have h1 : (t.register env c').notesToHash = dset t.notesToHash c' (env.hashSet c') := by
    unfold Tables.register
    dsimp only
    split <;> rfl
  rw [h1, dget_dset]
  split
  · next e => rw [e]
  · exact h

theorem register_notes_new (env : PyEnv) (t : Tables) (c : Finset Int) :
    dget (t.register env c).notesToHash c = some (env.hashSet c) := by
  have h1 : (t.register env c).notesToHash = dset t.notesToHash c (env.hashSet c) := by
    unfold Tables.register
    dsimp only
    split <;> rfl
  rw [h1, dget_dset_self]

theorem fold_notes_keep (env : PyEnv) (cs : List (Finset Int)) : ∀ (t : Tables) (c : Finset Int),
    dget t.notesToHash c = some (env.hashSet c) →
    dget (cs.foldl (fun t c => t.register env c) t).notesToHash c = some (env.hashSet c) := by
  induction cs with
  | nil => intro t c h; exact h
  | cons a cs ih => intro t c h; exact ih _ c (register_notes_keep env t c a h)

theorem fold_notes_mem (env : PyEnv) (cs : List (Finset Int)) : ∀ (t : Tables) (c : Finset Int), c ∈ cs →
    dget (cs.foldl (fun t c => t.register env c) t).notesToHash c = some (env.hashSet c) := by
  induction cs with
  | nil => intro t c h; cases h
  | cons a cs ih =>
    intro t c h
    rcases List.mem_cons.1 h with rfl | h
    · exact fold_notes_keep env cs _ c (register_notes_new env t c)
    · exact ih _ c h

theorem later_built (env : PyEnv) (t t' : Tables) (ht : Built env t) (h : LaterTables env t t') :
    Built env t' ∧ (∀ k i, dget t.hashToIndex k = some i → dget t'.hashToIndex k = some i) ∧
    ∀ c, dget t.notesToHash c = some (env.hashSet c) → dget t'.notesToHash c = some (env.hashSet c) := by
  induction h with
  | same => exact ⟨ht, fun _ _ h => h, fun _ h => h⟩
  | build s o g _ hb ih =>
    obtain ⟨i1, i2, i3⟩ := ih
    refine ⟨Built.step s o g i1 hb, fun k i hk => C49_index_stable env _ _ s o g _ i1 hb k i (i2 k i hk), ?_⟩
    intro c hc
    obtain ⟨cs, rfl⟩ := buildSequence_tables env _ s o g _ _ hb
    exact fold_notes_keep env cs _ c (i3 c hc)

theorem mapM_forall₂ {α β : Type} (f : α → Py β) : ∀ (l : List α) (r : List β), List.Forall₂ (fun a b => f a = .ok b) l r →
    l.mapM f = .ok r := by
  intro l r h
  induction h with
  | nil => rfl
  | cons h1 _ ih => rw [List.mapM_cons, h1, ih]; rfl

theorem labelGraph_indices (t : Tables) (d : PygData) (ys : List Nat)
    (h : List.Forall₂ (fun k l => dget t.hashToIndex k = some l) d.nodeHash ys) :
    labelGraph t false d = .ok { d with label := some ys, y := some ys } := by
  unfold labelGraph
  rw [mapM_forall₂ _ _ _ (h.imp (fun a b hab => by rw [hab]))]
  rfl

/-! ### C190 -/

/-- **C190.** What the check reports, for any data whose rows have the given width and whose labels lead to chords of at
most that many pitches: exactly the selected rows that are not the pitches of their chord filled up with zeros, and, when
fewer rows are selected than zeros are needed, the rows that need more zeros than there are rows. -/
theorem C190_reported (env : PyEnv) (henv : env.IterOk) (t : Tables) (width : Nat) (x : List (List ℚ)) (y : List Nat)
    (mask : List Bool) (hx : x.length = mask.length) (hy : y.length = mask.length) (hw : ∀ r ∈ x, r.length = width)
    (hc : ∀ l ∈ selected y mask, ∃ c, LeadsTo t l c ∧ c.card ≤ width) :
    ∃ bad, smallGraphCheck env t width x y mask = .ok bad ∧
      ∀ m, m ∈ bad ↔ ∃ row l c, (selected x mask)[m]? = some row ∧ (selected y mask)[m]? = some l ∧ LeadsTo t l c ∧
        ¬ (RowOf width c row ∧ width ≤ c.card + mask.count true) := by
  obtain ⟨bad, hb, hbad⟩ := checkLoop_ok env t (selected x mask).length width (selected x mask) (selected y mask) 0
    (by rw [selected_length _ _ hx, selected_length _ _ hy]) (fun l hl => (hc l hl).imp (fun _ h => h.1))
  refine ⟨bad, ?_, ?_⟩
  · unfold smallGraphCheck reverseCheck
    rw [maskRows_eq x mask hx, maskRows_eq y mask hy]
    exact hb
  · intro m
    rw [hbad]
    have key : ∀ row l c, (selected x mask)[m]? = some row → (selected y mask)[m]? = some l → LeadsTo t l c →
        (rowAgrees row (env.iter c) (selected x mask).length width = false ↔
          ¬ (RowOf width c row ∧ width ≤ c.card + mask.count true)) := by
      intro row l c h1 h2 h3
      obtain ⟨c', h4, h5⟩ := hc l (List.mem_of_getElem? h2)
      have := LeadsTo.unique h3 h4
      subst this
      rw [← Bool.not_eq_true, rowAgrees_iff env henv row c _ width h5 (hw row (selected_mem (List.mem_of_getElem? h1))),
        selected_length _ _ hx, and_comm]
    constructor
    · rintro ⟨m', row, l, c, e, h1, h2, h3, h4⟩
      have : m' = m := by omega
      subst this
      exact ⟨row, l, c, h1, h2, h3, (key row l c h1 h2 h3).1 h4⟩
    · rintro ⟨row, l, c, h1, h2, h3, h4⟩
      exact ⟨m, row, l, c, by omega, h1, h2, h3, (key row l c h1 h2 h3).2 h4⟩

/-- **C190, errors.** A selected label that leads nowhere raises KeyError; a mask of another length than the data, that
is the mask of the first graph with the data of several graphs, raises IndexError. -/
theorem C190_raises (env : PyEnv) (t : Tables) (width : Nat) (x : List (List ℚ)) (y : List Nat) (mask : List Bool) :
    (x.length = mask.length → y.length = mask.length → (∃ l ∈ selected y mask, ¬ ∃ c, LeadsTo t l c) →
      smallGraphCheck env t width x y mask = .error .key ∧ sanityCheck env t x y mask = .error .key ∧
        fiveCheck env t x y mask = .error .key) ∧
    (x.length ≠ mask.length →
      smallGraphCheck env t width x y mask = .error .index ∧ sanityCheck env t x y mask = .error .index ∧
        fiveCheck env t x y mask = .error .index) := by
  constructor
  · intro hx hy hn
    have hl : (selected x mask).length = (selected y mask).length := by
      rw [selected_length _ _ hx, selected_length _ _ hy]
    unfold smallGraphCheck sanityCheck fiveCheck reverseCheck
    rw [maskRows_eq x mask hx, maskRows_eq y mask hy]
    exact ⟨checkLoop_key env t _ _ _ _ 0 hl hn, checkLoop_key env t _ _ _ _ 0 hl hn, checkLoop_key env t _ _ _ _ 0 hl hn⟩
  · intro hx
    have : maskRows x mask = .error .index := by unfold maskRows; rw [if_pos hx]
    unfold smallGraphCheck sanityCheck fiveCheck reverseCheck
    rw [this]
    exact ⟨rfl, rfl, rfl⟩

/-- All rows reported when the length compared is not the width. -/
theorem all_reported (env : PyEnv) (henv : env.IterOk) (t : Tables) (zeros cut : Nat → Nat) (width : Nat) (x : List (List ℚ)) (y : List Nat)
    (mask : List Bool) (hx : x.length = mask.length) (hy : y.length = mask.length) (hw : ∀ r ∈ x, r.length = width)
    (hc : ∀ l ∈ selected y mask, ∃ c, LeadsTo t l c)
    (hne : ∀ c : Finset Int, width ≠ min (cut (mask.count true)) (c.card + zeros (mask.count true))) :
    ∃ bad, reverseCheck env t zeros cut x y mask = .ok bad ∧ ∀ m, m ∈ bad ↔ m < mask.count true := by
  have hlx := selected_length x mask hx
  have hly := selected_length y mask hy
  obtain ⟨bad, hb, hbad⟩ := checkLoop_ok env t (zeros (selected x mask).length) (cut (selected x mask).length)
    (selected x mask) (selected y mask) 0 (by rw [hlx, hly]) hc
  refine ⟨bad, ?_, ?_⟩
  · unfold reverseCheck
    rw [maskRows_eq x mask hx, maskRows_eq y mask hy]
    exact hb
  · intro m
    rw [hbad]
    constructor
    · rintro ⟨m', row, l, c, e, h1, _⟩
      have := (List.getElem?_eq_some_iff.1 h1).1
      omega
    · intro hm
      have h1 : (selected x mask)[m]? = some ((selected x mask)[m]'(by omega)) := List.getElem?_eq_getElem _
      have h2 : (selected y mask)[m]? = some ((selected y mask)[m]'(by omega)) := List.getElem?_eq_getElem _
      obtain ⟨c, h3⟩ := hc _ (List.mem_of_getElem? h2)
      refine ⟨m, _, _, c, by omega, h1, h2, h3, rowAgrees_short env _ _ _ _ ?_⟩
      rw [hw _ (selected_mem (List.mem_of_getElem? h1)), iter_length env henv, hlx]
      exact hne c

/-- **C190, the checks with a fixed length.** `index_checker` cuts at five and the sanity checker of the dataset at the
number of selected rows: unless the features have five entries, respectively as many entries as rows are selected, they
report every selected row, however good the data. -/
theorem C190_false_alarms (env : PyEnv) (henv : env.IterOk) (t : Tables) (width : Nat) (x : List (List ℚ)) (y : List Nat)
    (mask : List Bool) (hx : x.length = mask.length) (hy : y.length = mask.length) (hw : ∀ r ∈ x, r.length = width)
    (hc : ∀ l ∈ selected y mask, ∃ c, LeadsTo t l c) :
    (width ≠ 5 → ∃ bad, fiveCheck env t x y mask = .ok bad ∧ ∀ m, m ∈ bad ↔ m < mask.count true) ∧
    (width ≠ mask.count true → ∃ bad, sanityCheck env t x y mask = .ok bad ∧ ∀ m, m ∈ bad ↔ m < mask.count true) := by
  constructor
  · intro h5
    exact all_reported env henv t _ _ width x y mask hx hy hw hc (fun c => by omega)
  · intro h5
    exact all_reported env henv t _ _ width x y mask hx hy hw hc (fun c => by omega)

/-- **C190, round trip.** For every graph built from a fresh start with tensor features and no velocities, after any
further builds with the same builder, whenever no two recorded chords share a hash: converting and labelling succeed,
every row has the requested width, every label leads to a chord of at most that many pitches, and its row lists exactly
the pitches of that chord, filled up with zeros. So the check, for every mask that selects at least as many rows as the
width, reports nothing. The set may be iterated in another order than when the graph was built. -/
theorem C190_round_trip (env env' : PyEnv) (henv : env.IterOk) (henv' : env'.IterOk) (t : Tables) (ht : Built env t) (s : MSeq)
    (o : BuildOpts) (t' : Tables) (g' : MGraph) (hv : o.velocity = false) (hty : o.ty = .tensor)
    (h : buildSequence env t s o none = .ok (t', g')) (t'' : Tables) (hl : LaterTables env t' t'')
    (hinj : ∀ c c', dget t''.notesToHash c ≠ none → dget t''.notesToHash c' ≠ none → env.hashSet c = env.hashSet c' → c = c') :
    ∃ d rows ys, fromNetworkx g' = .ok d ∧ d.attrs = rows.map Tens.vec ∧ rows.length = g'.nodes.length ∧
      ys.length = g'.nodes.length ∧ (∀ r ∈ rows, r.length = o.size.toNat) ∧
      labelGraph t'' false d = .ok { d with label := some ys, y := some ys } ∧
      (∀ (i : Nat) (row : List ℚ) (l : Nat), rows[i]? = some row → ys[i]? = some l →
        ∃ c, LeadsTo t'' l c ∧ c.Nonempty ∧ c.card ≤ o.size.toNat ∧ RowOf o.size.toNat c row) ∧
      ∀ mask, mask.length = g'.nodes.length → o.size.toNat ≤ mask.count true →
        smallGraphCheck env' t'' o.size.toNat rows ys mask = .ok [] := by
  obtain ⟨ho, data, m, hd, _⟩ := buildSequence_fresh env t s o t' g' h
  obtain ⟨⟨last, inv⟩, hn, htab⟩ := build_inv env t s o t' g' data m h hd
  have hbt' : Built env t' := Built.step s o none ht h
  obtain ⟨hbt, hidx, hnotes⟩ := later_built env t' t'' hbt' hl
  have htinv := built_inv env t'' hbt
  have hnd : (dkeys g'.nodes).Nodup := by rw [inv.nodes_eq]; exact firstSeen_nodup _
  have hsize : 0 < o.size.toNat := by
    unfold BuildOpts.ok at ho
    simp only [Bool.and_eq_true, decide_eq_true_eq] at ho
    omega
  -- every node
  have node : ∀ p ∈ g'.nodes, p.2.nodeHash = some p.1 ∧ ∃ (row : List ℚ) (l : Nat), p.2.attr = some (.vec row) ∧
      row.length = o.size.toNat ∧ dget t''.hashToIndex p.1 = some l ∧
      ∃ c, LeadsTo t'' l c ∧ c.Nonempty ∧ c.card ≤ o.size.toNat ∧ RowOf o.size.toNat c row := by
    rintro ⟨k, a⟩ hp
    have ha := dget_of_mem _ hnd k a hp
    obtain ⟨h1, _, hi, _⟩ := C50_complete env t ht s o t' g' h k a ha
    obtain ⟨_, _, ⟨ns, c⟩, hpc, hk, vel, x, hx, hnone, _, hten⟩ := hn k a ha
    obtain ⟨ns', hns, hc⟩ := List.mem_flatMap.1 hpc
    obtain ⟨c', hc, he⟩ := List.mem_map.1 hc
    cases he
    obtain ⟨hne, _, _⟩ := group_of_key env s o.tol o.filterSingle true data m hd ns hns
    obtain ⟨g1, _, _, _⟩ := C54_split env henv o.size.toNat hsize ns hne
    obtain ⟨hcn, hcc⟩ := g1 c hc
    obtain ⟨l, hl0⟩ := hi
    have hl1 := hidx k l hl0
    have hlen := iter_length env henv c
    have hv0 : vel = none := hnone hv
    subst hv0
    rw [hty] at hten
    unfold createTensor at hten
    dsimp only at hten
    have hxe := Except.ok.inj hten
    have hpad : padTo o.size.toNat (((env.iter c).map (fun x : Int => (x : ℚ))).take o.size.toNat) =
        (env.iter c).map (fun p : Int => (p : ℚ)) ++ List.replicate (o.size.toNat - c.card) 0 := by
      unfold padTo
      rw [List.take_of_length_le (by rw [List.length_map, hlen]; exact hcc), List.length_map, hlen]
    rw [hpad] at hxe
    have hreg : dget t''.notesToHash c = some (env.hashSet c) := by
      apply hnotes
      rw [htab]
      apply fold_notes_mem
      exact List.mem_flatMap.2 ⟨ns, hns, hc⟩
    have hih : dget t''.indexToHash l = some k := ((C49_index_bijection env t'' hbt).1 k l).1 hl1
    obtain ⟨cs, hcs⟩ := ((C49_index_bijection env t'' hbt).2.1 k).1 ⟨l, hl1⟩
    obtain ⟨hh1, hh2⟩ := htinv.h2n k cs hcs
    have hcc' : cs = c := hinj cs c (by rw [hh2]; simp) (by rw [hreg]; simp) (hh1.trans hk.symm)
    subst hcc'
    refine ⟨h1, _, l, by rw [hx, ← hxe], ?_, hl1, cs, ⟨k, hih, hcs⟩, hcn, hcc, env.iter cs, (henv cs).1, (henv cs).2, List.Perm.refl _⟩
    rw [List.length_append, List.length_map, hlen, List.length_replicate]
    omega
  have lists : ∀ l : List (Int × NodeAttr), (∀ p ∈ l, p ∈ g'.nodes) →
      ∃ (rows : List (List ℚ)) (ys : List Nat), l.mapM (fun p => needAttr p.2.nodeHash) = .ok (l.map (·.1)) ∧
        l.mapM (fun p => needAttr p.2.attr) = .ok (rows.map Tens.vec) ∧ rows.length = l.length ∧ ys.length = l.length ∧
        (∀ r ∈ rows, r.length = o.size.toNat) ∧
        List.Forall₂ (fun k l => dget t''.hashToIndex k = some l) (l.map (·.1)) ys ∧
        (∀ (i : Nat) (row : List ℚ) (l : Nat), rows[i]? = some row → ys[i]? = some l →
          ∃ c, LeadsTo t'' l c ∧ c.Nonempty ∧ c.card ≤ o.size.toNat ∧ RowOf o.size.toNat c row) := by
    intro l
    induction l with
    | nil => intro _; exact ⟨[], [], rfl, rfl, rfl, rfl, by simp, List.Forall₂.nil, by simp⟩
    | cons p l ih =>
      intro hp
      obtain ⟨rows, ys, e1, e2, e3, e4, e5, e6, e7⟩ := ih (fun q hq => hp q (List.mem_cons_of_mem _ hq))
      obtain ⟨n1, row, lab, n2, n3, n4, n5⟩ := node p (hp p (by simp))
      refine ⟨row :: rows, lab :: ys, ?_, ?_, by simp [e3], by simp [e4], ?_, ?_, ?_⟩
      · rw [List.mapM_cons, e1, n1]; rfl
      · rw [List.mapM_cons, e2, n2]; rfl
      · intro r hr
        rcases List.mem_cons.1 hr with rfl | hr
        · exact n3
        · exact e5 r hr
      · exact List.Forall₂.cons n4 e6
      · intro i r lb hr hlb
        cases i with
        | zero =>
          simp only [List.getElem?_cons_zero, Option.some.injEq] at hr hlb
          subst hr hlb
          exact n5
        | succ i =>
          simp only [List.getElem?_cons_succ] at hr hlb
          exact e7 i r lb hr hlb
  obtain ⟨rows, ys, e1, e2, e3, e4, e5, e6, e7⟩ := lists g'.nodes (fun p hp => hp)
  refine ⟨_, rows, ys, by unfold fromNetworkx; rw [e1, e2]; rfl, rfl, e3, e4, e5, ?_, e7, ?_⟩
  · exact labelGraph_indices t'' _ ys e6
  · intro mask hm hcount
    have hx : rows.length = mask.length := by rw [e3, hm]
    have hy : ys.length = mask.length := by rw [e4, hm]
    have hlab : ∀ (m : Nat) (row : List ℚ) (l : Nat), (selected rows mask)[m]? = some row → (selected ys mask)[m]? = some l →
        ∃ c, LeadsTo t'' l c ∧ c.Nonempty ∧ c.card ≤ o.size.toNat ∧ RowOf o.size.toNat c row := by
      intro m row l h1 h2
      obtain ⟨i, g1, g2⟩ := selected_zip rows ys mask hx hy m row l h1 h2
      exact e7 i row l g1 g2
    obtain ⟨bad, hb, hbad⟩ := C190_reported env' henv' t'' o.size.toNat rows ys mask hx hy e5 (by
      intro l hl
      obtain ⟨m, hm', hml⟩ := List.mem_iff_getElem.1 hl
      have h2 : (selected ys mask)[m]? = some l := by rw [List.getElem?_eq_getElem hm', hml]
      have hlt : m < (selected rows mask).length := by
        rw [selected_length _ _ hx]; rw [selected_length _ _ hy] at hm'; exact hm'
      obtain ⟨c, c1, _, c3, _⟩ := hlab m _ l (List.getElem?_eq_getElem hlt) h2
      exact ⟨c, c1, c3⟩)
    rw [hb]
    have : bad = [] := by
      apply List.eq_nil_iff_forall_not_mem.2
      intro m hm
      obtain ⟨row, l, c, h1, h2, h3, h4⟩ := (hbad m).1 hm
      obtain ⟨c', g1, _, _, g4⟩ := hlab m row l h1 h2
      have := LeadsTo.unique h3 g1
      subst this
      exact h4 ⟨g4, by omega⟩
    rw [this]

/-- Three chords, width 3. -/
example : (do
    let r ← buildSequence exEnv Tables.empty exWhole { size := 3 } none
    let d ← fromNetworkx r.2
    let g ← labelGraph r.1 false d
    .ok (g.attrs, g.y) : Py _) = .ok ([.vec [0, 0, 0], .vec [1, 0, 0], .vec [2, 0, 0]], some [1, 2, 3]) := by decide +kernel

/-- The check on these rows: nothing with all rows selected; with one row too few zeros are added. -/
example : (do
    let r ← buildSequence exEnv Tables.empty exWhole { size := 3 } none
    let a ← smallGraphCheck exEnv r.1 3 [[0, 0, 0], [0, 1, 0], [2, 0, 0]] [1, 2, 3] [true, true, true]
    let b ← smallGraphCheck exEnv r.1 3 [[0, 0, 0], [0, 1, 0], [2, 0, 0]] [1, 2, 3] [true, false, false]
    let c ← smallGraphCheck exEnv r.1 3 [[0, 0, 0], [0, 1, 1], [2, 0, 0]] [1, 2, 3] [true, true, true]
    let e ← sanityCheck exEnv r.1 [[0, 0, 0], [0, 1, 0], [2, 0, 0]] [1, 2, 3] [true, true, false]
    let f ← fiveCheck exEnv r.1 [[0, 0, 0], [0, 1, 0], [2, 0, 0]] [1, 2, 3] [true, true, false]
    .ok (a, b, c, e, f) : Py _) = .ok ([], [0], [1], [0, 1], [0, 1]) := by decide +kernel

/-! ### C191 -/

namespace Spec

/-- A graph as a builder hands it out: built from a fresh start, converted, and labelled then or after further builds. -/
def HandedOut (env : PyEnv) (g : PygData) : Prop :=
  ∃ t s o t' g' d t'', Built env t ∧ buildSequence env t s o none = .ok (t', g') ∧ fromNetworkx g' = .ok d ∧
    LaterTables env t' t'' ∧ labelGraph t'' false d = .ok g

/-- The labels of a graph; none when it has not been labelled. -/
def labelsOf (g : PygData) : List Nat := g.label.getD []

end Spec

theorem getItem_nat (d : IndexedData) (i : Nat) :
    d.getItem i = (match d.items[i]? with | some g => .ok g | none => .error .index, { d with current := i }) := by
  unfold IndexedData.getItem
  dsimp only
  rw [if_neg (by omega), if_neg (by omega), Int.toNat_natCast]
  cases d.items[i]? <;> rfl

theorem statLoop_run (items : List PygData) (hlab : ∀ g ∈ items, g.label ≠ none) : ∀ (k : Nat) (i : Nat) (cur : Int) (s : DataStats),
    i + k = items.length →
    statLoop (k + 1) i ⟨items, cur⟩ s =
      (.ok ⟨s.nodes + ((items.drop i).map (fun g => g.nodeHash.length)).sum, s.edges + ((items.drop i).map (fun g => g.edgeIndex.length)).sum,
        s.labels + ((items.drop i).map (fun g => (labelsOf g).toFinset.card)).sum⟩, ⟨items, items.length⟩) := by
  intro k
  induction k with
  | zero =>
    intro i cur s h
    have hi : i = items.length := by omega
    subst hi
    simp only [statLoop]
    rw [getItem_nat]
    simp
  | succ k ih =>
    intro i cur s h
    have hlt : i < items.length := by omega
    have hg : items[i]? = some items[i] := List.getElem?_eq_getElem hlt
    obtain ⟨l, hl⟩ := Option.ne_none_iff_exists'.1 (hlab items[i] (List.getElem_mem hlt))
    rw [statLoop, getItem_nat]
    dsimp only
    rw [hg]
    dsimp only
    have hstep : statStep s items[i] = .ok ⟨s.nodes + items[i].nodeHash.length, s.edges + items[i].edgeIndex.length, s.labels + l.dedup.length⟩ := by
      unfold statStep; rw [hl]
    rw [hstep]
    dsimp only
    have := ih (i + 1) (i : Int) ⟨s.nodes + items[i].nodeHash.length, s.edges + items[i].edgeIndex.length, s.labels + l.dedup.length⟩ (by omega)
    push_cast at this
    rw [this, List.drop_eq_getElem_cons hlt]
    have hl' : (labelsOf items[i]).toFinset.card = l.dedup.length := by
      unfold labelsOf; rw [hl, List.card_toFinset]; rfl
    simp only [List.map_cons, List.sum_cons, hl']
    congr 2
    · simp only [DataStats.mk.injEq]; omega

/-- **C191.** `compute_statistics` of a dataset whose graphs are labelled returns the total number of nodes, the total
number of edges, and the sum over the graphs of the number of different labels of each; the graphs are unchanged, but the
dataset afterwards names its number of graphs as the current graph, which is the index of none. -/
theorem C191_sums (d : IndexedData) (hlab : ∀ g ∈ d.items, g.label ≠ none) :
    d.statistics = (.ok ⟨(d.items.map (fun g => g.nodeHash.length)).sum, (d.items.map (fun g => g.edgeIndex.length)).sum,
      (d.items.map (fun g => (labelsOf g).toFinset.card)).sum⟩, { d with current := d.items.length }) := by
  obtain ⟨items, cur⟩ := d
  have := statLoop_run items hlab items.length 0 cur ⟨0, 0, 0⟩ (by simp)
  unfold IndexedData.statistics
  rw [Int.natCast_zero] at this
  rw [this]
  simp

/-- **C191, an unlabelled graph.** If graph `k` is the first one without labels, `compute_statistics` raises AttributeError there, and `k` is
the current graph afterwards. -/
theorem C191_unlabelled (d : IndexedData) (k : Nat) (hk : k < d.items.length) (hno : d.items[k].label = none)
    (hbefore : ∀ j : Nat, ∀ h : j < k, (d.items[j]'(by omega)).label ≠ none) :
    d.statistics = (.error .attribute, { d with current := k }) := by
  obtain ⟨items, cur⟩ := d
  dsimp only at hk hno hbefore ⊢
  have run : ∀ (m i : Nat) (fuel : Nat) (cur : Int) (s : DataStats), i + m = k → m < fuel →
      statLoop fuel i ⟨items, cur⟩ s = (.error .attribute, ⟨items, k⟩) := by
    intro m
    induction m with
    | zero =>
      intro i fuel cur s hi hf
      obtain ⟨f, rfl⟩ : ∃ f, fuel = f + 1 := ⟨fuel - 1, by omega⟩
      have hik : i = k := by omega
      subst hik
      have hg : items[i]? = some items[i] := List.getElem?_eq_getElem hk
      rw [statLoop, getItem_nat]
      dsimp only
      rw [hg]
      dsimp only
      have hstep : statStep s items[i] = .error .attribute := by unfold statStep; rw [hno]
      rw [hstep]
    | succ m ih =>
      intro i fuel cur s hi hf
      obtain ⟨f, rfl⟩ : ∃ f, fuel = f + 1 := ⟨fuel - 1, by omega⟩
      have hlt : i < items.length := by omega
      have hg : items[i]? = some items[i] := List.getElem?_eq_getElem hlt
      obtain ⟨l, hl⟩ := Option.ne_none_iff_exists'.1 (hbefore i (by omega))
      rw [statLoop, getItem_nat]
      dsimp only
      rw [hg]
      dsimp only
      have hstep : statStep s items[i] = .ok ⟨s.nodes + items[i].nodeHash.length, s.edges + items[i].edgeIndex.length, s.labels + l.dedup.length⟩ := by
        unfold statStep; rw [hl]
      rw [hstep]
      dsimp only
      have := ih (i + 1) f (i : Int) ⟨s.nodes + items[i].nodeHash.length, s.edges + items[i].edgeIndex.length, s.labels + l.dedup.length⟩
        (by omega) (by omega)
      push_cast at this
      exact this
  have := run k 0 (items.length + 1) cur ⟨0, 0, 0⟩ (by omega) (by omega)
  exact this

theorem card_sum (l : List (Finset Nat)) :
    (l.foldr (· ∪ ·) ∅).card ≤ (l.map Finset.card).sum ∧
    ((l.foldr (· ∪ ·) ∅).card = (l.map Finset.card).sum ↔ l.Pairwise (fun a b => Disjoint a b)) := by
  induction l with
  | nil => simp
  | cons a l ih =>
    obtain ⟨h1, h2⟩ := ih
    have hmem : ∀ x, x ∈ l.foldr (· ∪ ·) ∅ ↔ ∃ b ∈ l, x ∈ b := by
      intro x
      clear h1 h2
      induction l with
      | nil => simp
      | cons b l ih => rw [List.foldr_cons, Finset.mem_union, ih]; simp
    have hu := Finset.card_union_add_card_inter a (l.foldr (· ∪ ·) ∅)
    rw [List.foldr_cons, List.map_cons, List.sum_cons]
    refine ⟨by omega, ?_⟩
    rw [List.pairwise_cons, ← h2]
    constructor
    · intro h
      have h0 : (a ∩ l.foldr (· ∪ ·) ∅).card = 0 := by omega
      have hd : Disjoint a (l.foldr (· ∪ ·) ∅) := Finset.disjoint_iff_inter_eq_empty.2 (Finset.card_eq_zero.1 h0)
      refine ⟨?_, by omega⟩
      intro b hb
      rw [Finset.disjoint_left] at hd ⊢
      intro x hx hxb
      exact hd hx ((hmem x).2 ⟨b, hb, hxb⟩)
    · rintro ⟨h3, h4⟩
      have hd : Disjoint a (l.foldr (· ∪ ·) ∅) := by
        rw [Finset.disjoint_left]
        intro x hx hxu
        obtain ⟨b, hb, hxb⟩ := (hmem x).1 hxu
        exact (Finset.disjoint_left.1 (h3 b hb)) hx hxb
      rw [Finset.card_union_of_disjoint hd]
      omega

theorem labels_union (items : List PygData) :
    (items.flatMap labelsOf).toFinset = (items.map (fun g => (labelsOf g).toFinset)).foldr (· ∪ ·) ∅ := by
  induction items with
  | nil => rfl
  | cons g items ih => rw [List.flatMap_cons, List.toFinset_append, List.map_cons, List.foldr_cons, ih]

/-- **C191, labels counted more than once.** The reported number of labels is at least the number of different labels in
the dataset, and equal to it exactly when no label occurs in two graphs. -/
theorem C191_labels (d : IndexedData) (hlab : ∀ g ∈ d.items, g.label ≠ none) :
    ∃ s d', d.statistics = (.ok s, d') ∧ (d.items.flatMap labelsOf).toFinset.card ≤ s.labels ∧
      ((d.items.flatMap labelsOf).toFinset.card = s.labels ↔
        d.items.Pairwise (fun g h => ∀ l ∈ labelsOf g, l ∉ labelsOf h)) := by
  refine ⟨_, _, C191_sums d hlab, ?_, ?_⟩
  · have := (card_sum (d.items.map (fun g => (labelsOf g).toFinset))).1
    rw [← labels_union, List.map_map] at this
    exact this
  · have := (card_sum (d.items.map (fun g => (labelsOf g).toFinset))).2
    rw [← labels_union, List.map_map] at this
    refine this.trans ?_
    rw [List.pairwise_map]
    constructor
    · intro h
      refine h.imp ?_
      intro a b hab l hl hl'
      exact Finset.disjoint_left.1 hab (List.mem_toFinset.2 hl) (List.mem_toFinset.2 hl')
    · intro h
      refine h.imp ?_
      intro a b hab
      rw [Finset.disjoint_left]
      intro l hl hl'
      exact hab l (List.mem_toFinset.1 hl) (List.mem_toFinset.1 hl')

theorem handedOut_labels (env : PyEnv) (g : PygData) (h : HandedOut env g) :
    ∃ l, g.label = some l ∧ l.Nodup ∧ l.length = g.nodeHash.length := by
  obtain ⟨t, s, o, t', g', d, t'', ht, hb, hd, hl, hg⟩ := h
  obtain ⟨d', hd', hnh, _⟩ := C89_conversion env t s o t' g' hb
  rw [hd] at hd'; cases hd'
  obtain ⟨_, data, m, hc, _⟩ := buildSequence_fresh env t s o t' g' hb
  obtain ⟨⟨last, inv⟩, hn, htab⟩ := build_inv env t s o t' g' data m hb hc
  have hnd : (dkeys g'.nodes).Nodup := by rw [inv.nodes_eq]; exact firstSeen_nodup _
  have hbt' : Built env t' := Built.step s o none ht hb
  obtain ⟨hbt, hidx, _⟩ := later_built env t' t'' hbt' hl
  have hex : ∀ ks : List Int, (∀ k ∈ ks, k ∈ dkeys g'.nodes) → ∃ ys, List.Forall₂ (fun k l => dget t''.hashToIndex k = some l) ks ys := by
    intro ks
    induction ks with
    | nil => intro _; exact ⟨[], .nil⟩
    | cons k ks ih =>
      intro hk
      obtain ⟨ys, hys⟩ := ih (fun q hq => hk q (List.mem_cons_of_mem _ hq))
      obtain ⟨a, ha⟩ := dget_isSome_of_mem _ k (hk k (by simp))
      obtain ⟨_, _, ⟨i, hi⟩, _⟩ := C50_complete env t ht s o t' g' hb k a ha
      exact ⟨i :: ys, .cons (hidx k i hi) hys⟩
  obtain ⟨ys, hys⟩ := hex d.nodeHash (fun k hk => hnh ▸ hk)
  have hrun := labelGraph_indices t'' d ys hys
  rw [hg] at hrun
  cases hrun
  refine ⟨ys, rfl, ?_, hys.length_eq.symm⟩
  rw [← hnh] at hnd
  clear hg hd
  generalize d.nodeHash = ks at hnd hys
  induction hys with
  | nil => exact List.nodup_nil
  | cons h1 h2 ih =>
    rename_i k l ks ys
    rw [List.nodup_cons] at hnd ⊢
    refine ⟨?_, ih hnd.2⟩
    intro hl
    obtain ⟨j, hj, he⟩ := List.mem_iff_getElem.1 hl
    have hlen := h2.length_eq
    have hk := List.forall₂_iff_get.1 h2 |>.2 j (by omega) hj
    simp only [List.get_eq_getElem] at hk
    rw [he] at hk
    have e1 := ((C49_index_bijection env t'' hbt).1 _ _).1 hk
    have e2 := ((C49_index_bijection env t'' hbt).1 _ _).1 h1
    rw [e1] at e2
    have := Option.some.inj e2
    exact hnd.1 (this ▸ List.getElem_mem _)

/-- **C191, what the number of labels is.** For every dataset of graphs that builders handed out, the reported number of
labels is just the number of nodes: within a graph no two nodes share a label. -/
theorem C191_labels_are_nodes (env : PyEnv) (d : IndexedData) (h : ∀ g ∈ d.items, HandedOut env g) :
    ∃ s d', d.statistics = (.ok s, d') ∧ s.labels = s.nodes ∧ s.nodes = (d.items.map (fun g => g.nodeHash.length)).sum := by
  have hlab : ∀ g ∈ d.items, g.label ≠ none := by
    intro g hg e
    obtain ⟨l, hl, _⟩ := handedOut_labels env g (h g hg)
    rw [hl] at e; cases e
  refine ⟨_, _, C191_sums d hlab, ?_, rfl⟩
  dsimp only
  congr 1
  apply List.map_congr_left
  intro g hg
  obtain ⟨l, hl, hn, hlen⟩ := handedOut_labels env g (h g hg)
  unfold labelsOf
  rw [hl, Option.getD_some, List.toFinset_card_of_nodup hn, hlen]

/-- **C191, the current graph.** After asking for a graph by any index, in range or not, `get_graph_id` is that index; the
answer is the graph at that position, negative indices counting from the end, and IndexError outside. -/
theorem C191_graph_id (d : IndexedData) (i : Int) :
    (d.getItem i).2 = { d with current := i } ∧
    (∀ j : Nat, j < d.items.length → (i = j ∨ i = (j : Int) - d.items.length) → ∃ g, d.items[j]? = some g ∧ (d.getItem i).1 = .ok g) ∧
    (i < -(d.items.length : Int) ∨ (d.items.length : Int) ≤ i → (d.getItem i).1 = .error .index) := by
  unfold IndexedData.getItem
  dsimp only
  refine ⟨?_, ?_, ?_⟩
  · generalize (if i < 0 then i + (d.items.length : Int) else i) = j
    split_ifs
    · rfl
    · cases d.items[j.toNat]? <;> rfl
  · intro j hj hi
    have hg : d.items[j]? = some d.items[j] := List.getElem?_eq_getElem hj
    have hij : (if i < 0 then i + (d.items.length : Int) else i) = j := by split_ifs <;> omega
    rw [hij, if_neg (by omega), Int.toNat_natCast, hg]
    exact ⟨_, rfl, rfl⟩
  · intro hi
    by_cases h0 : (if i < 0 then i + (d.items.length : Int) else i) < 0
    · rw [if_pos h0]
    · rw [if_neg h0]
      have : d.items[(if i < 0 then i + (d.items.length : Int) else i).toNat]? = none := by
        rw [List.getElem?_eq_none_iff]
        split_ifs at h0 ⊢ <;> omega
      rw [this]

/-- Two handed-out copies of the same three-chord tune: 6 nodes, 6 labels reported, 3 labels in the dataset. -/
def exTwice : Py IndexedData := do
  let r ← buildSequence exEnv Tables.empty exWhole { size := 3 } none
  let d ← fromNetworkx r.2
  let g ← labelGraph r.1 false d
  .ok ⟨[g, g], 0⟩

example : exTwice.map (fun d => (d.statistics.1.map (fun s => (s.nodes, s.labels)), d.statistics.2.current,
    (d.items.flatMap labelsOf).toFinset.card)) = .ok (.ok (6, 6), 2, 3) := by decide +kernel

/-- The same dataset with the labels of its second graph removed: AttributeError at graph 1. -/
example : exTwice.map (fun d =>
    let e : IndexedData := { d with items := d.items.take 1 ++ (d.items.drop 1).map (fun g => { g with label := none }) }
    (e.statistics.1.map (fun s => s.nodes), e.statistics.2.current, e.items.map (fun g => g.label.isNone))) =
      .ok (.error .attribute, 1, [false, true]) := by decide +kernel

end NGC
