import Verif.OneHot
import Verif.GraphProps2
import Mathlib.Tactic.Linarith

/-!
C75: one-hot encodings.
-/

namespace NGC

theorem wrapIdx_lt {n : Nat} {i : Int} {k : Nat} (h : wrapIdx n i = .ok k) : k < n := by
  unfold wrapIdx at h
  split at h
  · cases h; omega
  · split at h
    · cases h; omega
    · cases h

theorem wrapIdx_emod {n : Nat} {i : Int} {k : Nat} (h : wrapIdx n i = .ok k) : (k : Int) = i % n := by
  unfold wrapIdx at h
  split at h
  · rename_i hi
    cases h
    rw [Int.emod_eq_of_lt hi.1 hi.2]
    omega
  · split at h
    · rename_i hi
      cases h
      have : i % n = i + n := by
        rw [← Int.add_emod_right, Int.emod_eq_of_lt (by omega) (by omega)]
      omega
    · cases h

/-- C75 (rows): `np_onehot` succeeds exactly when every index lies between `-depth` and `depth - 1`,
otherwise IndexError; row `j` then has `depth` entries, a one at position `index mod depth` and zeros
elsewhere. For non-negative indices the position is the index, so decoding recovers it. -/
theorem C75_onehot (depth : Nat) (is : List Int) :
    ((∀ i ∈ is, -(depth : Int) ≤ i ∧ i < depth) →
      ∃ rows, npOnehot depth is = .ok rows ∧ rows.length = is.length ∧
        ∀ (j : Nat) (i : Int), is[j]? = some i → ∃ row : List Nat, rows[j]? = some row ∧ row.length = depth ∧ row.sum = 1 ∧
          ∀ c : Nat, row[c]? = some 1 ↔ (c : Int) = i % depth) ∧
    (¬ (∀ i ∈ is, -(depth : Int) ≤ i ∧ i < depth) → npOnehot depth is = .error .index) := by
  have hrow : ∀ k, k < depth → (npRow depth k).length = depth ∧ (npRow depth k).sum = 1 ∧
      ∀ c, (npRow depth k)[c]? = some 1 ↔ c = k := by
    intro k hk
    refine ⟨by simp [npRow], ?_, ?_⟩
    · have : ∀ (d k : Nat), k < d → ((List.replicate d 0).set k 1).sum = 1 := by
        intro d
        induction d with
        | zero => intro k h; omega
        | succ d ih =>
          intro k h
          cases k with
          | zero => simp [List.replicate_succ]
          | succ k => simp [List.replicate_succ, ih k (by omega)]
      exact this depth k hk
    · intro c
      unfold npRow
      rw [List.getElem?_set]
      by_cases hc : k = c
      · subst hc; simp [hk]
      · simp only [hc, if_false]
        constructor
        · intro h
          rw [List.getElem?_replicate] at h
          split at h <;> simp at h
        · intro h; exact absurd h.symm hc
  constructor
  · induction is with
    | nil => intro _; exact ⟨[], rfl, rfl, by simp⟩
    | cons i is ih =>
      intro h
      obtain ⟨rows, e, hl, hr⟩ := ih (fun x hx => h x (List.mem_cons_of_mem _ hx))
      have hi := h i (by simp)
      obtain ⟨k, hk⟩ : ∃ k, wrapIdx depth i = .ok k := by
        unfold wrapIdx
        by_cases h0 : 0 ≤ i
        · rw [if_pos ⟨h0, hi.2⟩]; exact ⟨_, rfl⟩
        · rw [if_neg (by omega), if_pos ⟨hi.1, by omega⟩]; exact ⟨_, rfl⟩
      refine ⟨npRow depth k :: rows, ?_, by simp [hl], ?_⟩
      · simp only [npOnehot, hk, e, bind, Except.bind]
      · intro j x hx
        cases j with
        | zero =>
          simp only [List.getElem?_cons_zero, Option.some.injEq] at hx
          subst hx
          obtain ⟨h1, h2, h3⟩ := hrow k (wrapIdx_lt hk)
          refine ⟨_, rfl, h1, h2, ?_⟩
          intro c
          rw [h3, ← wrapIdx_emod hk]
          exact_mod_cast Iff.rfl
        | succ j => exact hr j x hx
  · induction is with
    | nil => intro h; exact absurd (by simp) h
    | cons i is ih =>
      intro h
      simp only [npOnehot, bind, Except.bind]
      by_cases hi : -(depth : Int) ≤ i ∧ i < depth
      · have h2 : ¬ (∀ x ∈ is, -(depth : Int) ≤ x ∧ x < depth) := by
          intro hall
          apply h
          intro x hx
          rcases List.mem_cons.1 hx with rfl | hx
          · exact hi
          · exact hall x hx
        rw [ih h2]
        split
        · rename_i e he
          unfold wrapIdx at he
          split at he
          · cases he
          · split at he <;> cases he
            rfl
        · rfl
      · have : wrapIdx depth i = .error .index := by
          unfold wrapIdx
          rw [if_neg (by omega), if_neg (by omega)]
        rw [this]

example : npOnehot 3 [2, 0, -1] = .ok [[0, 0, 1], [1, 0, 0], [0, 0, 1]] ∧
    npOnehot 3 [3] = .error .index := by decide

/-- C75 (injective): on indices within `0..depth-1` the encoding determines the list. -/
theorem C75_onehot_injective (depth : Nat) (a b : List Int) (rows : List (List Nat))
    (ha : ∀ i ∈ a, 0 ≤ i) (hb : ∀ i ∈ b, 0 ≤ i)
    (h1 : npOnehot depth a = .ok rows) (h2 : npOnehot depth b = .ok rows) : a = b := by
  have range : ∀ l, npOnehot depth l = .ok rows → ∀ i ∈ l, -(depth : Int) ≤ i ∧ i < depth := by
    intro l h
    by_contra hc
    rw [(C75_onehot depth l).2 hc] at h
    cases h
  obtain ⟨r1, e1, l1, p1⟩ := (C75_onehot depth a).1 (range a h1)
  obtain ⟨r2, e2, l2, p2⟩ := (C75_onehot depth b).1 (range b h2)
  rw [h1] at e1; rw [h2] at e2
  cases e1; cases e2
  apply List.ext_getElem (by omega)
  intro j hj1 hj2
  obtain ⟨row, hr, _, _, hc⟩ := p1 j _ (List.getElem?_eq_getElem hj1)
  obtain ⟨row', hr', _, _, hc'⟩ := p2 j _ (List.getElem?_eq_getElem hj2)
  rw [hr] at hr'; cases hr'
  have m1 := range a h1 _ (List.getElem_mem hj1)
  have m2 := range b h2 _ (List.getElem_mem hj2)
  have n1 := ha _ (List.getElem_mem hj1)
  have n2 := hb _ (List.getElem_mem hj2)
  have x := (hc (a[j]).toNat).2 (by rw [Int.emod_eq_of_lt n1 m1.2]; omega)
  have y := (hc' (a[j]).toNat).1 x
  rw [Int.emod_eq_of_lt n2 m2.2] at y
  omega

/-! ### The piano roll -/

/-- Note `n` is switched on in the cell. -/
def OnAt (fs : ℚ) (cols : Nat) (a b : Nat) (n : RollNote) : Prop :=
  wrapIdx 128 n.pitch = .ok a ∧ wrapIdx cols (pyInt (n.start * fs)) = .ok b

/-- Note `n` is switched off in the cell. -/
def OffAt (fs : ℚ) (cols : Nat) (a b : Nat) (n : RollNote) : Prop :=
  wrapIdx 128 n.pitch = .ok a ∧ wrapIdx cols (pyInt (n.stop * fs)) = .ok b

/-- The cell is marked by the notes: some note is switched on there and neither it nor any later note of
the list is switched off there. -/
def Marked (fs : ℚ) (cols : Nat) (a b : Nat) (notes : List RollNote) : Prop :=
  ∃ l1 n l2, notes = l1 ++ n :: l2 ∧ OnAt fs cols a b n ∧ ∀ m ∈ n :: l2, ¬ OffAt fs cols a b m

theorem rollSet_ok {cols : Nat} {m m' : Nat → Nat → Int} {p c v : Int}
    (h : rollSet cols m p c v = .ok m') :
    ∃ r k, wrapIdx 128 p = .ok r ∧ wrapIdx cols c = .ok k ∧
      m' = fun a b => if a = r ∧ b = k then v else m a b := by
  simp only [rollSet, bind, Except.bind] at h
  split at h
  · cases h
  · split at h
    · cases h
    · rename_i hr _ _ hk
      cases h
      exact ⟨_, _, hr, hk, rfl⟩

theorem rollNotes_spec (fs : ℚ) (cols : Nat) (notes : List RollNote) (m m' : Nat → Nat → Int)
    (h : rollNotes fs cols m notes = .ok m') (a b : Nat) :
    (Marked fs cols a b notes → m' a b = 1) ∧
    (¬ Marked fs cols a b notes → (∃ n ∈ notes, OffAt fs cols a b n) → m' a b = 0) ∧
    (¬ Marked fs cols a b notes → (∀ n ∈ notes, ¬ OffAt fs cols a b n) → m' a b = m a b) := by
  induction notes generalizing m with
  | nil =>
    cases h
    refine ⟨?_, ?_, fun _ _ => rfl⟩
    · rintro ⟨l1, n, l2, e, _⟩; simp at e
    · rintro _ ⟨n, hn, _⟩; simp at hn
  | cons n ns ih =>
    simp only [rollNotes, bind, Except.bind] at h
    split at h
    · cases h
    · rename_i m1 h1
      simp only [rollNote, bind, Except.bind] at h1
      split at h1
      · cases h1
      · rename_i m0 h0
        obtain ⟨r, k, hr, hk, e0⟩ := rollSet_ok h0
        obtain ⟨r', k', hr', hk', e1⟩ := rollSet_ok h1
        rw [hr] at hr'; cases hr'
        obtain ⟨i1, i2, i3⟩ := ih m1 h
        have off : OffAt fs cols a b n ↔ a = r ∧ b = k' := by
          unfold OffAt; rw [hr, hk']
          constructor
          · rintro ⟨x, y⟩; cases x; cases y; exact ⟨rfl, rfl⟩
          · rintro ⟨x, y⟩; subst x; subst y; exact ⟨rfl, rfl⟩
        have on : OnAt fs cols a b n ↔ a = r ∧ b = k := by
          unfold OnAt; rw [hr, hk]
          constructor
          · rintro ⟨x, y⟩; cases x; cases y; exact ⟨rfl, rfl⟩
          · rintro ⟨x, y⟩; subst x; subst y; exact ⟨rfl, rfl⟩
        have hm1 : m1 a b = if a = r ∧ b = k' then 0 else if a = r ∧ b = k then 1 else m a b := by
          rw [e1, e0]
        have tail : Marked fs cols a b ns → Marked fs cols a b (n :: ns) := by
          rintro ⟨l1, x, l2, e, h⟩
          exact ⟨n :: l1, x, l2, by rw [e]; rfl, h⟩
        have split : Marked fs cols a b (n :: ns) → Marked fs cols a b ns ∨
            (OnAt fs cols a b n ∧ ∀ m ∈ n :: ns, ¬ OffAt fs cols a b m) := by
          rintro ⟨l1, x, l2, e, h⟩
          cases l1 with
          | nil => simp at e; obtain ⟨rfl, rfl⟩ := e; exact .inr h
          | cons y l1 => simp at e; exact .inl ⟨l1, x, l2, e.2, h⟩
        have here : (OnAt fs cols a b n ∧ ∀ m ∈ n :: ns, ¬ OffAt fs cols a b m) →
            Marked fs cols a b (n :: ns) := fun h => ⟨[], n, ns, rfl, h⟩
        refine ⟨?_, ?_, ?_⟩
        · intro hM
          by_cases hT : Marked fs cols a b ns
          · exact i1 hT
          · rcases split hM with h | ⟨h1, h2⟩
            · exact absurd h hT
            · rw [i3 hT (fun x hx => h2 x (List.mem_cons_of_mem _ hx)), hm1,
                if_neg (fun hc => h2 n (by simp) (off.2 hc)), if_pos (on.1 h1)]
        · intro hM hex
          have hT : ¬ Marked fs cols a b ns := fun h => hM (tail h)
          by_cases hx : ∃ x ∈ ns, OffAt fs cols a b x
          · exact i2 hT hx
          · have hx' : ∀ x ∈ ns, ¬ OffAt fs cols a b x := fun x hm ho => hx ⟨x, hm, ho⟩
            rw [i3 hT hx', hm1]
            obtain ⟨y, hy, ho⟩ := hex
            rcases List.mem_cons.1 hy with rfl | hy
            · rw [if_pos (off.1 ho)]
            · exact absurd ho (hx' y hy)
        · intro hM hall
          have hT : ¬ Marked fs cols a b ns := fun h => hM (tail h)
          rw [i3 hT (fun x hx => hall x (List.mem_cons_of_mem _ hx)), hm1,
            if_neg (fun hc => hall n (by simp) (off.2 hc)), if_neg]
          intro hc
          exact hM (here ⟨on.2 hc, hall⟩)

/-- Number of columns of an instrument. -/
def insCols (fs : ℚ) (i : RollIns) : Nat := (pyInt (fs * i.endTime) + 1).toNat

theorem rollOfIns_spec (fs : ℚ) (i : RollIns) (r : Nat × (Nat → Nat → Int))
    (h : rollOfIns fs i = .ok r) (a b : Nat) :
    r.1 = insCols fs i ∧ (Marked fs (insCols fs i) a b i.notes → r.2 a b = 1) ∧
      (¬ Marked fs (insCols fs i) a b i.notes → r.2 a b = 0) := by
  unfold rollOfIns at h
  simp only [bind, Except.bind] at h
  split at h
  · cases h
  · split at h
    · cases h
    · rename_i m hm
      cases h
      obtain ⟨h1, h2, h3⟩ := rollNotes_spec fs _ _ _ _ hm a b
      refine ⟨rfl, h1, ?_⟩
      intro hM
      by_cases hx : ∃ n ∈ i.notes, OffAt fs (insCols fs i) a b n
      · exact h2 hM hx
      · exact h3 hM (fun n hn ho => hx ⟨n, hn, ho⟩)

theorem Marked_lt {fs : ℚ} {cols a b : Nat} {notes : List RollNote} (h : Marked fs cols a b notes) :
    b < cols := by
  obtain ⟨_, n, _, _, hon, _⟩ := h
  exact wrapIdx_lt hon.2

theorem rollSum_spec (fs : ℚ) (ins : List RollIns) (rs : List (Nat × (Nat → Nat → Int)))
    (h : rollsOf fs ins = .ok rs) (a b : Nat) :
    0 ≤ rollSum rs a b ∧
    ((∃ i ∈ ins, Marked fs (insCols fs i) a b i.notes) → 1 ≤ rollSum rs a b) ∧
    (¬ (∃ i ∈ ins, Marked fs (insCols fs i) a b i.notes) → rollSum rs a b = 0) ∧
    rs.map Prod.fst = ins.map (insCols fs) := by
  induction ins generalizing rs with
  | nil =>
    cases h
    refine ⟨by simp [rollSum], ?_, fun _ => by simp [rollSum], rfl⟩
    rintro ⟨i, hi, _⟩; simp at hi
  | cons i is ih =>
    simp only [rollsOf, bind, Except.bind] at h
    split at h
    · cases h
    · rename_i r hr
      split at h
      · cases h
      · rename_i more hm
        cases h
        obtain ⟨h0, h1, h2, h3⟩ := ih more hm
        obtain ⟨s0, s1, s2⟩ := rollOfIns_spec fs i r hr a b
        have hs : rollSum (r :: more) a b = (if b < r.1 then r.2 a b else 0) + rollSum more a b := by
          simp [rollSum]
        have hM : Marked fs (insCols fs i) a b i.notes → (if b < r.1 then r.2 a b else 0) = 1 := by
          intro hM
          rw [if_pos (by rw [s0]; exact Marked_lt hM), s1 hM]
        have hN : ¬ Marked fs (insCols fs i) a b i.notes → (if b < r.1 then r.2 a b else 0) = 0 := by
          intro hM
          split
          · exact s2 hM
          · rfl
        refine ⟨?_, ?_, ?_, ?_⟩
        · rw [hs]
          by_cases hc : Marked fs (insCols fs i) a b i.notes
          · rw [hM hc]; omega
          · rw [hN hc]; omega
        · rintro ⟨j, hj, hjm⟩
          rw [hs]
          rcases List.mem_cons.1 hj with rfl | hj
          · rw [hM hjm]; omega
          · have := h1 ⟨j, hj, hjm⟩
            by_cases hc : Marked fs (insCols fs i) a b i.notes
            · rw [hM hc]; omega
            · rw [hN hc]; omega
        · intro hno
          rw [hs, hN (fun hc => hno ⟨i, by simp, hc⟩),
            h2 (fun ⟨j, hj, hjm⟩ => hno ⟨j, List.mem_cons_of_mem _ hj, hjm⟩)]
          rfl
        · simp only [List.map_cons, h3, s0]

/-- C75 (piano roll, exact content): an entry is 1 exactly when in some instrument a note is switched on
there and neither it nor a later note of the list is switched off there; every other entry is 0. In
particular there is never a −1, although the documentation says note-offs are −1. -/
theorem C75_roll (fs : ℚ) (ins : List RollIns) (cols : Nat) (m : Nat → Nat → Int)
    (h : midiToOneHot fs ins = .ok (cols, m)) (a b : Nat) :
    (m a b = 1 ↔ ∃ i ∈ ins, Marked fs (insCols fs i) a b i.notes) ∧ (m a b = 0 ∨ m a b = 1) ∧
    m a b ≠ -1 := by
  simp only [midiToOneHot, bind, Except.bind] at h
  split at h
  · cases h
  · rename_i rs hrs
    split at h
    · cases h
    · rename_i r more
      cases h
      obtain ⟨h0, h1, h2, _⟩ := rollSum_spec fs ins _ hrs a b
      by_cases hc : ∃ i ∈ ins, Marked fs (insCols fs i) a b i.notes
      · have e : clampI (-1) 1 (rollSum (r :: more) a b) = 1 := by
          have := h1 hc
          unfold clampI; omega
        beta_reduce; rw [e]
        exact ⟨⟨fun _ => hc, fun _ => rfl⟩, .inr rfl, by decide⟩
      · have e : clampI (-1) 1 (rollSum (r :: more) a b) = 0 := by
          rw [h2 hc]; rfl
        beta_reduce; rw [e]
        exact ⟨⟨fun x => absurd x (by decide), fun x => absurd x hc⟩, .inl rfl, by decide⟩

/-- C75 (short notes are lost, refuted): a note that starts and ends in the same column never marks it;
if no other note of the piece does, the entry is 0. -/
theorem C75_roll_short_lost (fs : ℚ) (n : RollNote) (cols : Nat) (m : Nat → Nat → Int)
    (hsame : pyInt (n.start * fs) = pyInt (n.stop * fs))
    (h : midiToOneHot fs [⟨[n], []⟩] = .ok (cols, m)) (a b : Nat) : m a b = 0 := by
  obtain ⟨h1, h2, _⟩ := C75_roll fs _ cols m h a b
  rcases h2 with h2 | h2
  · exact h2
  · exfalso
    obtain ⟨i, hi, l1, x, l2, e, hon, hoff⟩ := h1.1 h2
    simp only [List.mem_singleton] at hi
    subst hi
    have hx : x = n := by
      have e' : [n] = l1 ++ x :: l2 := e
      have : x ∈ [n] := by rw [e']; simp
      simpa using this
    subst hx
    refine hoff x (by simp) ⟨hon.1, ?_⟩
    rw [← hsame]; exact hon.2

/-- C75 (notes in range are all marked, one instrument, notes apart): when no note is switched off in a
column where a note of its pitch is switched on, every onset is marked. -/
theorem C75_roll_marks (fs : ℚ) (i : RollIns) (is : List RollIns) (cols : Nat) (m : Nat → Nat → Int)
    (hi : i ∈ is) (h : midiToOneHot fs is = .ok (cols, m)) (n : RollNote) (hn : n ∈ i.notes) (a b : Nat)
    (ha : wrapIdx 128 n.pitch = .ok a) (hb : wrapIdx (insCols fs i) (pyInt (n.start * fs)) = .ok b)
    (hap : ∀ x ∈ i.notes, x.pitch = n.pitch →  pyInt (x.stop * fs) ≠ pyInt (n.start * fs))
    (hpos : ∀ x ∈ i.notes, 0 ≤ x.pitch ∧ 0 ≤ pyInt (x.start * fs) ∧ 0 ≤ pyInt (x.stop * fs)) :
    m a b = 1 := by
  rw [(C75_roll fs is cols m h a b).1]
  refine ⟨i, hi, ?_⟩
  obtain ⟨l1, l2, e⟩ := List.append_of_mem hn
  refine ⟨l1, n, l2, e, ⟨ha, hb⟩, ?_⟩
  rintro x hx ⟨hxa, hxb⟩
  have hx' : x ∈ i.notes := by
    rw [e]; exact List.mem_append_right _ hx
  have inj : ∀ (N : Nat) (p q : Int) (k : Nat), 0 ≤ p → 0 ≤ q → wrapIdx N p = .ok k → wrapIdx N q = .ok k →
      p = q := by
    intro N p q k hp hq h1 h2
    unfold wrapIdx at h1 h2
    split at h1
    · split at h2
      · cases h1; injection h2 with h2; omega
      · split at h2
        · omega
        · cases h2
    · split at h1
      · omega
      · cases h1
  exact hap x hx' (inj 128 _ _ a (hpos x hx').1 (hpos n hn).1 hxa ha)
    (inj _ _ _ b (hpos x hx').2.2 (hpos n hn).2.1 hxb hb)

/-- Without instruments the function fails. -/
theorem C75_roll_empty (fs : ℚ) : midiToOneHot fs [] = .error .value := rfl

/-- The number of columns is that of the longest instrument. -/
theorem C75_roll_width (fs : ℚ) (ins : List RollIns) (cols : Nat) (m : Nat → Nat → Int)
    (h : midiToOneHot fs ins = .ok (cols, m)) :
    (∀ i ∈ ins, insCols fs i ≤ cols) ∧ ∃ i ∈ ins, insCols fs i = cols := by
  simp only [midiToOneHot, bind, Except.bind] at h
  split at h
  · cases h
  · rename_i rs hrs
    split at h
    · cases h
    · rename_i r more
      cases h
      obtain ⟨_, _, _, h3⟩ := rollSum_spec fs ins _ hrs 0 0
      have gen : ∀ (l : List Nat) (x : Nat), (∀ y ∈ x :: l, y ≤ l.foldl max x) ∧ l.foldl max x ∈ x :: l := by
        intro l
        induction l with
        | nil => intro x; simp
        | cons z l ih =>
          intro x
          obtain ⟨g1, g2⟩ := ih (max x z)
          simp only [List.foldl_cons]
          constructor
          · intro y hy
            have hm := g1 (max x z) (by simp)
            rcases List.mem_cons.1 hy with rfl | hy
            · omega
            · rcases List.mem_cons.1 hy with rfl | hy
              · omega
              · exact g1 y (List.mem_cons_of_mem _ hy)
          · rcases List.mem_cons.1 g2 with e | e
            · rw [e]
              rcases max_choice x z with h | h <;> rw [h] <;> simp
            · exact List.mem_cons_of_mem _ (List.mem_cons_of_mem _ e)
      obtain ⟨g1, g2⟩ := gen (more.map Prod.fst) r.1
      have e : r.1 :: more.map Prod.fst = ins.map (insCols fs) := h3
      rw [e] at g1 g2
      constructor
      · intro i hi
        exact g1 _ (List.mem_map_of_mem hi)
      · obtain ⟨i, hi, e⟩ := List.mem_map.1 g2
        exact ⟨i, hi, e⟩

/-- A concrete piece: two notes, both marked, one lost because it is too short. -/
example : (midiToOneHot 10 [⟨[⟨60, 0, 1⟩, ⟨62, 1, 2⟩, ⟨64, 1, 101/100⟩], []⟩]).map
    (fun r => (r.1, r.2 60 0, r.2 62 10, r.2 64 10)) = .ok (21, 1, 1, 0) := by decide +kernel

theorem wrapIdx_ok {n : Nat} {i : Int} (h0 : 0 ≤ i) (h1 : i < n) : wrapIdx n i = .ok i.toNat := by
  unfold wrapIdx; rw [if_pos ⟨h0, h1⟩]

/-- The end time of an instrument, in words: the latest of all note ends and other event times, 0 without
any. -/
def Spec.IsEnd (i : RollIns) (e : ℚ) : Prop :=
  (i.notes = [] ∧ i.others = [] ∧ e = 0) ∨
  (((∃ n ∈ i.notes, n.stop = e) ∨ e ∈ i.others) ∧ (∀ n ∈ i.notes, n.stop ≤ e) ∧ ∀ t ∈ i.others, t ≤ e)

theorem endTime_isEnd (i : RollIns) : Spec.IsEnd i i.endTime := by
  unfold RollIns.endTime
  cases hl : i.notes.map RollNote.stop ++ i.others with
  | nil =>
    simp only [List.append_eq_nil_iff, List.map_eq_nil_iff] at hl
    exact .inl ⟨hl.1, hl.2, rfl⟩
  | cons x xs =>
    right
    simp only
    have hge := foldl_max_ge xs x
    have hm : ∀ y ∈ i.notes.map RollNote.stop ++ i.others, y ≤ xs.foldl max x := by
      rw [hl]; intro y hy
      rcases List.mem_cons.1 hy with rfl | hy
      · exact hge.1
      · exact hge.2 y hy
    have hin : xs.foldl max x ∈ i.notes.map RollNote.stop ++ i.others := by
      rw [hl]
      rcases foldl_max_mem xs x with h | h
      · rw [h]; simp
      · exact List.mem_cons_of_mem _ h
    refine ⟨?_, ?_, ?_⟩
    · rcases List.mem_append.1 hin with h | h
      · obtain ⟨n, hn, e⟩ := List.mem_map.1 h
        exact .inl ⟨n, hn, e⟩
      · exact .inr h
    · intro n hn; exact hm _ (List.mem_append_left _ (List.mem_map_of_mem hn))
    · intro t ht; exact hm _ (List.mem_append_right _ ht)

theorem rollNotes_total (fs : ℚ) (cols : Nat) (ns : List RollNote) : ∀ (m : Nat → Nat → Int),
    (∀ n ∈ ns, 0 ≤ n.pitch ∧ n.pitch < 128 ∧ 0 ≤ pyInt (n.start * fs) ∧ pyInt (n.start * fs) < cols ∧
      0 ≤ pyInt (n.stop * fs) ∧ pyInt (n.stop * fs) < cols) → ∃ m', rollNotes fs cols m ns = .ok m' := by
  induction ns with
  | nil => intro m _; exact ⟨m, rfl⟩
  | cons n ns ih =>
    intro m h
    obtain ⟨a, b, c, d, e, f⟩ := h n (by simp)
    simp only [rollNotes, rollNote, rollSet, bind, Except.bind, wrapIdx_ok a b, wrapIdx_ok c d, wrapIdx_ok e f]
    exact ih _ (fun x hx => h x (List.mem_cons_of_mem _ hx))

/-- C75 (piano roll, totality): with at least one instrument, pitches 0..127, a non-negative rate and
non-negative, ordered times, the function never raises; its number of columns is one more than the largest
`int(fs * end)` over the instruments' end times, so every note fits. -/
theorem C75_roll_total (fs : ℚ) (hfs : 0 ≤ fs) (ins : List RollIns) (hne : ins ≠ [])
    (hn : ∀ i ∈ ins, ∀ n ∈ i.notes, 0 ≤ n.pitch ∧ n.pitch < 128 ∧ 0 ≤ n.start ∧ n.start ≤ n.stop)
    (ho : ∀ i ∈ ins, ∀ t ∈ i.others, 0 ≤ t) :
    ∃ cols m, midiToOneHot fs ins = .ok (cols, m) ∧
      (∀ i ∈ ins, ∀ e, Spec.IsEnd i e → pyInt (fs * e) + 1 ≤ cols) ∧
      ∃ i ∈ ins, ∃ e, Spec.IsEnd i e ∧ (cols : Int) = pyInt (fs * e) + 1 := by
  have huniq : ∀ (i : RollIns) (e e' : ℚ), Spec.IsEnd i e → Spec.IsEnd i e' → e = e' := by
    rintro i e e' (⟨a, b, c⟩ | ⟨h1, h2, h3⟩) (⟨a', b', c'⟩ | ⟨h1', h2', h3'⟩)
    · rw [c, c']
    · rw [a, b] at h1'; simp at h1'
    · rw [a', b'] at h1; simp at h1
    · apply le_antisymm
      · rcases h1 with ⟨n, hn, rfl⟩ | h
        · exact h2' n hn
        · exact h3' _ h
      · rcases h1' with ⟨n, hn, rfl⟩ | h
        · exact h2 n hn
        · exact h3 _ h
  have hend : ∀ i ∈ ins, 0 ≤ i.endTime := by
    intro i hi
    rcases endTime_isEnd i with ⟨_, _, c⟩ | ⟨⟨n, hn', e⟩ | h, _⟩
    · rw [c]
    · have := hn i hi n hn'; linarith [this.2.2.1, this.2.2.2]
    · exact ho i hi _ h
  have hone : ∀ i ∈ ins, ∃ r, rollOfIns fs i = .ok r := by
    intro i hi
    have h0 : 0 ≤ pyInt (fs * i.endTime) := pyInt_nonneg' (mul_nonneg hfs (hend i hi))
    unfold rollOfIns
    simp only [bind, Except.bind]
    rw [if_neg (by omega)]
    obtain ⟨m, hm⟩ := rollNotes_total fs (pyInt (fs * i.endTime) + 1).toNat i.notes (fun _ _ => 0) (by
      intro n hn'
      obtain ⟨a, b, c, d⟩ := hn i hi n hn'
      have hs : n.stop ≤ i.endTime := by
        rcases endTime_isEnd i with ⟨x, _, _⟩ | ⟨_, h2, _⟩
        · rw [x] at hn'; simp at hn'
        · exact h2 n hn'
      have e1 : pyInt (n.start * fs) ≤ pyInt (fs * i.endTime) := pyInt_mono (by nlinarith)
      have e2 : pyInt (n.stop * fs) ≤ pyInt (fs * i.endTime) := pyInt_mono (by nlinarith)
      refine ⟨a, b, pyInt_nonneg' (by nlinarith), by omega, pyInt_nonneg' ?_, by omega⟩
      exact mul_nonneg (le_trans c d) hfs)
    rw [hm]; exact ⟨_, rfl⟩
  have hall : ∀ l : List RollIns, (∀ i ∈ l, i ∈ ins) → ∃ rs, rollsOf fs l = .ok rs ∧ (l ≠ [] → rs ≠ []) := by
    intro l
    induction l with
    | nil => intro _; exact ⟨[], rfl, fun h => absurd rfl h⟩
    | cons i l ih =>
      intro h
      obtain ⟨r, hr⟩ := hone i (h i (by simp))
      obtain ⟨rs, hrs, _⟩ := ih (fun x hx => h x (List.mem_cons_of_mem _ hx))
      refine ⟨r :: rs, ?_, fun _ => by simp⟩
      simp only [rollsOf, bind, Except.bind, hr, hrs]
  obtain ⟨rs, hrs, hrn⟩ := hall ins (fun _ h => h)
  have hr0 := hrn hne
  cases rs with
  | nil => exact absurd rfl hr0
  | cons r more =>
    have hres : ∃ cols m, midiToOneHot fs ins = .ok (cols, m) := by
      simp only [midiToOneHot, bind, Except.bind, hrs]
      exact ⟨_, _, rfl⟩
    obtain ⟨cols, m, hm⟩ := hres
    obtain ⟨w1, i, hi, w2⟩ := C75_roll_width fs ins cols m hm
    have hc : ∀ j ∈ ins, (insCols fs j : Int) = pyInt (fs * j.endTime) + 1 := by
      intro j hj
      have := pyInt_nonneg' (mul_nonneg hfs (hend j hj))
      unfold insCols; omega
    refine ⟨cols, m, hm, ?_, i, hi, i.endTime, endTime_isEnd i, ?_⟩
    · intro j hj e he
      rw [huniq j e _ he (endTime_isEnd j), ← hc j hj]
      exact_mod_cast w1 j hj
    · rw [← w2]; exact hc i hi

/-- The hypotheses of `C75_roll_total` are met by two overlapping notes and a late control change. -/
example : ∃ cols m, midiToOneHot 10 [⟨[⟨60, 0, 1⟩, ⟨127, 1/2, 2⟩], [5/2]⟩] = .ok (cols, m) := by
  obtain ⟨c, m, h, _⟩ := C75_roll_total 10 (by norm_num) [⟨[⟨60, 0, 1⟩, ⟨127, 1/2, 2⟩], [5/2]⟩] (by simp)
    (by intro i hi n hn; simp only [List.mem_singleton] at hi; subst hi
        rcases List.mem_cons.1 hn with rfl | hn
        · norm_num
        · rw [List.mem_singleton] at hn; subst hn; norm_num)
    (by intro i hi t ht; simp only [List.mem_singleton] at hi; subst hi; rw [List.mem_singleton] at ht; subst ht; norm_num)
  exact ⟨c, m, h⟩

end NGC
