import Mathlib.Algebra.Order.Field.Rat
import Mathlib.Algebra.Order.Floor.Ring
import Mathlib.Data.Rat.Floor
import Mathlib.Data.List.Sort
import Mathlib.Tactic.Linarith
import Mathlib.Tactic.Ring
import Mathlib.Tactic.NormNum

/-!
Models of the Python built-ins used by the code base. Floats are exact
rationals, exceptions are values.
-/

namespace NGC

/-- Python exception classes raised by the modelled code. -/
inductive Err where
  | value | type | assertion | key | index | attribute | name | zeroDiv | stopIteration | runtime
  | fileNotFound | fileExists
  deriving DecidableEq, Repr

abbrev Py (α : Type) := Except Err α

instance {α : Type} [DecidableEq α] : DecidableEq (Py α) := fun a b =>
  match a, b with
  | .ok x, .ok y => if h : x = y then isTrue (by rw [h]) else isFalse (by intro e; cases e; exact h rfl)
  | .error x, .error y =>
    if h : x = y then isTrue (by rw [h]) else isFalse (by intro e; cases e; exact h rfl)
  | .ok _, .error _ => isFalse (by intro e; cases e)
  | .error _, .ok _ => isFalse (by intro e; cases e)

/-- `raises x`: the Python call ended with an exception. -/
def raises {α : Type} (x : Py α) : Prop := ∃ e, x = .error e

/-- `math.isclose(a, b, rel_tol, abs_tol)` (CPython `math.isclose`): exact rational reading. -/
def isclose (a b rel abs : ℚ) : Bool :=
  decide (|a - b| ≤ max (rel * max |a| |b|) abs)

/-- `max(lo, min(hi, x))`. -/
def clampI (lo hi x : Int) : Int := max lo (min hi x)

/-- Python `round(x)` / `np.rint`: nearest integer, ties to even. -/
def roundHE (q : ℚ) : Int :=
  let f := ⌊q⌋
  let r := q - f
  if r < 1/2 then f else if 1/2 < r then f + 1 else if f % 2 = 0 then f else f + 1

/-- `np.around(x, 2)`: `rint(x*100)/100`. -/
def around2 (q : ℚ) : ℚ := (roundHE (q * 100) : ℚ) / 100

/-- Python `int(x)` on a float: truncation towards zero. -/
def pyInt (q : ℚ) : Int := if 0 ≤ q then ⌊q⌋ else ⌈q⌉

/-- The binary search loop shared by `bisect.bisect_left` and `bisect.bisect_right`
(CPython `Lib/bisect.py`): `goRight y` is `a[mid] < x` for the left variant and
`not (x < a[mid])` for the right variant. The first argument is fuel: each round shrinks
`hi - lo`, so `hi - lo` rounds always suffice (`bisectGo_spec`). -/
def bisectGo {α : Type} (a : List α) (goRight : α → Bool) : Nat → Nat → Nat → Nat
  | 0, lo, _ => lo
  | fuel + 1, lo, hi =>
    if lo < hi then
      match a[(lo + hi) / 2]? with
      | some y =>
        if goRight y then bisectGo a goRight fuel ((lo + hi) / 2 + 1) hi
        else bisectGo a goRight fuel lo ((lo + hi) / 2)
      | none => lo
    else lo

/-- `bisect.bisect_left(a, x)` with `lt` as `__lt__`. -/
def bisectLeft {α : Type} (lt : α → α → Bool) (a : List α) (x : α) : Nat :=
  bisectGo a (fun y => lt y x) a.length 0 a.length

/-- `bisect.bisect_right(a, x)` with `lt` as `__lt__`. -/
def bisectRight {α : Type} (lt : α → α → Bool) (a : List α) (x : α) : Nat :=
  bisectGo a (fun y => !lt x y) a.length 0 a.length

/-- `list.insert(i, x)` for `i ≥ 0` (an index past the end appends). -/
def pyInsert {α : Type} (l : List α) (i : Nat) (x : α) : List α := l.take i ++ x :: l.drop i

/-- `bisect.insort_left(a, x)`. -/
def insortLeft {α : Type} (lt : α → α → Bool) (a : List α) (x : α) : List α :=
  pyInsert a (bisectLeft lt a x) x

/-- Insertion of `x` into a list sorted by `key`, before the first strictly larger key
(so that equal keys keep their order). -/
def insertByKey {α : Type} (key : α → ℚ) (x : α) : List α → List α
  | [] => [x]
  | y :: ys => if key x ≤ key y then x :: y :: ys else y :: insertByKey key x ys

/-- `sorted(l, key=key)`: the stable sort by a rational key. Elements are inserted from the
right, each before the elements of equal key that followed it, hence stability. -/
def sortByKey {α : Type} (key : α → ℚ) : List α → List α
  | [] => []
  | x :: xs => insertByKey key x (sortByKey key xs)

/-- Python slice `l[:n]` for any integer `n` (a negative `n` counts from the end). -/
def pyTake {α : Type} (l : List α) (n : Int) : List α :=
  if 0 ≤ n then l.take n.toNat else l.take (l.length - (-n).toNat)

/-- `max(xs, default=d)`. -/
def maxDefault (d : ℚ) : List ℚ → ℚ
  | [] => d
  | x :: xs => xs.foldl max x

/-! ### Basic facts -/

theorem pyInsert_perm {α : Type} (l : List α) (i : Nat) (x : α) :
    (pyInsert l i x).Perm (x :: l) := by
  unfold pyInsert
  refine (List.perm_middle).trans ?_
  rw [List.take_append_drop]

theorem mem_pyInsert {α : Type} (l : List α) (i : Nat) (x y : α) :
    y ∈ pyInsert l i x ↔ y = x ∨ y ∈ l := by
  rw [(pyInsert_perm l i x).mem_iff, List.mem_cons]

theorem length_pyInsert {α : Type} (l : List α) (i : Nat) (x : α) :
    (pyInsert l i x).length = l.length + 1 := by
  rw [(pyInsert_perm l i x).length_eq, List.length_cons]

/-- Correctness of the binary search loop: if the predicate is downward closed on the list
(true on a prefix, false on the rest), the result splits the list at that prefix. -/
theorem bisectGo_spec {α : Type} (a : List α) (p : α → Bool)
    (mono : ∀ i j (hi : i < a.length) (hj : j < a.length), i ≤ j → p a[j] = true → p a[i] = true)
    (fuel lo hi : Nat) (hf : hi - lo ≤ fuel) (hlh : lo ≤ hi) (hhi : hi ≤ a.length)
    (hlo' : ∀ i (h : i < a.length), i < lo → p a[i] = true)
    (hhi' : ∀ i (h : i < a.length), hi ≤ i → p a[i] = false) :
    bisectGo a p fuel lo hi ≤ a.length ∧
    (∀ i (h : i < a.length), i < bisectGo a p fuel lo hi → p a[i] = true) ∧
    (∀ i (h : i < a.length), bisectGo a p fuel lo hi ≤ i → p a[i] = false) := by
  induction fuel generalizing lo hi with
  | zero =>
    have : lo = hi := by omega
    subst this
    exact ⟨hhi, hlo', hhi'⟩
  | succ n ih =>
    rw [bisectGo]
    split
    · rename_i h
      have hm : (lo + hi) / 2 < a.length := by omega
      simp only [List.getElem?_eq_getElem hm]
      split
      · rename_i hp
        refine ih _ _ (by omega) (by omega) hhi ?_ hhi'
        intro i hi1 hi2
        exact mono i ((lo+hi)/2) hi1 hm (by omega) hp
      · rename_i hp
        refine ih _ _ (by omega) (by omega) (by omega) hlo' ?_
        intro i hi1 hi2
        by_contra hc
        have hc' : p a[i] = true := by simpa using hc
        exact hp (mono ((lo+hi)/2) i hm hi1 hi2 hc')
    · have : lo = hi := by omega
      subst this
      exact ⟨hhi, hlo', hhi'⟩

/-- The loop never leaves its bounds, on any list. -/
theorem bisectGo_le {α : Type} (a : List α) (p : α → Bool) (fuel lo hi : Nat) (h : lo ≤ hi) :
    lo ≤ bisectGo a p fuel lo hi ∧ bisectGo a p fuel lo hi ≤ hi := by
  induction fuel generalizing lo hi with
  | zero => simp [bisectGo, h]
  | succ n ih =>
    rw [bisectGo]
    split
    · split
      · split
        · have := ih ((lo+hi)/2+1) hi (by omega)
          omega
        · have := ih lo ((lo+hi)/2) (by omega)
          omega
      · omega
    · omega

theorem bisectLeft_le {α : Type} (lt : α → α → Bool) (a : List α) (x : α) :
    bisectLeft lt a x ≤ a.length := (bisectGo_le _ _ _ _ _ (Nat.zero_le _)).2

theorem bisectRight_le {α : Type} (lt : α → α → Bool) (a : List α) (x : α) :
    bisectRight lt a x ≤ a.length := (bisectGo_le _ _ _ _ _ (Nat.zero_le _)).2

theorem insertByKey_perm {α : Type} (key : α → ℚ) (x : α) (l : List α) :
    (insertByKey key x l).Perm (x :: l) := by
  induction l with
  | nil => exact List.Perm.refl _
  | cons y ys ih =>
    unfold insertByKey
    split
    · exact List.Perm.refl _
    · exact (List.Perm.cons y ih).trans (List.Perm.swap _ _ _)

theorem sortByKey_perm {α : Type} (key : α → ℚ) (l : List α) : (sortByKey key l).Perm l := by
  induction l with
  | nil => exact List.Perm.refl _
  | cons x xs ih => exact (insertByKey_perm key x _).trans (List.Perm.cons x ih)

theorem insertByKey_sorted {α : Type} (key : α → ℚ) (x : α) (l : List α)
    (h : l.Pairwise (fun a b => key a ≤ key b)) :
    (insertByKey key x l).Pairwise (fun a b => key a ≤ key b) := by
  induction l with
  | nil => simp [insertByKey]
  | cons y ys ih =>
    unfold insertByKey
    rw [List.pairwise_cons] at h
    split
    · rename_i hxy
      rw [List.pairwise_cons]
      refine ⟨?_, List.pairwise_cons.2 h⟩
      intro b hb
      rcases List.mem_cons.1 hb with rfl | hb
      · exact hxy
      · exact le_trans hxy (h.1 b hb)
    · rename_i hxy
      rw [List.pairwise_cons]
      refine ⟨?_, ih h.2⟩
      intro b hb
      rw [(insertByKey_perm key x ys).mem_iff, List.mem_cons] at hb
      rcases hb with rfl | hb
      · exact le_of_lt (not_le.1 hxy)
      · exact h.1 b hb

theorem sortByKey_sorted {α : Type} (key : α → ℚ) (l : List α) :
    (sortByKey key l).Pairwise (fun a b => key a ≤ key b) := by
  induction l with
  | nil => exact List.Pairwise.nil
  | cons x xs ih => exact insertByKey_sorted key x _ ih

theorem insertByKey_of_le {α : Type} (key : α → ℚ) (x : α) (l : List α)
    (h : ∀ y ∈ l, key x ≤ key y) : insertByKey key x l = x :: l := by
  cases l with
  | nil => rfl
  | cons y ys => simp [insertByKey, h y (by simp)]

theorem sortByKey_of_sorted {α : Type} (key : α → ℚ) (l : List α)
    (h : l.Pairwise (fun a b => key a ≤ key b)) : sortByKey key l = l := by
  induction l with
  | nil => rfl
  | cons x xs ih =>
    rw [List.pairwise_cons] at h
    rw [sortByKey, ih h.2, insertByKey_of_le key x xs h.1]

theorem foldl_max_ge (l : List ℚ) (x : ℚ) : x ≤ l.foldl max x ∧ ∀ y ∈ l, y ≤ l.foldl max x := by
  induction l generalizing x with
  | nil => simp
  | cons z zs ih =>
    obtain ⟨h1, h2⟩ := ih (max x z)
    simp only [List.foldl_cons, List.mem_cons]
    refine ⟨le_trans (le_max_left _ _) h1, ?_⟩
    rintro y (rfl | hy)
    · exact le_trans (le_max_right _ _) h1
    · exact h2 y hy

theorem foldl_max_mem (l : List ℚ) (x : ℚ) : l.foldl max x = x ∨ l.foldl max x ∈ l := by
  induction l generalizing x with
  | nil => simp
  | cons z zs ih =>
    simp only [List.foldl_cons, List.mem_cons]
    rcases ih (max x z) with h | h
    · rw [h]
      rcases max_choice x z with h' | h' <;> rw [h'] <;> simp
    · exact Or.inr (Or.inr h)

theorem maxDefault_ge (d : ℚ) (l : List ℚ) : ∀ y ∈ l, y ≤ maxDefault d l := by
  cases l with
  | nil => simp
  | cons x xs =>
    intro y hy
    have := foldl_max_ge xs x
    rcases List.mem_cons.1 hy with rfl | hy
    · exact this.1
    · exact this.2 y hy

theorem maxDefault_mem (d : ℚ) (l : List ℚ) (h : l ≠ []) : maxDefault d l ∈ l := by
  cases l with
  | nil => exact absurd rfl h
  | cons x xs =>
    rcases foldl_max_mem xs x with h' | h'
    · show List.foldl max x xs ∈ x :: xs
      rw [h']; simp
    · exact List.mem_cons_of_mem _ h'

/-- `max` is the unique member above all members. -/
theorem maxDefault_eq_of (d : ℚ) (l : List ℚ) (m : ℚ) (hm : m ∈ l) (hge : ∀ y ∈ l, y ≤ m) :
    maxDefault d l = m := by
  have hne : l ≠ [] := by intro h; rw [h] at hm; simp at hm
  exact le_antisymm (hge _ (maxDefault_mem d l hne)) (maxDefault_ge d l m hm)

theorem maxDefault_perm (d : ℚ) {l l' : List ℚ} (h : l.Perm l') : maxDefault d l = maxDefault d l' := by
  by_cases hl : l = []
  · subst hl; rw [List.nil_perm.1 h]
  · refine maxDefault_eq_of d l _ ?_ ?_
    · rw [h.mem_iff]; apply maxDefault_mem
      intro h'; rw [h'] at h; exact hl (List.perm_nil.1 h)
    · intro y hy; exact maxDefault_ge d l' y (h.mem_iff.1 hy)

theorem roundHE_spec (q : ℚ) : |q - roundHE q| ≤ 1/2 := by
  have h1 := Int.floor_le q
  have h2 := Int.lt_floor_add_one q
  unfold roundHE
  simp only []
  split_ifs <;> push_cast <;> rw [abs_le] <;> constructor <;> linarith

theorem roundHE_int (z : Int) : roundHE (z : ℚ) = z := by
  unfold roundHE
  simp

theorem around2_spec (q : ℚ) : |q - around2 q| ≤ 1/200 := by
  have h := roundHE_spec (q * 100)
  unfold around2
  rw [abs_le] at *
  constructor <;> linarith [h.1, h.2]

theorem roundHE_mono {a b : ℚ} (h : a ≤ b) : roundHE a ≤ roundHE b := by
  have ha1 := Int.floor_le a
  have ha2 := Int.lt_floor_add_one a
  have hb1 := Int.floor_le b
  have hb2 := Int.lt_floor_add_one b
  have hf : ⌊a⌋ ≤ ⌊b⌋ := Int.floor_mono h
  rcases hf.eq_or_lt with he | hlt
  · unfold roundHE
    simp only [← he]
    rw [← he] at hb1 hb2
    split_ifs <;> first | omega | (exfalso; linarith)
  · unfold roundHE
    simp only []
    split_ifs <;> omega

theorem roundHE_nonneg {a : ℚ} (h : 0 ≤ a) : 0 ≤ roundHE a := by
  have := roundHE_mono h
  have h0 : roundHE 0 = 0 := by simpa using roundHE_int 0
  omega

theorem around2_mono {a b : ℚ} (h : a ≤ b) : around2 a ≤ around2 b := by
  unfold around2
  have : roundHE (a*100) ≤ roundHE (b*100) := roundHE_mono (by linarith)
  have : (roundHE (a*100) : ℚ) ≤ roundHE (b*100) := by exact_mod_cast this
  linarith

theorem around2_nonneg {a : ℚ} (h : 0 ≤ a) : 0 ≤ around2 a := by
  unfold around2
  have : (0:ℚ) ≤ roundHE (a*100) := by exact_mod_cast roundHE_nonneg (by linarith)
  linarith

theorem isclose_refl (a rel abs : ℚ) (habs : 0 ≤ abs) : isclose a a rel abs = true := by
  simp [isclose, habs]

theorem isclose_comm (a b rel abs : ℚ) : isclose a b rel abs = isclose b a rel abs := by
  unfold isclose
  rw [abs_sub_comm a b, max_comm |a| |b|]

end NGC
