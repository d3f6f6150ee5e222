import Verif.Example02
import Mathlib.Tactic.Linarith
import Mathlib.Tactic.Positivity
import Mathlib.Tactic.Ring

/-! C203 (what the second example reports), C204 (the script gat_test.py). -/

namespace NGC

/-! ### Specification -/

/-- The masked nodes: predicted class and label. -/
def Spec.picked (y pred : List Int) (mask : List Bool) : List (Int × Int) := ((mask.zip (pred.zip y)).filter (fun q => q.1)).map (fun q => q.2)

/-- How many of the masked nodes are predicted right. -/
def Spec.rights (y pred : List Int) (mask : List Bool) : Nat := (Spec.picked y pred mask).countP (fun q => decide (q.1 = q.2))

/-- How many nodes are masked. -/
def Spec.ticks (mask : List Bool) : Nat := mask.count true

theorem picked_len (m : List Bool) : ∀ (y p : List Int), m.length = y.length → m.length = p.length → (Spec.picked y p m).length = m.count true := by
  induction m with
  | nil => intro y p _ _; simp [Spec.picked]
  | cons x xs ih =>
    intro a b ha hb
    cases a with
    | nil => simp at ha
    | cons u us =>
      cases b with
      | nil => simp at hb
      | cons v vs =>
        have := ih us vs (by simpa using ha) (by simpa using hb)
        unfold Spec.picked at this ⊢
        simp only [List.length_map] at this
        cases x <;> simp [this]

theorem pick_zip (m : List Bool) : ∀ (a b : List Int), m.length = a.length → m.length = b.length →
    (((m.zip b).filter (fun q => q.1)).map (fun q => q.2)).zip (((m.zip a).filter (fun q => q.1)).map (fun q => q.2)) = Spec.picked a b m := by
  induction m with
  | nil => intro a b _ _; simp [Spec.picked]
  | cons x xs ih =>
    intro a b ha hb
    cases a with
    | nil => simp at ha
    | cons u us =>
      cases b with
      | nil => simp at hb
      | cons v vs =>
        have := ih us vs (by simpa using ha) (by simpa using hb)
        unfold Spec.picked at this ⊢
        cases x <;> simp [this]

theorem rightOf_ok (y pred : List Int) (mask : List Bool) (h1 : mask.length = y.length) (h2 : mask.length = pred.length) :
    ∃ r, rightOf y pred mask = .ok r ∧ r.length = Spec.ticks mask ∧ r.count true = Spec.rights y pred mask := by
  unfold rightOf selMask
  rw [if_pos h2, if_pos h1]
  refine ⟨_, rfl, ?_, ?_⟩
  · rw [List.length_map]
    exact (congrArg List.length (pick_zip mask y pred h1 h2)).trans (picked_len mask y pred h1 h2)
  · have e := pick_zip mask y pred h1 h2
    show List.count true (List.map _ (List.zip _ _)) = _
    rw [e, List.count_eq_countP, List.countP_map]
    unfold Spec.rights
    congr 1
    funext q
    simp

/-! ### C203 -/

/-- The masks fit the labels and predictions. -/
def Spec.Fits02 (batches : List Batch02) : Prop := ∀ b ∈ batches, b.testMask.length = b.y.length ∧ b.testMask.length = b.pred.length

theorem testLoop02_ok : ∀ (batches : List Batch02) (acc : ℚ × Nat), Spec.Fits02 batches →
    testLoop02 batches acc = .ok (acc.1 + (batches.map (fun b => (Spec.rights b.y b.pred b.testMask : ℚ) / Spec.ticks b.testMask)).sum, acc.2 + (batches.map (fun b => Spec.ticks b.testMask)).sum)
  | [], acc, _ => by simp [testLoop02]
  | b :: bs, acc, h => by
    obtain ⟨h1, h2⟩ := h b List.mem_cons_self
    obtain ⟨r, e1, e2, e3⟩ := rightOf_ok b.y b.pred b.testMask h1 h2
    rw [testLoop02, e1]
    show testLoop02 bs _ = _
    rw [testLoop02_ok bs _ (fun x hx => h x (List.mem_cons_of_mem _ hx)), e2, e3]
    simp only [List.map_cons, List.sum_cons]
    rw [add_assoc, add_assoc]

theorem rights_le (y pred : List Int) (mask : List Bool) (h1 : mask.length = y.length) (h2 : mask.length = pred.length) : Spec.rights y pred mask ≤ Spec.ticks mask := by
  unfold Spec.rights Spec.ticks
  rw [← picked_len mask y pred h1 h2]
  exact List.countP_le_length

/-- **C203, the accuracy that is reported** is the sum of the shares of right predictions of the batches, divided by the number of test nodes. -/
theorem C203_accuracy (batches : List Batch02) (h : Spec.Fits02 batches) (hn : 0 < (batches.map (fun b => Spec.ticks b.testMask)).sum) :
    test02 batches = .ok ((batches.map (fun b => (Spec.rights b.y b.pred b.testMask : ℚ) / Spec.ticks b.testMask)).sum / (batches.map (fun b => Spec.ticks b.testMask)).sum) := by
  unfold test02
  rw [testLoop02_ok batches (0, 0) h]
  show (if 0 + (batches.map (fun b => Spec.ticks b.testMask)).sum = 0 then (Except.error Err.zeroDiv : Py ℚ) else _) = _
  rw [if_neg (by omega)]
  simp

/-- **C203, defect: never more than batches per node.** However good the network, the reported accuracy is at most the number of batches over the number of test nodes, and it is exactly that if every test node is
predicted right; so a perfect network with more test nodes than batches is reported below 1. -/
theorem C203_bound (batches : List Batch02) (h : Spec.Fits02 batches) (hn : ∀ b ∈ batches, 1 ≤ Spec.ticks b.testMask) (hne : batches ≠ []) :
    ∃ a, test02 batches = .ok a ∧ 0 ≤ a ∧ a ≤ (batches.length : ℚ) / (batches.map (fun b => Spec.ticks b.testMask)).sum ∧
      ((∀ b ∈ batches, Spec.rights b.y b.pred b.testMask = Spec.ticks b.testMask) → a = (batches.length : ℚ) / (batches.map (fun b => Spec.ticks b.testMask)).sum) := by
  have hsum : ∀ l : List Batch02, (∀ b ∈ l, 1 ≤ Spec.ticks b.testMask) → l ≠ [] → 0 < (l.map (fun b => Spec.ticks b.testMask)).sum := by
    intro l hl hne
    cases l with
    | nil => exact absurd rfl hne
    | cons b bs =>
      have := hl b List.mem_cons_self
      simp only [List.map_cons, List.sum_cons]; omega
  have key : ∀ l : List Batch02, Spec.Fits02 l → (∀ b ∈ l, 1 ≤ Spec.ticks b.testMask) →
      0 ≤ (l.map (fun b => (Spec.rights b.y b.pred b.testMask : ℚ) / Spec.ticks b.testMask)).sum ∧
      (l.map (fun b => (Spec.rights b.y b.pred b.testMask : ℚ) / Spec.ticks b.testMask)).sum ≤ l.length ∧
      ((∀ b ∈ l, Spec.rights b.y b.pred b.testMask = Spec.ticks b.testMask) → (l.map (fun b => (Spec.rights b.y b.pred b.testMask : ℚ) / Spec.ticks b.testMask)).sum = l.length) := by
    intro l
    induction l with
    | nil => intro _ _; simp
    | cons b bs ih =>
      intro hf hl
      obtain ⟨i1, i2, i3⟩ := ih (fun x hx => hf x (List.mem_cons_of_mem _ hx)) (fun x hx => hl x (List.mem_cons_of_mem _ hx))
      have hp : (0 : ℚ) < Spec.ticks b.testMask := by exact_mod_cast hl b List.mem_cons_self
      obtain ⟨f1, f2⟩ := hf b List.mem_cons_self
      have hr : (Spec.rights b.y b.pred b.testMask : ℚ) / Spec.ticks b.testMask ≤ 1 := by
        rw [div_le_one hp]; exact_mod_cast rights_le _ _ _ f1 f2
      have h0 : 0 ≤ (Spec.rights b.y b.pred b.testMask : ℚ) / Spec.ticks b.testMask := by positivity
      simp only [List.map_cons, List.sum_cons, List.length_cons]
      push_cast
      refine ⟨by linarith, by linarith, ?_⟩
      intro hall
      rw [i3 (fun x hx => hall x (List.mem_cons_of_mem _ hx)), hall b List.mem_cons_self, div_self hp.ne']
      ring
  have hs := hsum batches hn hne
  have hq : (0 : ℚ) < (batches.map (fun b => Spec.ticks b.testMask)).sum := by exact_mod_cast hs
  obtain ⟨k1, k2, k3⟩ := key batches h hn
  refine ⟨_, C203_accuracy batches h hs, div_nonneg k1 hq.le, div_le_div_of_nonneg_right k2 hq.le, ?_⟩
  intro hall
  rw [k3 hall]

/-- **C203, no test nodes** is a ZeroDivisionError. -/
theorem C203_empty : test02 [] = .error .zeroDiv := by decide +kernel

/-- **C203, the epochs.** `train()` runs one epoch fewer than asked for: if nothing raises it prints the epochs `1` to `epochs - 1` in order, each with its own loss and accuracy. -/
theorem C203_epochs (epochs : Nat) (tr te : Nat → ℚ) :
    train02 epochs (fun e => .ok (tr e)) (fun e => .ok (te e)) = .ok ((List.range' 1 (epochs - 1)).map (fun e => (e, tr e, te e))) := by
  unfold train02
  generalize List.range' 1 (epochs - 1) = l
  induction l with
  | nil => rfl
  | cons a l ih =>
    rw [List.mapM_cons, ih]
    rfl

/-- **C203, the loss** of an epoch over a dataset whose graphs are all in the batches: between all bounds of the losses of the batches. -/
theorem C203_loss (batches : List Batch02) (size : Nat) (lo hi : ℚ) (hsz : (batches.map (fun b => b.graphs)).sum = size) (hs : 0 < size) (hb : ∀ b ∈ batches, lo ≤ b.loss ∧ b.loss ≤ hi) :
    ∃ l, trainEpoch02 batches size = .ok l ∧ lo ≤ l ∧ l ≤ hi := by
  have key : ∀ l : List Batch02, (∀ b ∈ l, lo ≤ b.loss ∧ b.loss ≤ hi) →
      lo * ((l.map (fun b => b.graphs)).sum : ℕ) ≤ (l.map (fun b => (b.graphs : ℚ) * b.loss)).sum ∧ (l.map (fun b => (b.graphs : ℚ) * b.loss)).sum ≤ hi * ((l.map (fun b => b.graphs)).sum : ℕ) := by
    intro l
    induction l with
    | nil => intro _; simp
    | cons b bs ih =>
      intro h
      obtain ⟨i1, i2⟩ := ih (fun x hx => h x (List.mem_cons_of_mem _ hx))
      obtain ⟨j1, j2⟩ := h b List.mem_cons_self
      simp only [List.map_cons, List.sum_cons]
      push_cast at i1 i2 ⊢
      have hg : (0 : ℚ) ≤ b.graphs := by positivity
      have d1 := mul_le_mul_of_nonneg_left j1 hg
      have d2 := mul_le_mul_of_nonneg_left j2 hg
      constructor <;> nlinarith
  obtain ⟨k1, k2⟩ := key batches hb
  rw [hsz] at k1 k2
  have hp : (0 : ℚ) < size := by exact_mod_cast hs
  refine ⟨_, by rw [trainEpoch02, if_neg (by omega)], (le_div_iff₀ hp).2 k1, (div_le_iff₀ hp).2 k2⟩

/-- A perfect network on one batch with two test nodes is reported with one half. -/
example : test02 [⟨[1, 2, 3], [1, 2, 0], [true, true, false], 1, 0⟩] = .ok (1/2) := by decide +kernel

/-! ### C204 -/

/-- The share of right predictions. -/
def Spec.shareOf (y pred : List Int) (mask : List Bool) : ℚ := (Spec.rights y pred mask : ℚ) / Spec.ticks mask

theorem gatTest_ok (y pred : List Int) (train val test : List Bool) (h1 : train.length = y.length) (h2 : val.length = y.length) (h3 : test.length = y.length) (h4 : pred.length = y.length)
    (n1 : 0 < Spec.ticks train) (n2 : 0 < Spec.ticks val) (n3 : 0 < Spec.ticks test) :
    gatTest y train val test pred = .ok (Spec.shareOf y pred train, Spec.shareOf y pred val, Spec.shareOf y pred test) := by
  have one : ∀ m : List Bool, m.length = y.length → 0 < Spec.ticks m → maskAcc y pred m = .ok (Spec.shareOf y pred m) := by
    intro m hm hn
    obtain ⟨r, e1, e2, e3⟩ := rightOf_ok y pred m hm (by rw [hm, h4])
    unfold maskAcc
    rw [e1]
    show (if r.length = 0 then (Except.error Err.zeroDiv : Py ℚ) else _) = _
    rw [if_neg (by omega), e2, e3]
    rfl
  unfold gatTest
  rw [one train h1 n1, one val h2 n2, one test h3 n3]
  rfl

/-- The epoch whose test accuracy is shown in epoch `e`: the first one with the greatest validation accuracy up to then. -/
def Spec.BestSoFar (val : Nat → ℚ) (e k : Nat) : Prop := k ≤ e ∧ (∀ i, i ≤ e → val i ≤ val k) ∧ (∀ i, i < k → val i < val k)

/-- The loop, started after some epochs: `f i` is what epoch `i` measures, `k` the best epoch so far. -/
theorem gatLoop_spec (test : List Int → Py (ℚ × ℚ × ℚ)) (f : Nat → ℚ × ℚ × ℚ) : ∀ (ps : List (List Int)) (e k : Nat),
    Spec.BestSoFar (fun i => (f i).2.1) e k → (∀ i, (hi : i < ps.length) → test ps[i] = .ok (f (e + 1 + i))) →
    ∃ rows, gatLoop test (f k).2.1 (some (f k).2.2) ps = .ok rows ∧ rows.length = ps.length ∧
      ∀ i, i < ps.length → ∃ k', Spec.BestSoFar (fun i => (f i).2.1) (e + 1 + i) k' ∧ rows[i]? = some ((f (e + 1 + i)).1, (f (e + 1 + i)).2.1, (f k').2.2) := by
  intro ps
  induction ps with
  | nil => intro e k _ _; exact ⟨[], rfl, rfl, by simp⟩
  | cons p ps ih =>
    intro e k hk ht
    have h0 := ht 0 (by simp)
    simp only [List.getElem_cons_zero, Nat.add_zero] at h0
    obtain ⟨k', hk', hst⟩ : ∃ k', Spec.BestSoFar (fun i => (f i).2.1) (e + 1) k' ∧
        (if (f (e + 1)).2.1 > (f k).2.1 then ((f (e + 1)).2.1, some (f (e + 1)).2.2) else ((f k).2.1, some (f k).2.2)) = ((f k').2.1, some (f k').2.2) := by
      obtain ⟨a, b, c⟩ := hk
      by_cases hg : (f (e + 1)).2.1 > (f k).2.1
      · refine ⟨e + 1, ⟨le_refl _, ?_, ?_⟩, by rw [if_pos hg]⟩
        · intro i hi
          rcases Nat.lt_or_ge i (e + 1) with h | h
          · exact (b i (by omega)).trans hg.le
          · rw [show i = e + 1 by omega]
        · intro i hi
          exact lt_of_le_of_lt (b i (by omega)) hg
      · refine ⟨k, ⟨by omega, ?_, c⟩, by rw [if_neg hg]⟩
        intro i hi
        rcases Nat.lt_or_ge i (e + 1) with h | h
        · exact b i (by omega)
        · rw [show i = e + 1 by omega]; exact not_lt.1 hg
    obtain ⟨rows, r1, r2, r3⟩ := ih (e + 1) k' hk' (by
      intro i hi
      have := ht (i + 1) (by simp; omega)
      simp only [List.getElem_cons_succ] at this
      rw [this]
      congr 2; omega)
    refine ⟨((f (e + 1)).1, (f (e + 1)).2.1, (f k').2.2) :: rows, ?_, by simp [r2], ?_⟩
    · rw [gatLoop, h0]
      show (match (if (f (e + 1)).2.1 > (f k).2.1 then ((f (e + 1)).2.1, some (f (e + 1)).2.2) else ((f k).2.1, some (f k).2.2)).2 with
        | none => (Except.error Err.name : Py (List (ℚ × ℚ × ℚ)))
        | some x => _) = _
      rw [hst]
      show (gatLoop test (f k').2.1 (some (f k').2.2) ps >>= _) = _
      rw [r1]
      rfl
    · intro i hi
      cases i with
      | zero => exact ⟨k', hk', rfl⟩
      | succ i =>
        obtain ⟨k2, a, b⟩ := r3 i (by simpa using hi)
        rw [show e + 1 + (i + 1) = e + 1 + 1 + i by omega]
        exact ⟨k2, a, by simpa using b⟩

/-- **C204, the script.** With masks that fit and are not empty: if some validation node is predicted right in the first epoch, every epoch logs its own training and validation accuracy, and the test accuracy of the
first epoch with the greatest validation accuracy so far. Otherwise (a defect: the variable does not exist yet) the script ends with NameError in its first epoch. -/
theorem C204_script (y : List Int) (train val test : List Bool) (preds : List (List Int)) (h1 : train.length = y.length) (h2 : val.length = y.length) (h3 : test.length = y.length)
    (h4 : ∀ p ∈ preds, p.length = y.length) (n1 : 0 < Spec.ticks train) (n2 : 0 < Spec.ticks val) (n3 : 0 < Spec.ticks test) (first : List Int) (hf : preds.head? = some first) :
    (0 < Spec.rights y first val → ∃ rows, gatScript y train val test preds = .ok rows ∧ rows.length = preds.length ∧
      ∀ i, (hi : i < preds.length) → ∃ k, ∃ hk : k < preds.length, Spec.BestSoFar (fun j => Spec.shareOf y (preds.getD j []) val) i k ∧
        rows[i]? = some (Spec.shareOf y preds[i] train, Spec.shareOf y preds[i] val, Spec.shareOf y preds[k] test)) ∧
    (Spec.rights y first val = 0 → gatScript y train val test preds = .error .name) := by
  cases preds with
  | nil => cases hf
  | cons p ps =>
    cases hf
    have ht : ∀ q ∈ first :: ps, gatTest y train val test q = .ok (Spec.shareOf y q train, Spec.shareOf y q val, Spec.shareOf y q test) :=
      fun q hq => gatTest_ok y q train val test h1 h2 h3 (h4 q hq) n1 n2 n3
    have hp : (0 : ℚ) < Spec.ticks val := by exact_mod_cast n2
    constructor
    · intro hr
      have hpos : Spec.shareOf y first val > 0 := div_pos (by exact_mod_cast hr) hp
      obtain ⟨f, hfdef⟩ : ∃ f : Nat → ℚ × ℚ × ℚ, f = fun j => (Spec.shareOf y ((first :: ps).getD j []) train, Spec.shareOf y ((first :: ps).getD j []) val, Spec.shareOf y ((first :: ps).getD j []) test) := ⟨_, rfl⟩
      have hf0 : f 0 = (Spec.shareOf y first train, Spec.shareOf y first val, Spec.shareOf y first test) := by rw [hfdef]; rfl
      have hfi : ∀ i, (hi : i < (first :: ps).length) → f i = (Spec.shareOf y (first :: ps)[i] train, Spec.shareOf y (first :: ps)[i] val, Spec.shareOf y (first :: ps)[i] test) := by
        intro i hi
        rw [hfdef]
        simp only [List.getD_eq_getElem?_getD, List.getElem?_eq_getElem hi, Option.getD_some]
      have hbest0 : Spec.BestSoFar (fun i => (f i).2.1) 0 0 := ⟨le_refl _, by intro i hi; rw [Nat.le_zero.1 hi], by intro i hi; omega⟩
      obtain ⟨rows, r1, r2, r3⟩ := gatLoop_spec (gatTest y train val test) f ps 0 0 hbest0 (by
        intro i hi
        rw [ht _ (List.mem_cons_of_mem _ (List.getElem_mem hi)), hfi (0 + 1 + i) (by simp; omega)]
        have : (first :: ps)[0 + 1 + i]'(by simp; omega) = ps[i] := by
          simp only [show 0 + 1 + i = i + 1 by omega, List.getElem_cons_succ]
        rw [this])
      rw [hf0] at r1
      refine ⟨(Spec.shareOf y first train, Spec.shareOf y first val, Spec.shareOf y first test) :: rows, ?_, by simp [r2], ?_⟩
      · unfold gatScript
        rw [gatLoop, ht first List.mem_cons_self]
        show (match (if Spec.shareOf y first val > 0 then (Spec.shareOf y first val, some (Spec.shareOf y first test)) else ((0 : ℚ), none)).2 with
          | none => (Except.error Err.name : Py (List (ℚ × ℚ × ℚ)))
          | some x => _) = _
        rw [if_pos hpos]
        show (gatLoop (gatTest y train val test) (Spec.shareOf y first val) (some (Spec.shareOf y first test)) ps >>= _) = _
        rw [r1]
        rfl
      · have hsame : (fun j => Spec.shareOf y ((first :: ps).getD j []) val) = fun j => (f j).2.1 := by rw [hfdef]
        rw [hsame]
        intro i hi
        cases i with
        | zero => exact ⟨0, by simp, hbest0, rfl⟩
        | succ i =>
          obtain ⟨k, a, b⟩ := r3 i (by simpa using hi)
          have hk : k < (first :: ps).length := by have := a.1; omega
          refine ⟨k, hk, by rw [show i + 1 = 0 + 1 + i by omega]; exact a, ?_⟩
          rw [show 0 + 1 + i = i + 1 by omega, hfi (i + 1) hi, hfi k hk] at b
          simpa using b
    · intro hr
      have hz : Spec.shareOf y first val = 0 := by unfold Spec.shareOf; rw [hr]; simp
      unfold gatScript
      rw [gatLoop, ht first List.mem_cons_self]
      show (match (if Spec.shareOf y first val > 0 then (Spec.shareOf y first val, some (Spec.shareOf y first test)) else ((0 : ℚ), none)).2 with
        | none => (Except.error Err.name : Py (List (ℚ × ℚ × ℚ)))
        | some x => _) = _
      rw [if_neg (by rw [hz]; exact lt_irrefl _)]

/-- **C204, an empty mask** is a ZeroDivisionError in the first epoch. -/
theorem C204_empty_mask (y : List Int) (train val test : List Bool) (p : List Int) (ps : List (List Int)) (h1 : train.length = y.length) (h4 : p.length = y.length) (n : Spec.ticks train = 0) :
    gatScript y train val test (p :: ps) = .error .zeroDiv := by
  obtain ⟨r, e1, e2, _⟩ := rightOf_ok y p train h1 (by rw [h1, h4])
  unfold gatScript
  rw [gatLoop]
  unfold gatTest maskAcc
  rw [e1]
  show (((if r.length = 0 then (Except.error Err.zeroDiv : Py ℚ) else _) >>= _) >>= _) = _
  rw [if_pos (by omega)]
  rfl

/-- Two runs over three epochs: the second shows in its last epoch the test accuracy of the second; the first begins without a right validation node. -/
example : gatScript [1, 2, 3] [true, false, false] [false, true, false] [false, false, true] [[1, 0, 0], [1, 2, 3]] = .error .name ∧
    gatScript [1, 2, 3, 4] [true, false, false, false] [false, true, true, false] [false, false, false, true] [[1, 2, 0, 4], [1, 2, 3, 0], [1, 0, 3, 4]] =
      .ok [(1, 1/2, 1), (1, 1, 0), (1, 1/2, 0)] := by
  refine ⟨by decide +kernel, by decide +kernel⟩

end NGC
