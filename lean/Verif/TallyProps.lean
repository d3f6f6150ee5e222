import Verif.GatLstm
import Mathlib.Tactic.Ring
import Mathlib.Tactic.Linarith
import Mathlib.Tactic.FieldSimp
import Mathlib.Algebra.BigOperators.Group.List.Basic
import Mathlib.Algebra.Order.Field.Rat

namespace NGC

namespace Spec

/-- How many nodes have class `c` and were predicted as class `d`, over all epochs. -/
def hits (y : List Nat) (preds : List (List Nat)) (q : Nat → Nat → Bool) : Nat :=
  (preds.map (fun pred => ((pred.zip y).filter (fun p => q p.1 p.2)).length)).sum

end Spec

open Spec

/-- The tallies of a class. -/
theorem tally_fold (classes : Nat) (y : List Nat) (preds : List (List Nat)) (t : GcnTally)
    (h1 : t.tp.length = classes) (h2 : t.fp.length = classes) (h3 : t.fn.length = classes) :
    let r := preds.foldl (GcnTally.epoch classes y) t
    r.correct = t.correct + hits y preds (fun a b => a == b) ∧ r.total = t.total + preds.length * y.length ∧
    r.tp.length = classes ∧ r.fp.length = classes ∧ r.fn.length = classes ∧
    (∀ i < classes, r.tp.getD i 0 = t.tp.getD i 0 + hits y preds (fun a b => a == i && b == i)) ∧
    (∀ i < classes, r.fp.getD i 0 = t.fp.getD i 0 + hits y preds (fun a b => a == i && b != i)) ∧
    (∀ i < classes, r.fn.getD i 0 = t.fn.getD i 0 + hits y preds (fun a b => a != i && b == i)) := by
  induction preds generalizing t with
  | nil => simp [hits, h1, h2, h3]
  | cons pred preds ih =>
    have hget : ∀ (f : Nat → Nat) (i : Nat), i < classes → ((List.range classes).map f).getD i 0 = f i := by
      intro f i hi
      rw [List.getD_eq_getElem?_getD, List.getElem?_map, List.getElem?_range hi]
      rfl
    have := ih (t.epoch classes y pred) (by simp [GcnTally.epoch]) (by simp [GcnTally.epoch]) (by simp [GcnTally.epoch])
    obtain ⟨a, b, c, d, e, f, g, k⟩ := this
    have hh : ∀ q, hits y (pred :: preds) q = ((pred.zip y).filter (fun p => q p.1 p.2)).length + hits y preds q := by
      intro q; simp [hits]
    refine ⟨?_, ?_, c, d, e, ?_, ?_, ?_⟩
    · rw [List.foldl_cons, a, hh, ← Nat.add_assoc]
      rfl
    · rw [List.foldl_cons, b, List.length_cons]
      simp only [GcnTally.epoch]
      ring
    · intro i hi
      rw [List.foldl_cons, f i hi, hh, ← Nat.add_assoc]
      simp only [GcnTally.epoch]
      rw [hget _ i hi]
    · intro i hi
      rw [List.foldl_cons, g i hi, hh, ← Nat.add_assoc]
      simp only [GcnTally.epoch]
      rw [hget _ i hi]
    · intro i hi
      rw [List.foldl_cons, k i hi, hh, ← Nat.add_assoc]
      simp only [GcnTally.epoch]
      rw [hget _ i hi]

theorem hits_add (y : List Nat) (preds : List (List Nat)) (q r s : Nat → Nat → Bool)
    (h : ∀ a b, s a b = (q a b || r a b)) (hd : ∀ a b, ¬ (q a b = true ∧ r a b = true)) : hits y preds q + hits y preds r = hits y preds s := by
  unfold hits
  rw [← List.sum_map_add]
  congr 1
  apply List.map_congr_left
  intro pred _
  induction pred.zip y with
  | nil => rfl
  | cons p l ih =>
    simp only [List.filter_cons, h p.1 p.2]
    have := hd p.1 p.2
    cases h1 : q p.1 p.2 <;> cases h2 : r p.1 p.2 <;> simp [h1, h2] at this ih ⊢ <;> omega

theorem hits_class (y : List Nat) (preds : List (List Nat)) (hp : ∀ p ∈ preds, p.length = y.length) (i : Nat) :
    hits y preds (fun _ b => b == i) = preds.length * (y.filter (fun b => b == i)).length := by
  induction preds with
  | nil => simp [hits]
  | cons pred preds ih =>
    have ih := ih (fun p h => hp p (by simp [h]))
    have hh : hits y (pred :: preds) (fun _ b => b == i) = ((pred.zip y).filter (fun p => p.2 == i)).length + hits y preds (fun _ b => b == i) := by
      simp [hits]
    have h1 : ((pred.zip y).filter (fun p => p.2 == i)).length = (y.filter (fun b => b == i)).length := by
      have h2 : (pred.zip y).map Prod.snd = y := List.map_snd_zip (by rw [hp pred (by simp)])
      conv_rhs => rw [← h2, List.filter_map, List.length_map]
      rfl
    rw [hh, ih, h1, List.length_cons]
    ring

theorem hits_sum (classes : Nat) (y : List Nat) (preds : List (List Nat)) (hy : ∀ b ∈ y, b < classes) :
    ((List.range classes).map (fun i => hits y preds (fun a b => a == i && b == i))).sum = hits y preds (fun a b => a == b) := by
  induction preds with
  | nil => simp [hits]
  | cons pred preds ih =>
    have hh : ∀ q, hits y (pred :: preds) q = ((pred.zip y).filter (fun p => q p.1 p.2)).length + hits y preds q := by
      intro q; simp [hits]
    simp only [hh]
    rw [List.sum_map_add, ih]
    congr 1
    have hz : ∀ p ∈ pred.zip y, p.2 < classes := fun p hp => hy p.2 (List.of_mem_zip hp).2
    revert hz
    induction pred.zip y with
    | nil => intro _; simp
    | cons p l ihl =>
      intro hz
      have ih2 := ihl (fun q hq => hz q (by simp [hq]))
      have e : ∀ i, ((p :: l).filter (fun p => p.1 == i && p.2 == i)).length =
          (if p.1 = i ∧ p.2 = i then 1 else 0) + (l.filter (fun p => p.1 == i && p.2 == i)).length := by
        intro i
        rw [List.filter_cons]
        by_cases h : p.1 = i ∧ p.2 = i
        · simp [h.1, h.2]; omega
        · rw [if_neg h]
          have : (p.1 == i && p.2 == i) = false := by
            rw [Bool.and_eq_false_iff]
            by_cases h1 : p.1 = i
            · right; simpa using fun h2 => h ⟨h1, h2⟩
            · left; simpa using h1
          rw [this]; simp
      simp only [e]
      rw [List.sum_map_add, ih2, List.filter_cons]
      have hs : ((List.range classes).map (fun i => if p.1 = i ∧ p.2 = i then 1 else 0)).sum = if p.1 = p.2 then 1 else 0 := by
        have hlt := hz p (by simp)
        by_cases hpe : p.1 = p.2
        · rw [if_pos hpe]
          have : (fun i => if p.1 = i ∧ p.2 = i then 1 else 0) = fun i => if i = p.2 then 1 else 0 := by
            funext i
            congr 1
            rw [hpe]
            exact propext ⟨fun h => h.1.symm, fun h => ⟨h.symm, h.symm⟩⟩
          rw [this]
          clear * - hlt
          induction classes with
          | zero => omega
          | succ n ih =>
            rw [List.range_succ, List.map_append, List.sum_append]
            by_cases hn : p.2 < n
            · rw [ih hn]
              simp [Nat.ne_of_gt hn]
            · have hpn : p.2 = n := by omega
              have h0 : ((List.range n).map (fun i => if i = p.2 then 1 else 0)).sum = 0 := by
                apply List.sum_eq_zero
                intro x hx
                obtain ⟨i, hi, rfl⟩ := List.mem_map.mp hx
                have := List.mem_range.mp hi
                rw [if_neg (by omega)]
              rw [h0]
              simp [hpn]
        · rw [if_neg hpe]
          apply List.sum_eq_zero
          intro x hx
          obtain ⟨i, _, rfl⟩ := List.mem_map.mp hx
          rw [if_neg]
          rintro ⟨h1, h2⟩
          exact hpe (h1.trans h2.symm)
      rw [hs]
      by_cases hpe : p.1 = p.2 <;> simp [hpe]; omega

/-- C182: the counts of a training run: of every class, the true positives and false positives together are the nodes predicted so, the true
positives and false negatives together the nodes of the class, counted once per epoch; all true positives together are the right
predictions. The accuracy is the share of right predictions. Without epochs or without nodes it is ZeroDivisionError. -/
theorem C182_counts (classes : Nat) (y : List Nat) (preds : List (List Nat)) (hp : ∀ p ∈ preds, p.length = y.length) :
    (preds = [] ∨ y = [] → trainGcn classes y preds = .error .zeroDiv) ∧
    (preds ≠ [] → y ≠ [] → ∃ t r, trainGcn classes y preds = .ok (t, r) ∧
      t.correct = hits y preds (fun a b => a == b) ∧ t.total = preds.length * y.length ∧
      r.accuracy = (hits y preds (fun a b => a == b) : ℚ) / (preds.length * y.length : ℕ) ∧
      (∀ i < classes, t.tp.getD i 0 = hits y preds (fun a b => a == i && b == i) ∧
        t.tp.getD i 0 + t.fp.getD i 0 = hits y preds (fun a _ => a == i) ∧
        t.tp.getD i 0 + t.fn.getD i 0 = preds.length * (y.filter (fun b => b == i)).length) ∧
      ((∀ b ∈ y, b < classes) → t.tp.sum = t.correct)) := by
  obtain ⟨h1, h2, h3, h4, h5, h6, h7, h8⟩ := tally_fold classes y preds ⟨0, 0, List.replicate classes 0, List.replicate classes 0, List.replicate classes 0⟩
    (by simp) (by simp) (by simp)
  have hz : ∀ i, (List.replicate classes 0).getD i 0 = 0 := by
    intro i
    rw [List.getD_eq_getElem?_getD, List.getElem?_replicate]
    split <;> rfl
  simp only [hz, Nat.zero_add] at h1 h2 h6 h7 h8
  constructor
  · rintro (rfl | rfl)
    · rfl
    · unfold trainGcn
      dsimp only
      rw [h2]
      simp
  · intro hne hny
    have hl1 : preds.length ≠ 0 := by simpa using hne
    have hl2 : preds.length * y.length ≠ 0 := by simp [hne, hny]
    refine ⟨_, _, by unfold trainGcn; dsimp only; rw [if_neg hl1, if_neg (by rw [h2]; exact hl2)], h1, h2, ?_, ?_, ?_⟩
    · simp only [h1, h2]
    · intro i hi
      rw [h6 i hi, h7 i hi, h8 i hi]
      refine ⟨rfl, ?_, ?_⟩
      · refine hits_add _ _ _ _ _ ?_ ?_
        · intro a b; cases h : a == i <;> cases h' : b == i <;> simp [bne, h']
        · intro a b; cases h : a == i <;> cases h' : b == i <;> simp [bne, h']
      · rw [← hits_class y preds hp i]
        refine hits_add _ _ _ _ _ ?_ ?_
        · intro a b; cases h : a == i <;> cases h' : b == i <;> simp [bne, h]
        · intro a b; cases h : a == i <;> cases h' : b == i <;> simp [bne, h]
    · intro hy
      rw [h1, ← hits_sum classes y preds hy]
      congr 1
      apply List.ext_getElem
      · rw [h3]; simp
      · intro i a b
        rw [List.getElem_map, List.getElem_range]
        have := h6 i (by rw [← h3]; exact a)
        rw [← this, List.getD_eq_getElem?_getD, List.getElem?_eq_getElem a]
        rfl

/-- C182: accuracy, precision, recall and F1 of every class lie between 0 and 1; precision, recall and F1 never reach 1, even if every
prediction is right (a small constant is added to the denominators). -/
theorem C182_bounds (classes : Nat) (y : List Nat) (preds : List (List Nat)) (hp : ∀ p ∈ preds, p.length = y.length) (t : GcnTally) (r : GcnReport)
    (h : trainGcn classes y preds = .ok (t, r)) :
    0 ≤ r.accuracy ∧ r.accuracy ≤ 1 ∧ (∀ p ∈ r.precision ++ r.recall ++ r.f1, 0 ≤ p ∧ p < 1) := by
  have hne : preds ≠ [] ∧ y ≠ [] := by
    constructor <;> intro e
    · rw [(C182_counts classes y preds hp).1 (Or.inl e)] at h; cases h
    · rw [(C182_counts classes y preds hp).1 (Or.inr e)] at h; cases h
  obtain ⟨t', r', h', h1, h2, h3, -⟩ := (C182_counts classes y preds hp).2 hne.1 hne.2
  rw [h] at h'
  cases Except.ok.inj h'
  have hle : hits y preds (fun a b => a == b) ≤ preds.length * y.length := by
    unfold hits
    clear * - hp
    induction preds with
    | nil => simp
    | cons p ps ih =>
      have := ih (fun q hq => hp q (by simp [hq]))
      have h2 := List.length_filter_le (fun p => (fun a b => a == b) p.1 p.2) (p.zip y)
      rw [List.length_zip] at h2
      rw [List.map_cons, List.sum_cons, List.length_cons, Nat.add_mul, Nat.one_mul]
      omega
  have hq : ∀ a b : Nat, 0 ≤ (a : ℚ) / (a + b + 1 / 10 ^ 8) ∧ (a : ℚ) / (a + b + 1 / 10 ^ 8) < 1 := by
    intro a b
    refine ⟨by positivity, ?_⟩
    rw [div_lt_one (by positivity)]
    have : (0 : ℚ) ≤ b := by positivity
    have : (0 : ℚ) < 1 / 10 ^ 8 := by norm_num
    linarith
  refine ⟨?_, ?_, ?_⟩
  · rw [h3]; positivity
  · rw [h3]
    apply div_le_one_of_le₀ _ (by positivity)
    exact_mod_cast hle
  · unfold trainGcn at h
    dsimp only at h
    split at h
    · cases h
    · split at h
      · cases h
      · have he := Except.ok.inj h
        have hr := (Prod.mk.inj he).2
        rw [← hr]
        dsimp only
        have hb : ∀ (l m : List Nat), ∀ p ∈ (l.zip m).map (fun p => (p.1 : ℚ) / (p.1 + p.2 + 1 / 10 ^ 8)), 0 ≤ p ∧ p < 1 := by
          intro l m p hp
          obtain ⟨q, _, rfl⟩ := List.mem_map.mp hp
          exact hq q.1 q.2
        intro p hp
        rcases List.mem_append.mp hp with hp | hp
        · rcases List.mem_append.mp hp with hp | hp
          · exact hb _ _ p hp
          · exact hb _ _ p hp
        · obtain ⟨q, hq', rfl⟩ := List.mem_map.mp hp
          obtain ⟨a, b⟩ := q
          have hm := List.of_mem_zip hq'
          obtain ⟨a0, a1⟩ := hb _ _ a hm.1
          obtain ⟨b0, b1⟩ := hb _ _ b hm.2
          have he : (0 : ℚ) < 1 / 10 ^ 8 := by norm_num
          dsimp only
          refine ⟨by positivity, ?_⟩
          rw [div_lt_one (by positivity)]
          nlinarith

/-- C182: what precision, recall and F1 of a class are, in terms of the nodes: right ones over predicted ones, right ones over nodes of the
class (once per epoch), and twice the product of the two over their sum, always with the small constant added to the denominator. -/
theorem C182_scores (classes : Nat) (y : List Nat) (preds : List (List Nat)) (hp : ∀ p ∈ preds, p.length = y.length) (t : GcnTally) (r : GcnReport)
    (h : trainGcn classes y preds = .ok (t, r)) (i : Nat) (hi : i < classes) :
    let right : ℚ := (hits y preds (fun a b => a == i && b == i) : ℕ)
    let prec := right / ((hits y preds (fun a _ => a == i) : ℕ) + 1 / 10 ^ 8)
    let rec' := right / ((preds.length * (y.filter (fun b => b == i)).length : ℕ) + 1 / 10 ^ 8)
    r.precision[i]? = some prec ∧ r.recall[i]? = some rec' ∧ r.f1[i]? = some (2 * prec * rec' / (prec + rec' + 1 / 10 ^ 8)) := by
  have hne : preds ≠ [] ∧ y ≠ [] := by
    constructor <;> intro e
    · rw [(C182_counts classes y preds hp).1 (Or.inl e)] at h; cases h
    · rw [(C182_counts classes y preds hp).1 (Or.inr e)] at h; cases h
  obtain ⟨t', r', h', h1, h2, h3, h4, -⟩ := (C182_counts classes y preds hp).2 hne.1 hne.2
  rw [h] at h'
  cases Except.ok.inj h'
  obtain ⟨k1, k2, k3⟩ := h4 i hi
  obtain ⟨-, -, l1, l2, l3, -⟩ := tally_fold classes y preds ⟨0, 0, List.replicate classes 0, List.replicate classes 0, List.replicate classes 0⟩
    (by simp) (by simp) (by simp)
  unfold trainGcn at h
  dsimp only at h
  split at h
  · cases h
  · split at h
    · cases h
    · have he := Except.ok.inj h
      have ht := (Prod.mk.inj he).1
      have hr := (Prod.mk.inj he).2
      rw [ht] at hr l1 l2 l3
      have hg : ∀ l : List Nat, l.length = classes → l[i]? = some (l.getD i 0) := by
        intro l hl
        rw [List.getD_eq_getElem?_getD, List.getElem?_eq_getElem (by omega)]
        rfl
      have ez : ∀ l m : List Nat, l.length = classes → m.length = classes → (l.zip m)[i]? = some (l.getD i 0, m.getD i 0) := by
        intro l m hl hm
        rw [List.getElem?_zip_eq_some]
        exact ⟨hg l hl, hg m hm⟩
      have hprec : r.precision[i]? = some ((hits y preds (fun a b => a == i && b == i) : ℚ) / ((hits y preds (fun a _ => a == i) : ℕ) + 1 / 10 ^ 8)) := by
        rw [← hr, List.getElem?_map, ez _ _ l1 l2, ← k2, ← k1]
        simp
      have hrec : r.recall[i]? = some ((hits y preds (fun a b => a == i && b == i) : ℚ) /
          ((preds.length * (y.filter (fun b => b == i)).length : ℕ) + 1 / 10 ^ 8)) := by
        rw [← k3, ← hr, List.getElem?_map, ez _ _ l1 l3, ← k1]
        simp
      refine ⟨hprec, hrec, ?_⟩
      have hf : r.f1 = (r.precision.zip r.recall).map (fun p => 2 * p.1 * p.2 / (p.1 + p.2 + 1 / 10 ^ 8)) := by rw [← hr]
      have hzip : (r.precision.zip r.recall)[i]? = some (_, _) := (List.getElem?_zip_eq_some (z := (_, _))).mpr ⟨hprec, hrec⟩
      rw [hf, List.getElem?_map, hzip]
      rfl

/-- C182 (defect): the accuracy printed for the sequence model is not a share: right entries are counted per step and feature, but only one
prediction per sequence, so for every length and width there are sequences with accuracy length times width. -/
theorem C182_lstm_accuracy (len width : Nat) :
    lstmAccuracy [(List.replicate len (List.replicate width 0), List.replicate (len - 1) (List.replicate width 0))] width = .ok ((len * width : ℕ) : ℚ) := by
  have hpred : ∀ f : Nat, ((List.replicate (len - 1) (List.replicate width (0 : ℚ))).map (fun r => r.getD f 0)) = List.replicate (len - 1) 0 := by
    intro f
    rw [List.map_replicate]
    congr 1
    rw [List.getD_eq_getElem?_getD, List.getElem?_replicate]
    split <;> rfl
  have hmax : ∀ n : Nat, (List.replicate n (0 : ℚ)).foldl max ((List.replicate n (0 : ℚ)).headD 0) = 0 := by
    intro n
    have h0 : (List.replicate n (0 : ℚ)).headD 0 = 0 := by cases n <;> rfl
    rw [h0]
    induction n with
    | zero => rfl
    | succ n ih =>
      rw [List.replicate_succ, List.foldl_cons, max_self]
      exact ih (by cases n <;> rfl)
  have hidx : ∀ n : Nat, (List.replicate n (0 : ℚ)).idxOf 0 = 0 := by
    intro n
    cases n with
    | zero => rfl
    | succ n => rw [List.replicate_succ, List.idxOf_cons_self]
  unfold lstmAccuracy lstmCorrect
  simp only [hpred, hmax, hidx, List.map_cons, List.map_nil, List.sum_cons, List.sum_nil, Nat.add_zero, Nat.one_ne_zero, if_false]
  congr 1
  rw [Nat.cast_one, div_one]
  congr 1
  rw [List.map_replicate, List.sum_replicate, smul_eq_mul]
  congr 1
  have : (List.range width).map (fun _ : Nat => 0) = List.replicate width 0 := by
    rw [List.map_const']; simp
  rw [this, List.zip_replicate]
  simp

/-- The accuracy as it is computed: matches over sequences. -/
theorem C182_lstm_quotient (runs : List (List (List ℚ) × List (List ℚ))) (width : Nat) (h : runs ≠ []) :
    lstmAccuracy [] width = .error .zeroDiv ∧
    lstmAccuracy runs width = .ok (((runs.map (fun r => (lstmCorrect r.1 r.2 width).1)).sum : ℚ) / runs.length) := by
  refine ⟨rfl, ?_⟩
  unfold lstmAccuracy
  have h1 : (runs.map (fun r => (lstmCorrect r.1 r.2 width).2)).sum = runs.length := by
    have : (fun r : List (List ℚ) × List (List ℚ) => (lstmCorrect r.1 r.2 width).2) = fun _ => 1 := rfl
    rw [this, List.map_const', List.sum_replicate]
    simp
  simp only [h1]
  rw [if_neg (by simpa using h)]

/-- Two epochs with three nodes of classes 0, 1, 1. -/
example : trainGcn 2 [0, 1, 1] [[0, 0, 1], [0, 1, 1]] =
    .ok (⟨5, 6, [2, 3], [1, 0], [0, 1]⟩, ⟨5 / 6, [2 / (3 + 1 / 10 ^ 8), 3 / (3 + 1 / 10 ^ 8)], [2 / (2 + 1 / 10 ^ 8), 3 / (4 + 1 / 10 ^ 8)],
      [2 * (2 / (3 + 1 / 10 ^ 8)) * (2 / (2 + 1 / 10 ^ 8)) / (2 / (3 + 1 / 10 ^ 8) + 2 / (2 + 1 / 10 ^ 8) + 1 / 10 ^ 8),
       2 * (3 / (3 + 1 / 10 ^ 8)) * (3 / (4 + 1 / 10 ^ 8)) / (3 / (3 + 1 / 10 ^ 8) + 3 / (4 + 1 / 10 ^ 8) + 1 / 10 ^ 8)]⟩) := by
  decide +kernel

end NGC
