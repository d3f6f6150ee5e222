import Verif.Example01
import Mathlib.Tactic.Linarith
import Mathlib.Tactic.Positivity
import Mathlib.Tactic.Ring
import Mathlib.Tactic.FieldSimp

/-! C201 (scores of an epoch of the first example), C202 (its evaluation and training never end normally). -/

namespace NGC

/-! ### Specification -/

/-- The nodes of all masks of all batches, in order: predicted class and label. -/
def Spec.maskedNodes (batches : List TrBatch) : List (Int × Int) :=
  batches.flatMap (fun b => b.splits.flatMap (fun s => ((s.1.zip (b.pred.zip b.y)).filter (fun q => q.1)).map (fun q => q.2)))

/-- How many of the nodes were predicted as `p` and are of class `t`. -/
def Spec.nodes (N : List (Int × Int)) (p t : Int) : Nat := N.countP (fun q => decide (q.1 = p ∧ q.2 = t))

/-! ### `train_epoch` -/

theorem sel_zip (m : List Bool) : ∀ (a b : List Int), m.length = a.length → m.length = b.length →
    (((m.zip a).filter (fun q => q.1)).map (fun q => q.2)).zip (((m.zip b).filter (fun q => q.1)).map (fun q => q.2)) =
      ((m.zip (a.zip b)).filter (fun q => q.1)).map (fun q => q.2) := by
  induction m with
  | nil => intro a b _ _; simp
  | cons x xs ih =>
    intro a b ha hb
    cases a with
    | nil => simp at ha
    | cons u us =>
      cases b with
      | nil => simp at hb
      | cons v vs =>
        have := ih us vs (by simpa using ha) (by simpa using hb)
        cases x <;> simp [this]

theorem sel_len (m : List Bool) : ∀ (a b : List Int), m.length = a.length → m.length = b.length →
    (((m.zip a).filter (fun q => q.1)).map (fun q => q.2)).length = (((m.zip b).filter (fun q => q.1)).map (fun q => q.2)).length := by
  induction m with
  | nil => intro a b _ _; simp
  | cons x xs ih =>
    intro a b ha hb
    cases a with
    | nil => simp at ha
    | cons u us =>
      cases b with
      | nil => simp at hb
      | cons v vs =>
        have := ih us vs (by simpa using ha) (by simpa using hb)
        simp only [List.length_map] at this
        cases x <;> simp [this]

/-- What the variables hold after the nodes `N`. -/
structure TrInv (N : List (Int × Int)) (a : TrAcc) : Prop where
  len : a.ps.length = a.ys.length
  zip : a.ps.zip a.ys = N
  tp : a.tp = Spec.nodes N 1 1
  fp : a.fp = Spec.nodes N 1 0
  fn : a.fn = Spec.nodes N 0 1

theorem trInv_split (b : TrBatch) (a a' : TrAcc) (s : List Bool × ℚ) (N : List (Int × Int)) (hi : TrInv N a) (h : TrAcc.split b a s = .ok a') :
    TrInv (N ++ ((s.1.zip (b.pred.zip b.y)).filter (fun q => q.1)).map (fun q => q.2)) a' ∧
      a'.lossAll = a.lossAll + b.graphs * s.2 ∧ a'.totalGraph = a.totalGraph + b.graphs ∧ a'.seen = a.seen + 1 := by
  unfold TrAcc.split selMask at h
  split at h
  · rename_i h1
    split at h
    · rename_i h2
      have e := Except.ok.inj h
      subst e
      have z := sel_zip s.1 b.pred b.y h2 h1
      have l := sel_len s.1 b.pred b.y h2 h1
      refine ⟨⟨?_, ?_, ?_, ?_, ?_⟩, rfl, rfl, rfl⟩
      · simp only [List.length_append, hi.len, l]
      · show List.zip (a.ps ++ _) (a.ys ++ _) = _
        rw [List.zip_append hi.len, hi.zip]
        exact congrArg _ z
      · show a.tp + pairCount 1 1 _ _ = _
        unfold pairCount Spec.nodes
        rw [List.countP_append, hi.tp, ← z]
        rfl
      · show a.fp + pairCount 1 0 _ _ = _
        unfold pairCount Spec.nodes
        rw [List.countP_append, hi.fp, ← z]
        rfl
      · show a.fn + pairCount 0 1 _ _ = _
        unfold pairCount Spec.nodes
        rw [List.countP_append, hi.fn, ← z]
        rfl
    · cases h
  · cases h

/-- Bounds of the losses. -/
def LossIn (lo hi : ℚ) (a : TrAcc) : Prop := lo * a.totalGraph ≤ a.lossAll ∧ a.lossAll ≤ hi * a.totalGraph

theorem trInv_splits (b : TrBatch) (lo hi : ℚ) : ∀ (l : List (List Bool × ℚ)) (a a' : TrAcc) (N : List (Int × Int)), TrInv N a →
    l.foldlM (TrAcc.split b) a = .ok a' →
    TrInv (N ++ l.flatMap (fun s => ((s.1.zip (b.pred.zip b.y)).filter (fun q => q.1)).map (fun q => q.2))) a' ∧
      (LossIn lo hi a → (∀ s ∈ l, lo ≤ s.2 ∧ s.2 ≤ hi) → LossIn lo hi a') := by
  intro l
  induction l with
  | nil =>
    intro a a' N hi h
    have e := Except.ok.inj h
    subst e
    exact ⟨by simpa using hi, fun x _ => x⟩
  | cons s ss ih =>
    intro a a' N hi0 h
    rw [List.foldlM_cons] at h
    cases h1 : TrAcc.split b a s with
    | error x => rw [h1] at h; cases h
    | ok a1 =>
      rw [h1] at h
      obtain ⟨i1, e1, e2, _⟩ := trInv_split b a a1 s N hi0 h1
      obtain ⟨i2, g2⟩ := ih a1 a' _ i1 h
      refine ⟨by simpa [List.flatMap_cons, List.append_assoc] using i2, ?_⟩
      intro hl hs
      apply g2 _ (fun x hx => hs x (List.mem_cons_of_mem _ hx))
      obtain ⟨c1, c2⟩ := hs s List.mem_cons_self
      unfold LossIn at hl ⊢
      rw [e1, e2]
      push_cast
      have hg : (0 : ℚ) ≤ b.graphs := by positivity
      have d1 := mul_le_mul_of_nonneg_right c1 hg
      have d2 := mul_le_mul_of_nonneg_right c2 hg
      constructor <;> nlinarith [hl.1, hl.2]

theorem trInv_batches (lo hi : ℚ) : ∀ (l : List TrBatch) (a a' : TrAcc) (N : List (Int × Int)), TrInv N a →
    l.foldlM (fun a b => b.splits.foldlM (TrAcc.split b) a) a = .ok a' →
    TrInv (N ++ Spec.maskedNodes l) a' ∧ (LossIn lo hi a → (∀ b ∈ l, ∀ s ∈ b.splits, lo ≤ s.2 ∧ s.2 ≤ hi) → LossIn lo hi a') := by
  intro l
  induction l with
  | nil =>
    intro a a' N hi h
    have e := Except.ok.inj h
    subst e
    exact ⟨by simpa [Spec.maskedNodes] using hi, fun x _ => x⟩
  | cons b bs ih =>
    intro a a' N hi0 h
    rw [List.foldlM_cons] at h
    cases h1 : b.splits.foldlM (TrAcc.split b) a with
    | error x => rw [h1] at h; cases h
    | ok a1 =>
      rw [h1] at h
      obtain ⟨i1, g1⟩ := trInv_splits b lo hi b.splits a a1 N hi0 h1
      obtain ⟨i2, g2⟩ := ih a1 a' _ i1 h
      refine ⟨by simpa [Spec.maskedNodes, List.flatMap_cons, List.append_assoc] using i2, ?_⟩
      intro hl hs
      exact g2 (g1 hl (hs b List.mem_cons_self)) (fun x hx => hs x (List.mem_cons_of_mem _ hx))

theorem trInv_zero : TrInv [] ({} : TrAcc) := ⟨rfl, rfl, rfl, rfl, rfl⟩

theorem trainEpoch01_ok {batches : List TrBatch} {r : EpochScores} (h : trainEpoch01 batches = .ok r) :
    ∃ a, batches.foldlM (fun a b => b.splits.foldlM (TrAcc.split b) a) ({} : TrAcc) = .ok a ∧ a.scores = .ok r := by
  unfold trainEpoch01 at h
  cases h1 : batches.foldlM (fun a b => b.splits.foldlM (TrAcc.split b) a) ({} : TrAcc) with
  | error x => rw [h1] at h; cases h
  | ok a => rw [h1] at h; exact ⟨a, rfl, h⟩

/-- **C201, the scores of an epoch.** Over the nodes of all masks of all batches: accuracy is the share of right predictions; precision and recall are about class 1, and only count the nodes of (predicted)
class 0 against it. Precision and recall are in `[0, 1)`. -/
theorem C201_scores (batches : List TrBatch) (r : EpochScores) (h : trainEpoch01 batches = .ok r) :
    r.acc = ((Spec.maskedNodes batches).countP (fun q => decide (q.1 = q.2)) : ℚ) / (Spec.maskedNodes batches).length ∧
    r.prec = (Spec.nodes (Spec.maskedNodes batches) 1 1 : ℚ) / (Spec.nodes (Spec.maskedNodes batches) 1 1 + Spec.nodes (Spec.maskedNodes batches) 1 0 + 1 / 10 ^ 9) ∧
    r.recl = (Spec.nodes (Spec.maskedNodes batches) 1 1 : ℚ) / (Spec.nodes (Spec.maskedNodes batches) 1 1 + Spec.nodes (Spec.maskedNodes batches) 0 1 + 1 / 10 ^ 9) ∧
    0 ≤ r.prec ∧ r.prec < 1 ∧ 0 ≤ r.recl ∧ r.recl < 1 := by
  obtain ⟨a, h1, h2⟩ := trainEpoch01_ok h
  obtain ⟨iv, _⟩ := trInv_batches 0 0 batches {} a [] trInv_zero h1
  rw [List.nil_append] at iv
  unfold TrAcc.scores at h2
  split at h2
  · cases h2
  · split at h2
    · cases h2
    · have e := Except.ok.inj h2
      subst e
      have hl : a.ys.length = (Spec.maskedNodes batches).length := by
        rw [← iv.zip, List.length_zip, iv.len]; simp
      have hb : ∀ u v : ℕ, (0 : ℚ) ≤ (u : ℚ) / ((u : ℚ) + v + 1 / 10 ^ 9) ∧ (u : ℚ) / ((u : ℚ) + v + 1 / 10 ^ 9) < 1 := by
        intro u v
        have hu : (0 : ℚ) ≤ u := by positivity
        have hv : (0 : ℚ) ≤ v := by positivity
        refine ⟨by positivity, ?_⟩
        rw [div_lt_one (by positivity)]
        norm_num
        linarith
      refine ⟨?_, ?_, ?_, (hb _ _).1, (hb _ _).2, (hb _ _).1, (hb _ _).2⟩
      · show ((a.ps.zip a.ys).countP _ : ℚ) / _ = _
        rw [iv.zip, hl]
      · show (a.tp : ℚ) / (a.tp + a.fp + _) = _
        rw [iv.tp, iv.fp]
      · show (a.tp : ℚ) / (a.tp + a.fn + _) = _
        rw [iv.tp, iv.fn]

/-- **C201, the loss** of an epoch is a weighted mean of the losses of the splits: between every bounds of them. -/
theorem C201_loss (batches : List TrBatch) (r : EpochScores) (lo hi : ℚ) (h : trainEpoch01 batches = .ok r) (hs : ∀ b ∈ batches, ∀ s ∈ b.splits, lo ≤ s.2 ∧ s.2 ≤ hi) :
    lo ≤ r.loss ∧ r.loss ≤ hi := by
  obtain ⟨a, h1, h2⟩ := trainEpoch01_ok h
  obtain ⟨_, g⟩ := trInv_batches lo hi batches {} a [] trInv_zero h1
  have g := g (by unfold LossIn; simp) hs
  unfold TrAcc.scores at h2
  split at h2
  · cases h2
  · split at h2
    · cases h2
    · rename_i hz
      have e := Except.ok.inj h2
      subst e
      have hp : (0 : ℚ) < a.totalGraph := by exact_mod_cast Nat.pos_of_ne_zero hz
      exact ⟨(le_div_iff₀ hp).2 g.1, (div_le_iff₀ hp).2 g.2⟩

theorem zip_map_fst : ∀ (p y : List Int), p.length = y.length → (p.zip y).map (fun q => q.1) = p
  | [], _, _ => by simp
  | _ :: _, [], h => by simp at h
  | a :: p, b :: y, h => by simp [zip_map_fst p y (by simpa using h)]

theorem zip_map_snd : ∀ (p y : List Int), p.length = y.length → (p.zip y).map (fun q => q.2) = y
  | [], [], _ => by simp
  | [], _ :: _, h => by simp at h
  | _ :: _, [], h => by simp at h
  | a :: p, b :: y, h => by simp [zip_map_snd p y (by simpa using h)]

theorem count_fst (p y : List Int) (c : Int) (h : p.length = y.length) : p.count c = (p.zip y).countP (fun q => decide (q.1 = c)) := by
  conv_lhs => rw [← zip_map_fst p y h]
  rw [List.count_eq_countP, List.countP_map]
  congr 1

theorem count_snd (p y : List Int) (c : Int) (h : p.length = y.length) : y.count c = (p.zip y).countP (fun q => decide (q.2 = c)) := by
  conv_lhs => rw [← zip_map_snd p y h]
  rw [List.count_eq_countP, List.countP_map]
  congr 1

theorem countP_all_of_eq {α : Type} (P Q : α → Bool) (l : List α) (hpq : ∀ x ∈ l, P x = true → Q x = true) (h : l.countP P = l.countP Q) : ∀ x ∈ l, Q x = true → P x = true := by
  have e : (l.filter Q).countP P = (l.filter Q).length := by
    rw [List.countP_filter, ← List.countP_eq_length_filter, ← h]
    apply List.countP_congr
    intro x hx
    simp only [Bool.and_eq_true]
    exact ⟨fun a => a.1, fun a => ⟨a, hpq x hx a⟩⟩
  intro x hx hq
  exact (List.countP_eq_length.1 e) x (List.mem_filter.2 ⟨hx, hq⟩)

/-- F1 of one label. -/
def f1Label (y p : List Int) (c : Int) : ℚ := 2 * (pairCount c c p y : ℚ) / ((p.count c : ℚ) + y.count c)

theorem f1Label_bounds (y p : List Int) (c : Int) (hl : p.length = y.length) (hc : c ∈ y ++ p) :
    0 ≤ f1Label y p c ∧ f1Label y p c ≤ 1 ∧ (f1Label y p c = 1 ↔ pairCount c c p y = y.count c ∧ pairCount c c p y = p.count c) := by
  have a1 : pairCount c c p y ≤ p.count c := by
    rw [count_fst p y c hl]
    exact List.countP_mono_left (fun x _ h => by simp at h ⊢; exact h.1)
  have a2 : pairCount c c p y ≤ y.count c := by
    rw [count_snd p y c hl]
    exact List.countP_mono_left (fun x _ h => by simp at h ⊢; exact h.2)
  have hpos : 0 < p.count c + y.count c := by
    rcases List.mem_append.1 hc with h | h
    · have := List.count_pos_iff.2 h; omega
    · have := List.count_pos_iff.2 h; omega
  have hp : (0 : ℚ) < (p.count c : ℚ) + y.count c := by exact_mod_cast hpos
  unfold f1Label
  refine ⟨by positivity, ?_, ?_⟩
  · rw [div_le_one hp]
    exact_mod_cast (by omega : 2 * pairCount c c p y ≤ p.count c + y.count c)
  · rw [div_eq_one_iff_eq hp.ne']
    constructor
    · intro h
      have h' : 2 * pairCount c c p y = p.count c + y.count c := by exact_mod_cast h
      omega
    · rintro ⟨h1, h2⟩
      rw [← h1, ← h2]; ring

theorem sum_le_len (f : Int → ℚ) : ∀ l : List Int, (∀ c ∈ l, 0 ≤ f c ∧ f c ≤ 1) →
    0 ≤ (l.map f).sum ∧ (l.map f).sum ≤ l.length ∧ ((l.map f).sum = l.length ↔ ∀ c ∈ l, f c = 1)
  | [], _ => by simp
  | a :: l, h => by
    obtain ⟨i1, i2, i3⟩ := sum_le_len f l (fun c hc => h c (List.mem_cons_of_mem _ hc))
    obtain ⟨j1, j2⟩ := h a List.mem_cons_self
    simp only [List.map_cons, List.sum_cons, List.length_cons, List.forall_mem_cons]
    push_cast
    refine ⟨by linarith, by linarith, ?_⟩
    constructor
    · intro e
      exact ⟨by linarith, i3.1 (by linarith)⟩
    · rintro ⟨e, g⟩
      rw [e, i3.2 g]; ring

theorem macroF1_bounds (y p : List Int) (hl : p.length = y.length) (hy : y ≠ []) :
    0 ≤ macroF1 y p ∧ macroF1 y p ≤ 1 ∧ (macroF1 y p = 1 ↔ ∀ q ∈ p.zip y, q.1 = q.2) := by
  have hne : ((y ++ p).dedup) ≠ [] := by
    intro h
    rw [List.dedup_eq_nil] at h
    exact hy (List.append_eq_nil_iff.1 h).1
  have hpos : (0 : ℚ) < ((y ++ p).dedup).length := by exact_mod_cast List.length_pos_of_ne_nil hne
  have hb : ∀ c ∈ (y ++ p).dedup, 0 ≤ f1Label y p c ∧ f1Label y p c ≤ 1 := fun c hc =>
    ⟨(f1Label_bounds y p c hl (List.mem_dedup.1 hc)).1, (f1Label_bounds y p c hl (List.mem_dedup.1 hc)).2.1⟩
  obtain ⟨s1, s2, s3⟩ := sum_le_len (f1Label y p) _ hb
  have e : macroF1 y p = (((y ++ p).dedup).map (f1Label y p)).sum / ((y ++ p).dedup).length := rfl
  rw [e]
  refine ⟨by positivity, (div_le_one hpos).2 s2, ?_⟩
  rw [div_eq_one_iff_eq hpos.ne', s3]
  constructor
  · intro h q hq
    have hmem : q.2 ∈ y := (List.of_mem_zip (a := q.1) (b := q.2) hq).2
    have hc : q.2 ∈ (y ++ p).dedup := List.mem_dedup.2 (List.mem_append_left _ hmem)
    have g := ((f1Label_bounds y p q.2 hl (List.mem_dedup.1 hc)).2.2.1 (h _ hc)).1
    rw [count_snd p y q.2 hl] at g
    have := countP_all_of_eq (fun x : Int × Int => decide (x.1 = q.2 ∧ x.2 = q.2)) (fun x : Int × Int => decide (x.2 = q.2)) (p.zip y) (by intro x _ hx; simp at hx ⊢; exact hx.2) g q hq (by simp)
    simpa using this
  · intro h c hc
    refine (f1Label_bounds y p c hl (List.mem_dedup.1 hc)).2.2.2 ⟨?_, ?_⟩
    · rw [count_snd p y c hl]
      apply List.countP_congr
      intro q hq
      have := h q hq
      simp [this]
    · rw [count_fst p y c hl]
      apply List.countP_congr
      intro q hq
      have := h q hq
      simp [this]

/-- **C201, accuracy and F1** are in `[0, 1]`, and each is 1 exactly if every masked node is predicted right. -/
theorem C201_perfect (batches : List TrBatch) (r : EpochScores) (h : trainEpoch01 batches = .ok r) (hn : Spec.maskedNodes batches ≠ []) :
    (0 ≤ r.acc ∧ r.acc ≤ 1 ∧ (r.acc = 1 ↔ ∀ q ∈ Spec.maskedNodes batches, q.1 = q.2)) ∧
    (0 ≤ r.f1 ∧ r.f1 ≤ 1 ∧ (r.f1 = 1 ↔ ∀ q ∈ Spec.maskedNodes batches, q.1 = q.2)) := by
  constructor
  · rw [(C201_scores batches r h).1]
    have hpos : (0 : ℚ) < (Spec.maskedNodes batches).length := by exact_mod_cast List.length_pos_of_ne_nil hn
    refine ⟨by positivity, ?_, ?_⟩
    · rw [div_le_one hpos]; exact_mod_cast List.countP_le_length
    · rw [div_eq_one_iff_eq hpos.ne', Nat.cast_inj, List.countP_eq_length]
      simp
  · obtain ⟨a, h1, h2⟩ := trainEpoch01_ok h
    obtain ⟨iv, _⟩ := trInv_batches 0 0 batches {} a [] trInv_zero h1
    rw [List.nil_append] at iv
    unfold TrAcc.scores at h2
    split at h2
    · cases h2
    · split at h2
      · cases h2
      · have e := Except.ok.inj h2
        subst e
        rw [← iv.zip] at hn ⊢
        have hy : a.ys ≠ [] := by
          intro h0
          rw [h0] at hn
          simp at hn
        exact macroF1_bounds a.ys a.ps iv.len hy

/-- **C201, errors.** An epoch without splits is a RuntimeError; with masks that fit and graphs in every batch there is none. -/
theorem C201_errors (batches : List TrBatch) :
    ((∀ b ∈ batches, b.splits = []) → trainEpoch01 batches = .error .runtime) ∧
    ((∀ b ∈ batches, 1 ≤ b.graphs ∧ ∀ s ∈ b.splits, s.1.length = b.y.length ∧ s.1.length = b.pred.length) → (∃ b ∈ batches, b.splits ≠ []) →
      ∃ r, trainEpoch01 batches = .ok r) := by
  constructor
  · intro h
    have : batches.foldlM (fun a b => b.splits.foldlM (TrAcc.split b) a) ({} : TrAcc) = .ok {} := by
      induction batches with
      | nil => rfl
      | cons b bs ih =>
        rw [List.foldlM_cons, h b List.mem_cons_self]
        exact ih (fun x hx => h x (List.mem_cons_of_mem _ hx))
    unfold trainEpoch01
    rw [this]
    rfl
  · intro h hex
    -- a split always succeeds
    have inner : ∀ (b : TrBatch), 1 ≤ b.graphs → ∀ (l : List (List Bool × ℚ)) (a : TrAcc), (∀ s ∈ l, s.1.length = b.y.length ∧ s.1.length = b.pred.length) →
        ∃ a', l.foldlM (TrAcc.split b) a = .ok a' ∧ a.seen + l.length ≤ a'.seen ∧ a.totalGraph + l.length ≤ a'.totalGraph := by
      intro b hb l
      induction l with
      | nil => intro a _; exact ⟨a, rfl, by simp, by simp⟩
      | cons s ss ih =>
        intro a hs
        obtain ⟨e1, e2⟩ := hs s List.mem_cons_self
        have hok : ∃ a1, TrAcc.split b a s = .ok a1 ∧ a1.seen = a.seen + 1 ∧ a1.totalGraph = a.totalGraph + b.graphs := by
          unfold TrAcc.split selMask
          rw [if_pos e1, if_pos e2]
          exact ⟨_, rfl, rfl, rfl⟩
        obtain ⟨a1, h1, h2, h3⟩ := hok
        obtain ⟨a2, g1, g2, g3⟩ := ih a1 (fun x hx => hs x (List.mem_cons_of_mem _ hx))
        refine ⟨a2, ?_, ?_, ?_⟩
        · rw [List.foldlM_cons, h1]; exact g1
        · simp only [List.length_cons]; omega
        · simp only [List.length_cons]; omega
    have outer : ∀ (l : List TrBatch) (a : TrAcc), (∀ b ∈ l, 1 ≤ b.graphs ∧ ∀ s ∈ b.splits, s.1.length = b.y.length ∧ s.1.length = b.pred.length) →
        ∃ a', l.foldlM (fun a b => b.splits.foldlM (TrAcc.split b) a) a = .ok a' ∧ a.seen ≤ a'.seen ∧ a.totalGraph ≤ a'.totalGraph ∧
          ((∃ b ∈ l, b.splits ≠ []) → 1 ≤ a'.seen ∧ 1 ≤ a'.totalGraph) := by
      intro l
      induction l with
      | nil => intro a _; exact ⟨a, rfl, le_refl _, le_refl _, by rintro ⟨b, hb, _⟩; simp at hb⟩
      | cons b bs ih =>
        intro a hs
        obtain ⟨e1, e2⟩ := hs b List.mem_cons_self
        obtain ⟨a1, h1, h2, h3⟩ := inner b e1 b.splits a e2
        obtain ⟨a2, g1, g2, g3, g4⟩ := ih a1 (fun x hx => hs x (List.mem_cons_of_mem _ hx))
        refine ⟨a2, ?_, by omega, by omega, ?_⟩
        · rw [List.foldlM_cons, h1]; exact g1
        · rintro ⟨c, hc, hne⟩
          rcases List.mem_cons.1 hc with rfl | hc
          · have := List.length_pos_of_ne_nil hne
            omega
          · exact g4 ⟨c, hc, hne⟩
    obtain ⟨a, h1, _, _, h4⟩ := outer batches {} h
    obtain ⟨h5, h6⟩ := h4 hex
    unfold trainEpoch01
    rw [h1]
    show ∃ r, a.scores = .ok r
    unfold TrAcc.scores
    rw [if_neg (by omega), if_neg (by omega)]
    exact ⟨_, rfl⟩

/-- **C201, defect: precision without false positives.** With more than two classes a node predicted as 1 whose label is neither 0 nor 1 does not count: one node of class 1 and any number of nodes of
class 2, all predicted as 1, have precision `1 / (1 + 1e-9)` and an accuracy of one in `n + 1`. -/
theorem C201_precision_defect (n : Nat) (loss : ℚ) :
    ∃ r, trainEpoch01 [⟨1 :: List.replicate n 2, 1 :: List.replicate n 1, [(true :: List.replicate n true, loss)], 1⟩] = .ok r ∧
      r.prec = 1 / (1 + 1 / 10 ^ 9) ∧ r.acc = 1 / (n + 1) := by
  have hN : Spec.maskedNodes [⟨1 :: List.replicate n 2, 1 :: List.replicate n 1, [(true :: List.replicate n true, loss)], 1⟩] = (1, 1) :: List.replicate n ((1 : Int), (2 : Int)) := by
    simp only [Spec.maskedNodes, List.flatMap_cons, List.flatMap_nil, List.append_nil, List.zip_cons_cons, List.zip_replicate', List.filter_cons, if_true, List.map_cons]
    rw [List.filter_eq_self.2 (by intro q hq; rw [List.eq_of_mem_replicate hq]), List.map_replicate]
  have hok : ∃ r, trainEpoch01 [⟨1 :: List.replicate n 2, 1 :: List.replicate n 1, [(true :: List.replicate n true, loss)], 1⟩] = .ok r := by
    refine (C201_errors _).2 ?_ ⟨_, List.mem_cons_self, by simp⟩
    intro b hb
    rw [List.mem_singleton.1 hb]
    refine ⟨le_refl _, ?_⟩
    intro s hs
    rw [List.mem_singleton.1 hs]
    simp
  obtain ⟨r, hr⟩ := hok
  refine ⟨r, hr, ?_, ?_⟩
  · rw [(C201_scores _ _ hr).2.1, hN]
    have c1 : Spec.nodes ((1, 1) :: List.replicate n ((1 : Int), (2 : Int))) 1 1 = 1 := by
      unfold Spec.nodes
      rw [List.countP_cons, List.countP_eq_zero.2 (by intro q hq; rw [List.eq_of_mem_replicate hq]; simp)]
      simp
    have c2 : Spec.nodes ((1, 1) :: List.replicate n ((1 : Int), (2 : Int))) 1 0 = 0 := by
      unfold Spec.nodes
      rw [List.countP_cons, List.countP_eq_zero.2 (by intro q hq; rw [List.eq_of_mem_replicate hq]; simp)]
      simp
    rw [c1, c2]; norm_num
  · rw [(C201_scores _ _ hr).1, hN, List.countP_cons, List.countP_eq_zero.2 (by intro q hq; rw [List.eq_of_mem_replicate hq]; simp)]
    simp

/-- Two nodes of class 1 and 0, one mask each; one prediction of two is right. -/
example : (trainEpoch01 [⟨[1, 0, 2], [1, 1, 2], [([true, false, false], 2), ([false, true, false], 1)], 1⟩]).toOption.map (fun r => (r.loss, r.acc)) = some (3/2, 1/2) := by
  decide +kernel

/-! ### `evaluate` -/

/-- **C202, evaluation.** `evaluate` returns only if the test loader has batches and none of them has a split; then all its numbers are 0. -/
theorem C202_evaluate (kind : NetKind) (batches : List TeBatch) (r : ℚ × ℚ × ℚ × ℚ) :
    evaluate01 kind batches = .ok r ↔ batches ≠ [] ∧ (∀ b ∈ batches, b.isList = false ∧ b.trainSplits = 0) ∧ r = (0, 0, 0, 0) := by
  have hsplit : ∀ b i, ∀ u, evalSplit01 kind b i ≠ .ok u := by
    intro b i u
    unfold evalSplit01
    cases b.masks[i]? with
    | none => simp
    | some m =>
      cases kind with
      | gin => simp
      | gat => simp
      | gcn =>
        simp only
        cases selMask m b.pred with
        | error x => intro h; cases h
        | ok p =>
          cases selMask m b.y with
          | error x => intro h; cases h
          | ok t =>
            show (if m.count true = 0 then (Except.error Err.zeroDiv : Py Unit) else .error .name) ≠ _
            split <;> intro h <;> cases h
  have hbatch : ∀ b, (∃ u, evalBatch01 kind b = .ok u) ↔ b.isList = false ∧ b.trainSplits = 0 := by
    intro b
    unfold evalBatch01
    cases hL : b.isList with
    | true => simp
    | false =>
      cases hT : b.trainSplits with
      | zero => simp; exact ⟨_, rfl⟩
      | succ k =>
        simp only [Bool.false_eq_true, if_false, List.range_succ_eq_map, List.forM_eq_forM, List.forM_cons]
        constructor
        · rintro ⟨u, hu⟩
          cases h0 : evalSplit01 kind b 0 with
          | error x => rw [h0] at hu; cases hu
          | ok v => exact absurd h0 (hsplit b 0 v)
        · rintro ⟨_, hu⟩; cases hu
  have hall : ∀ l : List TeBatch, (∃ u, l.forM (evalBatch01 kind) = .ok u) ↔ ∀ b ∈ l, b.isList = false ∧ b.trainSplits = 0 := by
    intro l
    induction l with
    | nil => simp; exact ⟨_, rfl⟩
    | cons b bs ih =>
      simp only [List.forM_eq_forM, List.forM_cons, List.forall_mem_cons] at ih ⊢
      rw [← hbatch b, ← ih]
      constructor
      · rintro ⟨u, hu⟩
        cases h0 : evalBatch01 kind b with
        | error x => rw [h0] at hu; cases hu
        | ok v => rw [h0] at hu; exact ⟨⟨v, rfl⟩, ⟨u, hu⟩⟩
      · rintro ⟨⟨v, hv⟩, ⟨u, hu⟩⟩
        rw [hv]
        exact ⟨u, hu⟩
  unfold evaluate01
  constructor
  · intro h
    cases h0 : batches.forM (evalBatch01 kind) with
    | error x => rw [h0] at h; cases h
    | ok u =>
      rw [h0] at h
      have h : (if batches.length = 0 then (Except.error Err.zeroDiv : Py (ℚ × ℚ × ℚ × ℚ)) else .ok (0, 0, 0, 0)) = .ok r := h
      split at h
      · cases h
      · rename_i hz
        exact ⟨fun e => hz (by rw [e]; rfl), (hall batches).1 ⟨u, h0⟩, (Except.ok.inj h).symm⟩
  · rintro ⟨h1, h2, h3⟩
    obtain ⟨u, hu⟩ := (hall batches).2 h2
    rw [hu, h3]
    show (if batches.length = 0 then (Except.error Err.zeroDiv : Py (ℚ × ℚ × ℚ × ℚ)) else .ok (0, 0, 0, 0)) = _
    rw [if_neg (by intro e; exact h1 (List.length_eq_zero_iff.1 e))]

/-! ### `train` -/

/-- No evaluation succeeds, as for every loader whose first batch has a split (`C202_evaluate`). -/
def Spec.EvalFails (ev : Nat → Py (ℚ × ℚ × ℚ × ℚ)) : Prop := ∀ e r, ev e ≠ .ok r

/-- One epoch: an epoch that should be evaluated raises, with its loss recorded and nothing saved. -/
theorem ex01_epoch (q : Freqs) (tr : Nat → Py EpochScores) (ev : Nat → Py (ℚ × ℚ × ℚ × ℚ)) (hev : Spec.EvalFails ev) (st : Ex01) (e : Nat) (h : e % q.test = 0 ∨ e % q.eval = 0) :
    ∃ x, (st.epoch q tr ev e).2 = some x ∧ (st.epoch q tr ev e).1.saved = st.saved ∧ (st.epoch q tr ev e).1.losses ≤ st.losses + 1 := by
  have hbad : ∃ x, (ev e).map (fun _ => ()) = .error x := by
    cases h1 : ev e with
    | error x => exact ⟨x, rfl⟩
    | ok r => exact absurd h1 (hev e r)
  obtain ⟨x, hx⟩ := hbad
  unfold Ex01.epoch
  cases tr e with
  | error y => exact ⟨y, rfl, rfl, by simp⟩
  | ok s =>
    simp only [hx]
    unfold whenEvery
    by_cases t0 : q.test = 0
    · simp only [t0, if_true]; exact ⟨_, rfl, trivial, le_refl _⟩
    · by_cases t1 : e % q.test = 0
      · simp only [t0, t1, if_true, if_false]; exact ⟨_, rfl, trivial, le_refl _⟩
      · simp only [t0, t1, if_false]
        have t2 : e % q.eval = 0 := h.resolve_left t1
        by_cases u0 : q.eval = 0
        · simp only [u0, if_true]; exact ⟨_, rfl, trivial, le_refl _⟩
        · simp only [u0, t2, if_true, if_false]; exact ⟨_, rfl, trivial, le_refl _⟩

/-- **C202, the first call.** A fresh object trains one epoch, records its loss and raises; nothing is saved. -/
theorem C202_first_call (q : Freqs) (tr : Nat → Py EpochScores) (ev : Nat → Py (ℚ × ℚ × ℚ × ℚ)) (hev : Spec.EvalFails ev) :
    ∃ st x, Ex01.train q tr ev {} = (st, some x) ∧ st.saved = [] ∧ st.losses ≤ 1 ∧ ((∃ s, tr 0 = .ok s) → st.losses = 1) := by
  obtain ⟨x, h1, h2, h3⟩ := ex01_epoch q tr ev hev {} 0 (.inl (Nat.zero_mod _))
  refine ⟨(({} : Ex01).epoch q tr ev 0).1, x, ?_, h2, h3, ?_⟩
  · unfold Ex01.train
    have : q.epochs + 1 - ({} : Ex01).losses = q.epochs + 1 := rfl
    rw [this, List.range'_succ]
    show (match ({} : Ex01).epoch q tr ev 0 with
      | (st', some x) => (st', some x)
      | (st', none) => Ex01.loop q tr ev st' _) = _
    obtain ⟨p1, p2⟩ : ∃ p1 p2, ({} : Ex01).epoch q tr ev 0 = (p1, p2) := ⟨_, _, rfl⟩
    obtain ⟨p2, hp⟩ := p2
    rw [hp] at h1 ⊢
    simp only at h1
    rw [h1]
  · rintro ⟨s, hs⟩
    unfold Ex01.epoch
    rw [hs]
    simp only
    split
    · rfl
    · split
      · rfl
      · split
        · rfl
        · split <;> rfl

/-- A loop of epochs saves nothing if every epoch to be saved is one to be evaluated. -/
theorem ex01_loop_saved (q : Freqs) (tr : Nat → Py EpochScores) (ev : Nat → Py (ℚ × ℚ × ℚ × ℚ)) (hev : Spec.EvalFails ev) (hd : q.test ∣ q.save ∨ q.eval ∣ q.save) :
    ∀ (l : List Nat) (st : Ex01), (st.loop q tr ev l).1.saved = st.saved := by
  intro l
  induction l with
  | nil => intro st; rfl
  | cons e es ih =>
    intro st
    have key : (st.epoch q tr ev e).1.saved = st.saved := by
      by_cases hm : e % q.test = 0 ∨ e % q.eval = 0
      · obtain ⟨x, _, h2, _⟩ := ex01_epoch q tr ev hev st e hm
        exact h2
      · have hs : e % q.save ≠ 0 := by
          intro h0
          have : q.save ∣ e := Nat.dvd_of_mod_eq_zero h0
          rcases hd with d | d
          · exact hm (.inl (Nat.mod_eq_zero_of_dvd (d.trans this)))
          · exact hm (.inr (Nat.mod_eq_zero_of_dvd (d.trans this)))
        unfold Ex01.epoch
        simp only [hs, if_false]
        split
        · rfl
        · split
          · rfl
          · split
            · rfl
            · split <;> rfl
    rw [Ex01.loop]
    split
    · rename_i st' x he
      rw [he] at key; exact key
    · rename_i st' he
      rw [he] at key; rw [ih, key]

/-- **C202, no checkpoint, ever.** If the interval of saving is a multiple of an interval of evaluating — as with the defaults 10, 20 and 100 —, then however often `train()` is called, with whatever epochs
and intervals of that kind, no checkpoint is written. -/
theorem C202_never_saved (calls : List (Freqs × (Nat → Py EpochScores) × (Nat → Py (ℚ × ℚ × ℚ × ℚ))))
    (h : ∀ c ∈ calls, Spec.EvalFails c.2.2 ∧ (c.1.test ∣ c.1.save ∨ c.1.eval ∣ c.1.save)) (st : Ex01) :
    (calls.foldl (fun st c => (Ex01.train c.1 c.2.1 c.2.2 st).1) st).saved = st.saved := by
  induction calls generalizing st with
  | nil => rfl
  | cons c cs ih =>
    rw [List.foldl_cons, ih (fun x hx => h x (List.mem_cons_of_mem _ hx))]
    obtain ⟨a, b⟩ := h c List.mem_cons_self
    exact ex01_loop_saved c.1 c.2.1 c.2.2 a b _ _

/-- An epoch that is neither evaluated nor fails. -/
theorem ex01_epoch_plain (q : Freqs) (tr : Nat → Py EpochScores) (ev : Nat → Py (ℚ × ℚ × ℚ × ℚ)) (st : Ex01) (e : Nat) (hs : 1 ≤ q.save) (ht : ∃ s, tr e = .ok s) (h1 : 1 ≤ q.test) (h2 : 1 ≤ q.eval)
    (n1 : e % q.test ≠ 0) (n2 : e % q.eval ≠ 0) :
    st.epoch q tr ev e = (⟨st.losses + 1, if e % q.save = 0 then e :: st.saved else st.saved⟩, none) := by
  obtain ⟨s, hs'⟩ := ht
  unfold Ex01.epoch whenEvery
  rw [hs']
  simp only [if_neg (by omega : ¬ q.test = 0), if_neg (by omega : ¬ q.eval = 0), if_neg n1, if_neg n2, if_neg (by omega : ¬ q.save = 0)]
  split <;> rfl

theorem ex01_loop_until (q : Freqs) (tr : Nat → Py EpochScores) (ev : Nat → Py (ℚ × ℚ × ℚ × ℚ)) (hev : Spec.EvalFails ev) (htr : ∀ e, ∃ s, tr e = .ok s) (hs : 1 ≤ q.save) (h1 : 1 ≤ q.test)
    (h2 : 1 ≤ q.eval) : ∀ (k n : Nat) (l : List Nat) (st : Ex01), st.losses = n → (∀ e, n ≤ e → e < n + k → e % q.test ≠ 0 ∧ e % q.eval ≠ 0) →
      ((n + k) % q.test = 0 ∨ (n + k) % q.eval = 0) → ∃ st' x, st.loop q tr ev (List.range' n (k + 1) ++ l) = (st', some x) ∧ st'.losses = n + k + 1 := by
  intro k
  induction k with
  | zero =>
    intro n l st hn _ hm
    obtain ⟨x, e1, _, _⟩ := ex01_epoch q tr ev hev st n hm
    have hloss : (st.epoch q tr ev n).1.losses = n + 1 := by
      obtain ⟨s, hs'⟩ := htr n
      unfold Ex01.epoch
      rw [hs']
      simp only
      split
      · simp [hn]
      · split
        · simp [hn]
        · split
          · simp [hn]
          · split <;> simp [hn]
    refine ⟨(st.epoch q tr ev n).1, x, ?_, hloss⟩
    show st.loop q tr ev (n :: l) = _
    rw [Ex01.loop]
    split
    · rename_i a b he
      rw [he] at e1 ⊢
      cases e1; rfl
    · rename_i a he
      rw [he] at e1; cases e1
  | succ k ih =>
    intro n l st hn hno hm
    obtain ⟨n1, n2⟩ := hno n (le_refl _) (by omega)
    have e := ex01_epoch_plain q tr ev st n hs (htr n) h1 h2 n1 n2
    rw [List.range'_succ, List.cons_append, Ex01.loop, e]
    obtain ⟨st', x, g1, g2⟩ := ih (n + 1) l ⟨st.losses + 1, if n % q.save = 0 then n :: st.saved else st.saved⟩ (by simp [hn]) (fun e he1 he2 => hno e (by omega) (by omega))
      (by rw [show n + 1 + k = n + (k + 1) by omega]; exact hm)
    exact ⟨st', x, g1, by rw [g2]; omega⟩

/-- **C202, every later call** of `train()` on the same object trains up to the next epoch that is to be evaluated, and raises there: from `n` recorded losses to `m + 1`, where `m` is the first number from
`n` on that is a multiple of one of the two intervals (if that is not beyond the last epoch). -/
theorem C202_next_call (q : Freqs) (tr : Nat → Py EpochScores) (ev : Nat → Py (ℚ × ℚ × ℚ × ℚ)) (hev : Spec.EvalFails ev) (htr : ∀ e, ∃ s, tr e = .ok s) (hs : 1 ≤ q.save) (h1 : 1 ≤ q.test)
    (h2 : 1 ≤ q.eval) (st : Ex01) (m : Nat) (hm : st.losses ≤ m) (hE : m ≤ q.epochs) (hfirst : ∀ e, st.losses ≤ e → e < m → e % q.test ≠ 0 ∧ e % q.eval ≠ 0)
    (hmult : m % q.test = 0 ∨ m % q.eval = 0) :
    ∃ st' x, st.train q tr ev = (st', some x) ∧ st'.losses = m + 1 := by
  obtain ⟨k, rfl⟩ : ∃ k, m = st.losses + k := ⟨m - st.losses, by omega⟩
  unfold Ex01.train
  have : List.range' st.losses (q.epochs + 1 - st.losses) = List.range' st.losses (k + 1) ++ List.range' (st.losses + (k + 1)) (q.epochs + 1 - st.losses - (k + 1)) := by
    rw [List.range'_append_1]
    congr 1
    omega
  rw [this]
  exact ex01_loop_until q tr ev hev htr hs h1 h2 k st.losses _ st rfl hfirst hmult

/-- With the defaults: the first call ends in epoch 0, the second in epoch 10. -/
example (tr : Nat → Py EpochScores) (htr : ∀ e, tr e = .ok ⟨1, 1, 1, 1, 1⟩) :
    (Ex01.train ⟨1000, 10, 20, 100⟩ tr (fun _ => evaluate01 .gcn [⟨false, 2, [[true], [true]], [1], [1]⟩]) {}).1 = ⟨1, []⟩ ∧
    ∃ st' x, Ex01.train ⟨1000, 10, 20, 100⟩ tr (fun _ => evaluate01 .gcn [⟨false, 2, [[true], [true]], [1], [1]⟩]) ⟨1, []⟩ = (st', some x) ∧ st'.losses = 11 := by
  have hev : Spec.EvalFails (fun _ => evaluate01 .gcn [⟨false, 2, [[true], [true]], [1], [1]⟩]) := by
    intro e r h
    have := (C202_evaluate _ _ _).1 h
    have := this.2.1 _ List.mem_cons_self
    simp at this
  refine ⟨?_, ?_⟩
  · obtain ⟨st, x, e1, e2, _, e3⟩ := C202_first_call ⟨1000, 10, 20, 100⟩ tr _ hev
    rw [e1]
    obtain ⟨l, s⟩ := st
    simp only at e2 e3
    rw [e2, e3 ⟨_, htr 0⟩]
  · refine C202_next_call ⟨1000, 10, 20, 100⟩ tr _ hev (fun e => ⟨_, htr e⟩) (by norm_num) (by norm_num) (by norm_num) ⟨1, []⟩ 10 (by norm_num) (by norm_num) ?_ (.inl rfl)
    intro e h1 h2
    simp only at h1 h2 ⊢
    omega

end NGC
