import Verif.Trainers
import Mathlib.Tactic

/-!
C139 (construction of trainers), C140 (scores of a batch) and C141 (the best values of a training run).
-/

namespace NGC

/-! ### C139 -/

/-- A positive integer (`True` counts as 1). -/
def Spec.PosArg (t : TArg) : Prop := t = .bool true ∨ ∃ n : Int, 0 < n ∧ t = .int n

/-- **C139, the constructor of `Experiments`.** It succeeds exactly for a dataset and two positive integers and keeps them in their roles. -/
theorem C139_experiments (midi epochs batch : TArg) (r : Experiment) :
    Experiment.new midi epochs batch = .ok r ↔
      (∃ k, midi = .dataset k ∧ r = ⟨midi, epochs, batch, k⟩) ∧
      (epochs = .bool true ∨ ∃ n : Int, 0 < n ∧ epochs = .int n) ∧ (batch = .bool true ∨ ∃ n : Int, 0 < n ∧ batch = .int n) := by
  have hpos : ∀ a : TArg, a.positive = true ↔ a = .bool true ∨ ∃ n : Int, 0 < n ∧ a = .int n := by
    intro a
    cases a with
    | bool b => cases b <;> simp [TArg.positive]
    | int n =>
        simp only [TArg.positive, decide_eq_true_eq, reduceCtorEq, false_or, TArg.int.injEq]
        exact ⟨fun h => ⟨n, h, rfl⟩, fun ⟨m, h, e⟩ => e ▸ h⟩
    | _ => simp [TArg.positive]
  rw [← hpos, ← hpos]
  have hne : ∀ a : TArg, a.positive = true → a ≠ .none := by
    intro a h e; rw [e] at h; simp [TArg.positive] at h
  unfold Experiment.new
  constructor
  · intro h
    split_ifs at h with h1 h2 h3 h4 h5 h6
    rw [Bool.not_eq_false] at h5 h6
    cases midi with
    | dataset k => exact ⟨⟨k, rfl, (Except.ok.inj h).symm⟩, h6, h5⟩
    | _ => simp at h
  · rintro ⟨⟨k, rfl, rfl⟩, h6, h5⟩
    rw [if_neg (hne _ h6), if_neg (hne _ h5), if_neg (by simp), if_neg (by simp [TArg.hasItems]), if_neg (by simp [h5]), if_neg (by simp [h6])]

/-- **C139, what it raises.** ValueError for a missing argument or a dataset that cannot be indexed (a number, an object without items); otherwise AssertionError for a number of epochs
or a batch size that is not a positive integer; otherwise AttributeError for a sequence that is no dataset. -/
theorem C139_rejected (midi epochs batch : TArg) :
    (epochs = .none ∨ batch = .none ∨ (midi ≠ .sized ∧ ∀ k, midi ≠ .dataset k) → Experiment.new midi epochs batch = .error .value) ∧
    (epochs ≠ .none → batch ≠ .none → (midi = .sized ∨ ∃ k, midi = .dataset k) → (¬ Spec.PosArg epochs ∨ ¬ Spec.PosArg batch) →
      Experiment.new midi epochs batch = .error .assertion) ∧
    (Spec.PosArg epochs → Spec.PosArg batch → Experiment.new .sized epochs batch = .error .attribute) := by
  have hp : ∀ t : TArg, t.positive = true ↔ Spec.PosArg t := by
    intro t; unfold Spec.PosArg TArg.positive; cases t <;> simp
  have hi : midi.hasItems = true ↔ (midi = .sized ∨ ∃ k, midi = .dataset k) := by
    unfold TArg.hasItems; cases midi <;> simp
  have hi' : midi.hasItems = false ↔ (midi ≠ .sized ∧ ∀ k, midi ≠ .dataset k) := by
    rw [← Bool.not_eq_true, hi]; push Not; rfl
  unfold Experiment.new
  refine ⟨?_, ?_, ?_⟩
  · rw [← hi']
    intro h
    split_ifs with h1 h2 h3 h4 h5 h6
    all_goals first | rfl | (exfalso; rcases h with h | h | h <;> contradiction)
  · rw [← hi, ← hp, ← hp]
    intro h1 h2 h3 h4
    rw [if_neg h1, if_neg h2, if_neg (by rintro rfl; simp [TArg.hasItems] at h3), if_neg (by simp [h3])]
    split_ifs with h5 h6
    · rfl
    · rfl
    · rcases h4 with h4 | h4 <;> simp_all
  · intro h1 h2
    rw [if_neg (by rintro rfl; simp [Spec.PosArg] at h1), if_neg (by rintro rfl; simp [Spec.PosArg] at h2), if_neg (by decide), if_neg (by decide),
      if_neg (by rw [(hp _).mpr h2]; decide), if_neg (by rw [(hp _).mpr h1]; decide)]

/-- **C139, the examples (defect).** Whatever dataset and batch size they get, the trainers of example01, example02, example03, example03a, example04 and example05 cannot be
constructed with a number of epochs: ValueError. `NgcTrainer` can, with every dataset and any two positive integers. -/
theorem C139_examples (epochs : Int) (batch midi : TArg) :
    exampleSuper (.int epochs) batch midi = .error .value ∧
    ∀ (b : Int) (k : Nat), 0 < epochs → 0 < b → ngcSuper (.int epochs) (.int b) (.dataset k) = .ok ⟨.dataset k, .int epochs, .int b, k⟩ := by
  refine ⟨(C139_rejected _ _ _).1 (Or.inr (Or.inr ⟨by simp, by simp⟩)), ?_⟩
  intro b k h1 h2
  exact (C139_experiments _ _ _ _).mpr ⟨⟨k, rfl, rfl⟩, Or.inr ⟨_, h1, rfl⟩, Or.inr ⟨_, h2, rfl⟩⟩

/-! ### C140 -/

namespace Spec

/-- How many nodes of the mask are predicted right. -/
def right (b : EvalBatch) (mask : List Bool) : Nat := (mask.zip (b.pred.zip b.y)).countP (fun q => q.1 && decide (q.2.1 = q.2.2))

/-- The share of the nodes of the mask that are predicted right. -/
def share (b : EvalBatch) (mask : List Bool) : ℚ := (right b mask : ℚ) / mask.count true

/-- One label and one prediction per node, masks for all nodes and at least one split. -/
def Proper (b : EvalBatch) : Prop :=
  b.pred.length = b.y.length ∧ b.splits ≠ [] ∧ ∀ s ∈ b.splits, s.1.length = b.y.length ∧ s.2.1.length = b.y.length ∧ s.2.2.length = b.y.length

/-- Every mask has a node. -/
def Inhabited (b : EvalBatch) : Prop := ∀ s ∈ b.splits, true ∈ s.1 ∧ true ∈ s.2.1 ∧ true ∈ s.2.2

/-- All four scores are the share that is predicted right. -/
def AllScores (q : ℚ) (s : Scores) : Prop := s.acc = q ∧ s.f1 = q ∧ s.prec = q ∧ s.recl = q

end Spec

private theorem sum_classes {α : Type} (L : List Int) (hL : L.Nodup) (f : α → Int) (P : α → Bool) (l : List α) (hl : ∀ x ∈ l, f x ∈ L) :
    (L.map (fun c => l.countP (fun x => P x && decide (f x = c)))).sum = l.countP P := by
  induction l with
  | nil => simp
  | cons a l ih =>
      have iht := ih (fun x hx => hl x (List.mem_cons_of_mem _ hx))
      have ha := hl a List.mem_cons_self
      have hone : ∀ L : List Int, L.Nodup → (L.map (fun c => if P a && decide (f a = c) then 1 else 0)).sum = if P a = true ∧ f a ∈ L then 1 else 0 := by
        intro L hL
        induction L with
        | nil => simp
        | cons c L ihL =>
            obtain ⟨h1, h2⟩ := List.nodup_cons.mp hL
            rw [List.map_cons, List.sum_cons, ihL h2]
            by_cases hp : P a = true
            · by_cases hc : f a = c
              · subst hc; simp [hp, h1]
              · simp [hp, hc]
            · simp [hp]
      have hsplit : (L.map (fun c => (a :: l).countP (fun x => P x && decide (f x = c)))).sum
          = (L.map (fun c => l.countP (fun x => P x && decide (f x = c)))).sum + (L.map (fun c => if P a && decide (f a = c) then 1 else 0)).sum := by
        rw [← List.sum_map_add]
        congr 1
        apply List.map_congr_left
        intro c _
        rw [List.countP_cons]
      rw [hsplit, iht, hone L hL, List.countP_cons]
      by_cases hp : P a = true <;> simp [hp, ha]

private theorem micro_eq (y p : List Int) (hl : y.length = p.length) (hne : p ≠ []) :
    microScores y p = (((p.zip y).countP (fun q => decide (q.1 = q.2)) : ℚ) / p.length, ((p.zip y).countP (fun q => decide (q.1 = q.2)) : ℚ) / p.length,
      ((p.zip y).countP (fun q => decide (q.1 = q.2)) : ℚ) / p.length) := by
  have hnd : (y ++ p).dedup.Nodup := List.nodup_dedup _
  have hmem : ∀ x, x ∈ (y ++ p).dedup ↔ x ∈ y ∨ x ∈ p := fun x => by rw [List.mem_dedup, List.mem_append]
  have h1 : ((y ++ p).dedup.map (fun c => p.count c)).sum = p.length := by
    have := sum_classes (y ++ p).dedup hnd (fun x => x) (fun _ => true) p (fun x hx => (hmem x).mpr (Or.inr hx))
    simp only [Bool.true_and, List.countP_true] at this
    rw [← this]
    congr 1
  have h2 : ((y ++ p).dedup.map (fun c => y.count c)).sum = p.length := by
    have := sum_classes (y ++ p).dedup hnd (fun x => x) (fun _ => true) y (fun x hx => (hmem x).mpr (Or.inl hx))
    simp only [Bool.true_and, List.countP_true] at this
    rw [← hl, ← this]
    congr 1
  have h3 : ((y ++ p).dedup.map (fun c => (y.zip p).countP (fun q => decide (q.1 = c ∧ q.2 = c)))).sum = (p.zip y).countP (fun q => decide (q.1 = q.2)) := by
    have := sum_classes (y ++ p).dedup hnd (fun q : Int × Int => q.1) (fun q => decide (q.1 = q.2)) (y.zip p)
      (fun x hx => (hmem x.1).mpr (Or.inl (List.of_mem_zip (a := x.1) (b := x.2) hx).1))
    rw [show p.zip y = (y.zip p).map Prod.swap from (List.zip_swap _ _).symm, List.countP_map]
    rw [show ((fun q : Int × Int => decide (q.1 = q.2)) ∘ Prod.swap) = (fun q : Int × Int => decide (q.1 = q.2)) from by
      funext q; simp [eq_comm]]
    rw [← this]
    congr 1
    apply List.map_congr_left
    intro c _
    apply List.countP_congr
    intro q _
    simp only [decide_eq_true_eq, Bool.and_eq_true]
    constructor
    · rintro ⟨a, b⟩; exact ⟨a.trans b.symm, a⟩
    · rintro ⟨a, b⟩; exact ⟨b, a ▸ b⟩
  have hp : (p.length : ℚ) ≠ 0 := by
    rw [Nat.cast_ne_zero]
    exact fun h => hne (List.length_eq_zero_iff.mp h)
  unfold microScores
  simp only [h1, h2, h3]
  refine Prod.ext rfl (Prod.ext rfl ?_)
  simp only
  field_simp
  ring

private theorem sel_ok {α : Type} (mask : List Bool) (l : List α) (h : mask.length = l.length) :
    selMask mask l = .ok (((mask.zip l).filter (·.1)).map (·.2)) := by
  unfold selMask; rw [if_pos h]

private theorem sel_length {α : Type} : ∀ (mask : List Bool) (l : List α), mask.length = l.length →
    (((mask.zip l).filter (·.1)).map (·.2)).length = mask.count true := by
  intro mask
  induction mask with
  | nil => intro l _; rfl
  | cons m mask ih =>
      intro l h
      cases l with
      | nil => simp at h
      | cons a l =>
          have := ih l (by simpa using h)
          rw [List.length_map] at this
          cases m <;> simp [this]

private theorem sel_right : ∀ (mask : List Bool) (p y : List Int), mask.length = p.length → p.length = y.length →
    ((((mask.zip p).filter (·.1)).map (·.2)).zip (((mask.zip y).filter (·.1)).map (·.2))).countP (fun q => decide (q.1 = q.2))
      = (mask.zip (p.zip y)).countP (fun q => q.1 && decide (q.2.1 = q.2.2)) := by
  intro mask
  induction mask with
  | nil => intro p y _ _; rfl
  | cons m mask ih =>
      intro p y h1 h2
      cases p with
      | nil => simp at h1
      | cons a p =>
          cases y with
          | nil => simp at h2
          | cons b y =>
              have := ih p y (by simpa using h1) (by simpa using h2)
              cases m
              · simpa using this
              · simp only [List.zip_cons_cons, List.filter_cons_of_pos, List.map_cons, List.countP_cons, this, Bool.true_and]

private theorem maskScores_ok (b : EvalBatch) (mask : List Bool) (h1 : b.pred.length = b.y.length) (h2 : mask.length = b.y.length) (h3 : true ∈ mask) :
    ∃ s, maskScores b.y b.pred mask = .ok s ∧ Spec.AllScores (Spec.share b mask) s := by
  have hc : mask.count true ≠ 0 := fun h => by rw [List.count_eq_zero] at h; exact h h3
  have hlp := sel_length mask b.pred (h2.trans h1.symm)
  have hly := sel_length mask b.y h2
  unfold maskScores
  rw [sel_ok mask b.pred (h2.trans h1.symm), sel_ok mask b.y h2]
  dsimp only [bind, Except.bind]
  rw [if_neg hc]
  refine ⟨_, rfl, ?_⟩
  rw [micro_eq _ _ (by rw [hlp, hly]) (by intro h; rw [h] at hlp; simp at hlp; exact hc hlp.symm), hlp, sel_right mask b.pred b.y (h2.trans h1.symm) h1]
  exact ⟨rfl, rfl, rfl, rfl⟩

private theorem maskScores_empty (b : EvalBatch) (mask : List Bool) (h1 : b.pred.length = b.y.length) (h2 : mask.length = b.y.length) (h3 : true ∉ mask) :
    maskScores b.y b.pred mask = .error .zeroDiv := by
  unfold maskScores
  rw [sel_ok mask b.pred (h2.trans h1.symm), sel_ok mask b.y h2]
  dsimp only [bind, Except.bind]
  rw [if_pos (List.count_eq_zero.mpr h3)]

private theorem mapM_ok {α β : Type} (f : α → Py β) (l : List α) (g : α → β → Prop) (h : ∀ a ∈ l, ∃ b, f a = .ok b ∧ g a b) :
    ∃ r, l.mapM f = .ok r ∧ List.Forall₂ g l r := by
  induction l with
  | nil => exact ⟨[], rfl, .nil⟩
  | cons a l ih =>
      obtain ⟨b, hb, hg⟩ := h a List.mem_cons_self
      obtain ⟨r, hr, hf⟩ := ih (fun x hx => h x (List.mem_cons_of_mem _ hx))
      refine ⟨b :: r, ?_, .cons hg hf⟩
      rw [List.mapM_cons, hb]
      dsimp only [bind, Except.bind]
      rw [hr]
      rfl

private theorem mapM_err {α β : Type} (f : α → Py β) (e : Err) (l : List α) (h : ∀ a ∈ l, (∃ b, f a = .ok b) ∨ f a = .error e) (hx : ∃ a ∈ l, f a = .error e) :
    l.mapM f = .error e := by
  induction l with
  | nil => obtain ⟨a, ha, _⟩ := hx; simp at ha
  | cons a l ih =>
      rw [List.mapM_cons]
      rcases h a List.mem_cons_self with ⟨b, hb⟩ | hb
      · rw [hb]
        dsimp only [bind, Except.bind]
        rw [ih (fun x hx => h x (List.mem_cons_of_mem _ hx))]
        obtain ⟨c, hc, he⟩ := hx
        rcases List.mem_cons.mp hc with rfl | hc
        · rw [hb] at he; simp at he
        · exact ⟨c, hc, he⟩
      · rw [hb]; rfl

private theorem mean_all {α : Type} (l : List α) (r : List Scores) (q : α → ℚ) (h : List.Forall₂ (fun a s => Spec.AllScores (q a) s) l r) :
    Spec.AllScores (meanOf q l) (Scores.mean r) := by
  have hlen : l.length = r.length := h.length_eq
  have hs : ∀ f : Scores → ℚ, List.Forall₂ (fun a s => f s = q a) l r → (r.map f).sum = (l.map q).sum := by
    clear h hlen
    intro f hf
    induction hf with
    | nil => rfl
    | cons hab _ ih => simp [hab, ih]
  unfold Scores.mean meanOf
  refine ⟨?_, ?_, ?_, ?_⟩
  · simp only; rw [hs (·.acc) (h.imp (fun _ _ h => h.1)), hlen]
  · simp only; rw [hs (·.f1) (h.imp (fun _ _ h => h.2.1)), hlen]
  · simp only; rw [hs (·.prec) (h.imp (fun _ _ h => h.2.2.1)), hlen]
  · simp only; rw [hs (·.recl) (h.imp (fun _ _ h => h.2.2.2)), hlen]

private theorem rows_all {α : Type} (l : List α) (r : List (Scores × Scores × Scores)) (q1 q2 q3 : α → ℚ)
    (h : List.Forall₂ (fun a s => Spec.AllScores (q1 a) s.1 ∧ Spec.AllScores (q2 a) s.2.1 ∧ Spec.AllScores (q3 a) s.2.2) l r) :
    Spec.AllScores (meanOf q1 l) (meanRows r).1 ∧ Spec.AllScores (meanOf q2 l) (meanRows r).2.1 ∧ Spec.AllScores (meanOf q3 l) (meanRows r).2.2 := by
  refine ⟨mean_all l _ q1 ?_, mean_all l _ q2 ?_, mean_all l _ q3 ?_⟩
  · exact List.forall₂_map_right_iff.mpr (h.imp (fun _ _ h => h.1))
  · exact List.forall₂_map_right_iff.mpr (h.imp (fun _ _ h => h.2.1))
  · exact List.forall₂_map_right_iff.mpr (h.imp (fun _ _ h => h.2.2))

/-- **C140, the scores of a batch.** If no mask is empty, the accuracy for training, validation and test nodes is the mean over the splits of the share of nodes predicted right,
and F1, precision and recall are always the same numbers as the accuracy. -/
theorem C140_scores (b : EvalBatch) (hp : Spec.Proper b) (hi : Spec.Inhabited b) :
    ∃ r, testBatch b = .ok r ∧ Spec.AllScores (meanOf (fun s => Spec.share b s.1) b.splits) r.1 ∧
      Spec.AllScores (meanOf (fun s => Spec.share b s.2.1) b.splits) r.2.1 ∧ Spec.AllScores (meanOf (fun s => Spec.share b s.2.2) b.splits) r.2.2 := by
  obtain ⟨h1, h2, h3⟩ := hp
  obtain ⟨r, hr, hf⟩ := mapM_ok (splitScores b) b.splits
    (fun a s => Spec.AllScores (Spec.share b a.1) s.1 ∧ Spec.AllScores (Spec.share b a.2.1) s.2.1 ∧ Spec.AllScores (Spec.share b a.2.2) s.2.2) (by
      intro s hs
      obtain ⟨l1, l2, l3⟩ := h3 s hs
      obtain ⟨i1, i2, i3⟩ := hi s hs
      obtain ⟨a, ha, ha'⟩ := maskScores_ok b s.1 h1 l1 i1
      obtain ⟨c, hc, hc'⟩ := maskScores_ok b s.2.1 h1 l2 i2
      obtain ⟨d, hd, hd'⟩ := maskScores_ok b s.2.2 h1 l3 i3
      refine ⟨(a, c, d), ?_, ha', hc', hd'⟩
      unfold splitScores
      rw [ha, hc, hd]
      rfl)
  refine ⟨meanRows r, ?_, rows_all b.splits r _ _ _ hf⟩
  unfold testBatch
  rw [hr]
  dsimp only [bind, Except.bind]
  rw [if_neg]
  rintro rfl
  exact h2 (List.forall₂_nil_right_iff.mp hf)

/-- **C140, bounds.** The share lies between 0 and 1 and is 1 exactly if every node of the mask is predicted right. -/
theorem C140_share (b : EvalBatch) (mask : List Bool) (hl : mask.length = b.y.length) (hp : b.pred.length = b.y.length) (hm : true ∈ mask) :
    0 ≤ Spec.share b mask ∧ Spec.share b mask ≤ 1 ∧
    (Spec.share b mask = 1 ↔ ∀ i : Nat, mask[i]? = some true → b.pred[i]? = b.y[i]?) := by
  have hcount : ∀ (mask : List Bool) (p y : List Int), mask.length = y.length → p.length = y.length →
      (mask.zip (p.zip y)).countP (fun q => q.1 && decide (q.2.1 = q.2.2)) ≤ mask.count true ∧
      ((mask.zip (p.zip y)).countP (fun q => q.1 && decide (q.2.1 = q.2.2)) = mask.count true ↔ ∀ i : Nat, mask[i]? = some true → p[i]? = y[i]?) := by
    intro mask
    induction mask with
    | nil => intro p y _ _; simp
    | cons m mask ih =>
        intro p y h1 h2
        cases p with
        | nil => rw [← h2] at h1; simp at h1
        | cons a p =>
            cases y with
            | nil => simp at h1
            | cons c y =>
                obtain ⟨g1, g2⟩ := ih p y (by simpa using h1) (by simpa using h2)
                have hall : (∀ i : Nat, (m :: mask)[i]? = some true → (a :: p)[i]? = (c :: y)[i]?) ↔
                    (m = true → a = c) ∧ ∀ i : Nat, mask[i]? = some true → p[i]? = y[i]? := by
                  constructor
                  · intro h
                    exact ⟨fun hm => by simpa using h 0 (by simp [hm]), fun i hi => by simpa using h (i + 1) (by simpa using hi)⟩
                  · rintro ⟨h0, hs⟩ i hi
                    cases i with
                    | zero => simpa using h0 (by simpa using hi)
                    | succ i => simpa using hs i (by simpa using hi)
                rw [hall]
                cases m
                · simp only [List.zip_cons_cons, List.countP_cons, Bool.false_and, Bool.false_eq_true, if_false, Nat.add_zero, List.count_cons, beq_iff_eq, false_implies, true_and]
                  exact ⟨g1, g2⟩
                · by_cases hac : a = c
                  · simp only [List.zip_cons_cons, List.countP_cons, hac, decide_true, Bool.and_self, if_true, List.count_cons, beq_self_eq_true, true_implies, true_and]
                    exact ⟨by omega, by rw [← g2]; omega⟩
                  · simp only [List.zip_cons_cons, List.countP_cons, hac, decide_false, Bool.and_false, Bool.false_eq_true, if_false, List.count_cons, beq_self_eq_true, if_true, true_implies, false_and, iff_false]
                    exact ⟨by omega, by omega⟩
  obtain ⟨g1, g2⟩ := hcount mask b.pred b.y hl hp
  have hc : 0 < mask.count true := List.count_pos_iff.mpr hm
  have hq : (0 : ℚ) < mask.count true := by exact_mod_cast hc
  refine ⟨div_nonneg (Nat.cast_nonneg _) hq.le, ?_, ?_⟩
  · unfold Spec.share
    rw [div_le_one hq]
    exact_mod_cast g1
  · unfold Spec.share
    rw [div_eq_one_iff_eq hq.ne', ← g2]
    unfold Spec.right
    exact Nat.cast_inj

/-- **C140, empty masks.** If one of the masks of a batch has no node, evaluating the batch raises ZeroDivisionError. -/
theorem C140_empty_mask (b : EvalBatch) (hp : Spec.Proper b) (hi : ¬ Spec.Inhabited b) : testBatch b = .error .zeroDiv := by
  obtain ⟨h1, h2, h3⟩ := hp
  have hm : ∀ s ∈ b.splits, ((∃ r, splitScores b s = .ok r) ∨ splitScores b s = .error .zeroDiv) ∧
      (¬ (true ∈ s.1 ∧ true ∈ s.2.1 ∧ true ∈ s.2.2) → splitScores b s = .error .zeroDiv) := by
    intro s hs
    obtain ⟨l1, l2, l3⟩ := h3 s hs
    unfold splitScores
    by_cases i1 : true ∈ s.1
    · obtain ⟨a, ha, _⟩ := maskScores_ok b s.1 h1 l1 i1
      rw [ha]
      by_cases i2 : true ∈ s.2.1
      · obtain ⟨c, hc, _⟩ := maskScores_ok b s.2.1 h1 l2 i2
        rw [hc]
        by_cases i3 : true ∈ s.2.2
        · obtain ⟨d, hd, _⟩ := maskScores_ok b s.2.2 h1 l3 i3
          rw [hd]
          exact ⟨Or.inl ⟨_, rfl⟩, fun h => absurd ⟨i1, i2, i3⟩ h⟩
        · rw [maskScores_empty b s.2.2 h1 l3 i3]
          exact ⟨Or.inr rfl, fun _ => rfl⟩
      · rw [maskScores_empty b s.2.1 h1 l2 i2]
        exact ⟨Or.inr rfl, fun _ => rfl⟩
    · rw [maskScores_empty b s.1 h1 l1 i1]
      exact ⟨Or.inr rfl, fun _ => rfl⟩
  unfold Spec.Inhabited at hi
  push Not at hi
  obtain ⟨s, hs, hi⟩ := hi
  unfold testBatch
  rw [mapM_err (splitScores b) .zeroDiv b.splits (fun s hs => (hm s hs).1) ⟨s, hs, (hm s hs).2 (fun ⟨a, c, d⟩ => hi a c d)⟩]
  rfl

/-! ### C141 -/

namespace Spec

/-- The accuracy of an epoch: the mean over its batches of the accuracies of C140. -/
def valAcc (epoch : List EvalBatch) : ℚ := meanOf (fun b => meanOf (fun s => share b s.2.1) b.splits) epoch

/-- The same for the test nodes. -/
def testAcc (epoch : List EvalBatch) : ℚ := meanOf (fun b => meanOf (fun s => share b s.2.2) b.splits) epoch

/-- `r` is the greatest value of `f` on the list, or 0 if none is above 0. -/
def Greatest {α : Type} (f : α → ℚ) (l : List α) (r : ℚ) : Prop := (r = 0 ∨ ∃ e ∈ l, r = f e) ∧ 0 ≤ r ∧ ∀ e ∈ l, f e ≤ r

end Spec

private theorem keepMax_greatest {α : Type} (f : α → ℚ) (l : List α) (a : α) (r : ℚ) (h : Spec.Greatest f l r) : Spec.Greatest f (l ++ [a]) (keepMax (f a) r) := by
  obtain ⟨h1, h2, h3⟩ := h
  unfold keepMax
  split
  · next hlt =>
      refine ⟨Or.inr ⟨a, by simp, rfl⟩, le_trans h2 (le_of_lt hlt), ?_⟩
      intro e he
      rcases List.mem_append.mp he with he | he
      · exact le_trans (h3 e he) (le_of_lt hlt)
      · rw [List.mem_singleton.mp he]
  · next hlt =>
      refine ⟨?_, h2, ?_⟩
      · rcases h1 with h1 | ⟨e, he, h1⟩
        · exact Or.inl h1
        · exact Or.inr ⟨e, by simp [he], h1⟩
      · intro e he
        rcases List.mem_append.mp he with he | he
        · exact h3 e he
        · rw [List.mem_singleton.mp he]; exact not_lt.mp hlt

private theorem epochStep_ok (best : Best) (epoch : List EvalBatch) (h : ∀ b ∈ epoch, Spec.Proper b ∧ Spec.Inhabited b) :
    epochStep best epoch = .ok ⟨keepMax (Spec.valAcc epoch) best.finalTestAcc, keepMax (Spec.testAcc epoch) best.bestValAcc,
      keepMax (Spec.valAcc epoch) best.bestTestF1, keepMax (Spec.testAcc epoch) best.bestValF1⟩ := by
  obtain ⟨r, hr, hf⟩ := mapM_ok testBatch epoch (fun b r => Spec.AllScores (meanOf (fun s => Spec.share b s.1) b.splits) r.1 ∧
      Spec.AllScores (meanOf (fun s => Spec.share b s.2.1) b.splits) r.2.1 ∧ Spec.AllScores (meanOf (fun s => Spec.share b s.2.2) b.splits) r.2.2)
    (fun b hb => C140_scores b (h b hb).1 (h b hb).2)
  obtain ⟨_, h2, h3⟩ := rows_all epoch r _ _ _ hf
  unfold epochStep
  rw [hr]
  dsimp only [bind, Except.bind]
  rw [h2.1, h2.2.1, h3.1, h3.2.1]
  rfl

/-- **C141, the result of training.** If no mask of any batch is empty, training ends, and what is printed as best validation accuracy and best test accuracy are the greatest
accuracies of any epoch for the validation and the test nodes (0 if there is none). Defect: what is printed as the best validation F1 is the best for the test nodes, and the
other way round. -/
theorem C141_report (epochs : List (List EvalBatch)) (h : ∀ e ∈ epochs, ∀ b ∈ e, Spec.Proper b ∧ Spec.Inhabited b) :
    ∃ r, report epochs = .ok r ∧ Spec.Greatest Spec.valAcc epochs r.valAccuracy ∧ Spec.Greatest Spec.testAcc epochs r.testAccuracy ∧
      Spec.Greatest Spec.testAcc epochs r.valF1 ∧ Spec.Greatest Spec.valAcc epochs r.testF1 := by
  have hmain : ∀ (todo done : List (List EvalBatch)) (b : Best), (∀ e ∈ todo, ∀ b ∈ e, Spec.Proper b ∧ Spec.Inhabited b) →
      Spec.Greatest Spec.valAcc done b.finalTestAcc → Spec.Greatest Spec.testAcc done b.bestValAcc →
      Spec.Greatest Spec.valAcc done b.bestTestF1 → Spec.Greatest Spec.testAcc done b.bestValF1 →
      ∃ r, todo.foldlM epochStep b = .ok r ∧ Spec.Greatest Spec.valAcc (done ++ todo) r.finalTestAcc ∧ Spec.Greatest Spec.testAcc (done ++ todo) r.bestValAcc ∧
        Spec.Greatest Spec.valAcc (done ++ todo) r.bestTestF1 ∧ Spec.Greatest Spec.testAcc (done ++ todo) r.bestValF1 := by
    intro todo
    induction todo with
    | nil => intro done b _ h1 h2 h3 h4; rw [List.append_nil]; exact ⟨b, rfl, h1, h2, h3, h4⟩
    | cons e todo ih =>
        intro done b ht h1 h2 h3 h4
        rw [List.foldlM_cons, epochStep_ok b e (ht e List.mem_cons_self)]
        obtain ⟨r, hr, g⟩ := ih (done ++ [e]) ⟨keepMax (Spec.valAcc e) b.finalTestAcc, keepMax (Spec.testAcc e) b.bestValAcc,
          keepMax (Spec.valAcc e) b.bestTestF1, keepMax (Spec.testAcc e) b.bestValF1⟩ (fun e he => ht e (List.mem_cons_of_mem _ he)) (keepMax_greatest _ done e _ h1) (keepMax_greatest _ done e _ h2)
          (keepMax_greatest _ done e _ h3) (keepMax_greatest _ done e _ h4)
        rw [List.append_assoc] at g
        exact ⟨r, hr, g⟩
  have h0 : ∀ f : List EvalBatch → ℚ, Spec.Greatest f [] 0 := fun f => ⟨Or.inl rfl, le_refl _, by simp⟩
  obtain ⟨r, hr, g1, g2, g3, g4⟩ := hmain epochs [] {} h (h0 _) (h0 _) (h0 _) (h0 _)
  unfold report runTrainer
  rw [hr]
  exact ⟨_, rfl, g1, g2, g4, g3⟩

/-- **C141, a batch without test nodes.** If every batch has its masks and its splits, and some batch of some epoch has an empty mask, training ends with ZeroDivisionError. -/
theorem C141_empty_mask (epochs : List (List EvalBatch)) (hp : ∀ e ∈ epochs, ∀ b ∈ e, Spec.Proper b) (hi : ∃ e ∈ epochs, ∃ b ∈ e, ¬ Spec.Inhabited b) :
    report epochs = .error .zeroDiv := by
  have hstep : ∀ (best : Best) (e : List EvalBatch), (∀ b ∈ e, Spec.Proper b) → (∃ b ∈ e, ¬ Spec.Inhabited b) → epochStep best e = .error .zeroDiv := by
    intro best e h1 ⟨b, hb, h2⟩
    unfold epochStep
    rw [mapM_err testBatch .zeroDiv e ?_ ⟨b, hb, C140_empty_mask b (h1 b hb) h2⟩]
    · rfl
    · intro a ha
      by_cases hi : Spec.Inhabited a
      · obtain ⟨r, hr, _⟩ := C140_scores a (h1 a ha) hi
        exact Or.inl ⟨r, hr⟩
      · exact Or.inr (C140_empty_mask a (h1 a ha) hi)
  have hmain : ∀ (epochs : List (List EvalBatch)) (best : Best), (∀ e ∈ epochs, ∀ b ∈ e, Spec.Proper b) → (∃ e ∈ epochs, ∃ b ∈ e, ¬ Spec.Inhabited b) →
      epochs.foldlM epochStep best = .error .zeroDiv := by
    intro epochs
    induction epochs with
    | nil => intro best _ ⟨e, he, _⟩; simp at he
    | cons e es ih =>
        intro best h1 h2
        rw [List.foldlM_cons]
        by_cases hb : ∃ b ∈ e, ¬ Spec.Inhabited b
        · rw [hstep best e (h1 e List.mem_cons_self) hb]; rfl
        · push Not at hb
          rw [epochStep_ok best e (fun b hb' => ⟨h1 e List.mem_cons_self b hb', hb b hb'⟩)]
          apply ih _ (fun e he => h1 e (List.mem_cons_of_mem _ he))
          obtain ⟨e', he', b, hb', hn⟩ := h2
          rcases List.mem_cons.mp he' with rfl | he'
          · exact absurd (hb b hb') hn
          · exact ⟨e', he', b, hb', hn⟩
  unfold report runTrainer
  rw [hmain epochs {} hp hi]
  rfl

/-! ### examples -/

private def exBatch : EvalBatch := ⟨[0, 1, 1, 2], [0, 1, 2, 0], [([true, false, false, false], [false, true, true, false], [false, false, false, true])]⟩

example : Spec.Proper exBatch ∧ Spec.Inhabited exBatch := by
  unfold Spec.Proper Spec.Inhabited exBatch
  decide

/-- Half of the validation nodes and none of the test nodes are right. -/
example : report [[exBatch], [exBatch, exBatch]] = .ok ⟨1/2, 0, 0, 1/2⟩ := by decide +kernel

/-- An example trainer that is not created, and one that is. -/
example : exampleSuper (.int 100) (.int 4) (.dataset 12) = .error .value ∧ ngcSuper (.int 100) (.int 4) (.dataset 12) = .ok ⟨.dataset 12, .int 100, .int 4, 12⟩ := by decide

end NGC
