import Verif.MetricPlot
import Verif.SharedProps

/-!
C207: what `plot_metrics` draws after any history of updates.
-/

namespace NGC

namespace Spec

/-- The points of a line with their values. -/
def linePoints (l : PlotLine) : List (Nat × ℚ) := l.xs.zip l.ys

/-- A list that can be drawn over `n` places: empty or of that length. -/
def Fits (n : Nat) (ys : List ℚ) : Prop := ys = [] ∨ ys.length = n

instance (n : Nat) (ys : List ℚ) : Decidable (Fits n ys) := inferInstanceAs (Decidable (ys = [] ∨ ys.length = n))

end Spec

open Spec

theorem plotAll_go (xs : List Nat) : ∀ (l : List (String × List ℚ)) (acc : List PlotLine),
    l.foldlM (fun acc p => (plotIf p.1 xs p.2).map (fun q => acc ++ q)) acc =
      if ∀ p ∈ l, Fits xs.length p.2 then (.ok (acc ++ (l.filter (fun p => decide (p.2 ≠ []))).map (fun p => ⟨p.1, xs, p.2⟩)) : Py (List PlotLine)) else .error .value := by
  intro l
  induction l with
  | nil => intro acc; simp [pure, Except.pure]
  | cons p l ih =>
    intro acc
    simp only [List.foldlM_cons, List.forall_mem_cons]
    by_cases h0 : p.2 = []
    · have : plotIf p.1 xs p.2 = .ok [] := by simp [plotIf, h0]
      rw [this]
      change List.foldlM _ (acc ++ []) l = _
      have hf : Fits xs.length p.2 := Or.inl h0
      rw [List.append_nil, ih]
      by_cases hl : ∀ p ∈ l, Fits xs.length p.2
      · rw [if_pos hl, if_pos ⟨hf, hl⟩]; simp [h0]
      · rw [if_neg hl, if_neg (fun h => hl h.2)]
    · by_cases h1 : xs.length = p.2.length
      · have : plotIf p.1 xs p.2 = .ok [⟨p.1, xs, p.2⟩] := by simp [plotIf, h0, h1]
        rw [this]
        change List.foldlM _ (acc ++ [_]) l = _
        have hf : Fits xs.length p.2 := Or.inr h1.symm
        rw [ih]
        by_cases hl : ∀ p ∈ l, Fits xs.length p.2
        · rw [if_pos hl, if_pos ⟨hf, hl⟩]; simp [h0]
        · rw [if_neg hl, if_neg (fun h => hl h.2)]
      · have : plotIf p.1 xs p.2 = .error .value := by simp [plotIf, h0, h1]
        rw [this]
        simp only [Except.map, bind, Except.bind]
        have hf : ¬ Fits xs.length p.2 := by rintro (h | h); exacts [h0 h, h1 h.symm]
        simp [hf]

theorem plotAll_eq (xs : List Nat) (l : List (String × List ℚ)) :
    plotAll xs l = if ∀ p ∈ l, Fits xs.length p.2 then .ok ((l.filter (fun p => decide (p.2 ≠ []))).map (fun p => ⟨p.1, xs, p.2⟩)) else .error .value := by
  unfold plotAll
  rw [plotAll_go]
  simp

/-- What the blocks of validation and test draw, and when. -/
theorem plotBlock_eq (freq : Nat) (a b c d : List ℚ) (n1 n2 n3 n4 : String) (aucs aps : List ℚ) :
    plotBlock freq a b c d [n1, n2, n3, n4] aucs aps =
      if a ≠ [] ∧ b ≠ [] ∧ c ≠ [] ∧ d ≠ [] then
        if freq ≠ 0 ∧ b.length = a.length ∧ c.length = a.length ∧ d.length = a.length ∧ Fits a.length aucs ∧ Fits a.length aps then
          .ok ((([(n1, a), (n2, b), (n3, c), (n4, d), ("test_auc", aucs), ("test_ap", aps)] : List (String × List ℚ)).filter (fun p => decide (p.2 ≠ []))).map
            (fun p => ⟨p.1, (List.range a.length).map (fun k => freq + k * freq), p.2⟩))
        else .error .value
      else .ok [] := by
  unfold plotBlock
  by_cases h : a ≠ [] ∧ b ≠ [] ∧ c ≠ [] ∧ d ≠ []
  · rw [if_pos h, if_pos h]
    by_cases hf : freq = 0
    · simp [epochTicks, hf, bind, Except.bind]
    · simp only [epochTicks, if_neg hf, bind, Except.bind, plotAll_eq, List.length_map, List.length_range]
      have hfit : (∀ p ∈ (([n1, n2, n3, n4].zip [a, b, c, d]) ++ [("test_auc", aucs), ("test_ap", aps)] : List (String × List ℚ)), Fits a.length p.2) ↔
          (freq ≠ 0 ∧ b.length = a.length ∧ c.length = a.length ∧ d.length = a.length ∧ Fits a.length aucs ∧ Fits a.length aps) := by
        have hb : Fits a.length b ↔ b.length = a.length := by simp [Fits, h.2.1]
        have hc : Fits a.length c ↔ c.length = a.length := by simp [Fits, h.2.2.1]
        have hd : Fits a.length d ↔ d.length = a.length := by simp [Fits, h.2.2.2]
        have ha : Fits a.length a := Or.inr rfl
        simp [hb, hc, hd, ha, hf]
      by_cases hh : (freq ≠ 0 ∧ b.length = a.length ∧ c.length = a.length ∧ d.length = a.length ∧ Fits a.length aucs ∧ Fits a.length aps)
      · rw [if_pos (hfit.2 hh), if_pos hh]; rfl
      · rw [if_neg (fun x => hh (hfit.1 x)), if_neg hh]
  · rw [if_neg h, if_neg h]

/-- A history of updates, from a new object. -/
def plotHistory (ops : List MetricsOp) : Metrics := (ops.foldl MetricsOp.run ⟨{}, [], 0, 100⟩).m

theorem history_val (ops : List MetricsOp) (s : MetricsState)
    (h : s.m.valF1s.length = s.m.valAccs.length ∧ s.m.valPrecisions.length = s.m.valAccs.length ∧ s.m.valRecalls.length = s.m.valAccs.length) :
    let t := (ops.foldl MetricsOp.run s).m
    t.valF1s.length = t.valAccs.length ∧ t.valPrecisions.length = t.valAccs.length ∧ t.valRecalls.length = t.valAccs.length := by
  induction ops generalizing s with
  | nil => exact h
  | cons o ops ih =>
    refine ih _ ?_
    cases o <;> simp [MetricsOp.run, MetricsState.updateTrain, MetricsState.updateVal, MetricsState.updateTest, h]

/-- C207: after any history of updates `plot_metrics` returns exactly if the training scores and the losses were recorded equally often or the scores never, if after validation the interval is not 0 and
AUC and AP were recorded as often as validation or never, and if, once each of the four test scores was recorded, all were equally often, the interval is not 0 and AUC and AP likewise. Otherwise it is a ValueError and no
file is written. -/
theorem C207_when (ops : List MetricsOp) (evalFreq testFreq : Nat) (selfType outputDir modelType : List Char) :
    let m := plotHistory ops
    let good := (Fits m.trainLosses.length m.trainF1s ∧ Fits m.trainLosses.length m.trainAccs ∧ Fits m.trainLosses.length m.trainPrecisions ∧ Fits m.trainLosses.length m.trainRecalls) ∧
      (m.valAccs ≠ [] → evalFreq ≠ 0 ∧ Fits m.valAccs.length m.testAucs ∧ Fits m.valAccs.length m.testAps) ∧
      (m.testAccs ≠ [] ∧ m.testF1s ≠ [] ∧ m.testPrecisions ≠ [] ∧ m.testRecalls ≠ [] →
        testFreq ≠ 0 ∧ m.testF1s.length = m.testAccs.length ∧ m.testPrecisions.length = m.testAccs.length ∧ m.testRecalls.length = m.testAccs.length ∧
        Fits m.testAccs.length m.testAucs ∧ Fits m.testAccs.length m.testAps)
    (good → ∃ p, plotMetrics m evalFreq testFreq selfType outputDir modelType = .ok p) ∧
    (¬ good → plotMetrics m evalFreq testFreq selfType outputDir modelType = .error .value) := by
  intro m good
  have hv := history_val ops ⟨{}, [], 0, 100⟩ (by simp)
  change m.valF1s.length = m.valAccs.length ∧ m.valPrecisions.length = m.valAccs.length ∧ m.valRecalls.length = m.valAccs.length at hv
  have hnil : ∀ l l' : List ℚ, l.length = l'.length → (l ≠ [] ↔ l' ≠ []) := by
    intro l l' h
    rw [← List.length_pos_iff, ← List.length_pos_iff, h]
  have hcond : (m.valAccs ≠ [] ∧ m.valF1s ≠ [] ∧ m.valPrecisions ≠ [] ∧ m.valRecalls ≠ []) ↔ m.valAccs ≠ [] := by
    rw [hnil _ _ hv.1, hnil _ _ hv.2.1, hnil _ _ hv.2.2]; simp
  unfold plotMetrics
  simp only [plotAll_eq, plotBlock_eq, hcond, List.forall_mem_cons, List.length_range', List.not_mem_nil, false_imp_iff, implies_true, and_true]
  have hself : Fits m.trainLosses.length m.trainLosses := Or.inr rfl
  simp only [hself, true_and]
  by_cases h1 : (Fits m.trainLosses.length m.trainF1s ∧ Fits m.trainLosses.length m.trainAccs ∧ Fits m.trainLosses.length m.trainPrecisions ∧ Fits m.trainLosses.length m.trainRecalls)
  swap
  · rw [if_neg h1]
    exact ⟨fun g => absurd g.1 h1, fun _ => rfl⟩
  rw [if_pos h1]
  have hval : ∀ {α : Type} (x y z : α), (if m.valAccs ≠ [] then if evalFreq ≠ 0 ∧ m.valF1s.length = m.valAccs.length ∧ m.valPrecisions.length = m.valAccs.length ∧
      m.valRecalls.length = m.valAccs.length ∧ Fits m.valAccs.length m.testAucs ∧ Fits m.valAccs.length m.testAps then x else y else z) =
      if m.valAccs ≠ [] → evalFreq ≠ 0 ∧ Fits m.valAccs.length m.testAucs ∧ Fits m.valAccs.length m.testAps then (if m.valAccs ≠ [] then x else z) else y := by
    intro α x y z
    by_cases h : m.valAccs ≠ []
    · simp [h, hv.1, hv.2.1, hv.2.2]
    · simp [h]
  by_cases h2 : (m.valAccs ≠ [] → evalFreq ≠ 0 ∧ Fits m.valAccs.length m.testAucs ∧ Fits m.valAccs.length m.testAps)
  swap
  · rw [hval, if_neg h2]
    exact ⟨fun g => absurd g.2.1 h2, fun _ => rfl⟩
  rw [hval, if_pos h2]
  by_cases h3 : (m.testAccs ≠ [] ∧ m.testF1s ≠ [] ∧ m.testPrecisions ≠ [] ∧ m.testRecalls ≠ [])
  · rw [if_pos h3]
    by_cases h4 : (testFreq ≠ 0 ∧ m.testF1s.length = m.testAccs.length ∧ m.testPrecisions.length = m.testAccs.length ∧ m.testRecalls.length = m.testAccs.length ∧
        Fits m.testAccs.length m.testAucs ∧ Fits m.testAccs.length m.testAps)
    · rw [if_pos h4]
      refine ⟨fun _ => ?_, fun g => absurd ⟨h1, h2, fun _ => h4⟩ g⟩
      split <;> exact ⟨_, rfl⟩
    · rw [if_neg h4]
      refine ⟨fun g => absurd (g.2.2 h3) h4, fun _ => ?_⟩
      split <;> rfl
  · rw [if_neg h3]
    refine ⟨fun _ => ?_, fun g => absurd ⟨h1, h2, fun h => absurd h h3⟩ g⟩
    split <;> exact ⟨_, rfl⟩

/-- C207: when it returns, a loss line is drawn exactly if there are losses, and its `k`-th loss stands at `k + 1`; a validation line is drawn exactly if validation was recorded, and its `k`-th value stands at `(k + 1) * interval`. The
title and the file are named after the model. -/
theorem C207_lines (ops : List MetricsOp) (evalFreq testFreq : Nat) (selfType outputDir modelType : List Char) (p : MetricPlot)
    (h : plotMetrics (plotHistory ops) evalFreq testFreq selfType outputDir modelType = .ok p) :
    ((plotHistory ops).trainLosses ≠ [] → ∃ l ∈ p.lines, l.label = "train_loss" ∧ linePoints l = (plotHistory ops).trainLosses.zipIdx.map (fun q => (q.2 + 1, q.1))) ∧
    ((plotHistory ops).valAccs ≠ [] → ∃ l ∈ p.lines, l.label = "val_acc" ∧ linePoints l = (plotHistory ops).valAccs.zipIdx.map (fun q => ((q.2 + 1) * evalFreq, q.1))) ∧
    (∀ l ∈ p.lines, l.ys ≠ [] ∧ l.xs.length = l.ys.length) ∧
    p.title = (if selfType = [] then modelType else selfType) ++ " Training Metrics".toList ∧
    (outputDir = [] → p.file = none) ∧
    (outputDir ≠ [] → p.file = some (joinPath outputDir ((if selfType = [] then modelType else selfType) ++ "_metrics.png".toList))) := by
  have hv := history_val ops ⟨{}, [], 0, 100⟩ (by simp)
  change (plotHistory ops).valF1s.length = (plotHistory ops).valAccs.length ∧ (plotHistory ops).valPrecisions.length = (plotHistory ops).valAccs.length ∧
    (plotHistory ops).valRecalls.length = (plotHistory ops).valAccs.length at hv
  generalize plotHistory ops = m at h hv ⊢
  have hnil : ∀ l l' : List ℚ, l.length = l'.length → l' ≠ [] → l ≠ [] := by
    intro l l' h h'
    rw [← List.length_pos_iff] at h' ⊢
    omega
  have hpts : ∀ (f : Nat → Nat) (ys : List ℚ) (xs : List Nat), xs = (List.range ys.length).map f →
      xs.zip ys = ys.zipIdx.map (fun q => (f q.2, q.1)) := by
    intro f ys xs hx
    subst hx
    refine List.ext_getElem (by simp) (fun i h1 h2 => ?_)
    simp
  unfold plotMetrics at h
  simp only [plotAll_eq, plotBlock_eq] at h
  obtain ⟨T, hT⟩ : ∃ T : List (String × List ℚ), T = [("train_loss", m.trainLosses), ("train_f1", m.trainF1s), ("train_acc", m.trainAccs), ("train_precision", m.trainPrecisions),
    ("train_recall", m.trainRecalls)] := ⟨_, rfl⟩
  rw [← hT] at h
  split at h
  swap
  · simp [bind, Except.bind] at h
  rename_i hTfit
  simp only [bind, Except.bind] at h
  have hTlines : ∀ l ∈ (T.filter (fun p => decide (p.2 ≠ []))).map (fun p => (⟨p.1, List.range' 1 m.trainLosses.length, p.2⟩ : PlotLine)), l.ys ≠ [] ∧ l.xs.length = l.ys.length := by
    intro l hl
    obtain ⟨q, hq, rfl⟩ := List.mem_map.1 hl
    have h1 := List.mem_filter.1 hq
    have h2 := of_decide_eq_true h1.2
    refine ⟨h2, ?_⟩
    rcases hTfit q h1.1 with h3 | h3
    · exact absurd h3 h2
    · exact h3.symm
  have hloss : m.trainLosses ≠ [] → ∃ l ∈ (T.filter (fun p => decide (p.2 ≠ []))).map (fun p => (⟨p.1, List.range' 1 m.trainLosses.length, p.2⟩ : PlotLine)),
      l.label = "train_loss" ∧ linePoints l = m.trainLosses.zipIdx.map (fun q => (q.2 + 1, q.1)) := by
    intro hne
    refine ⟨⟨"train_loss", List.range' 1 m.trainLosses.length, m.trainLosses⟩, List.mem_map.2 ⟨("train_loss", m.trainLosses), List.mem_filter.2 ⟨by simp [hT], by simpa using hne⟩, rfl⟩, rfl, ?_⟩
    refine hpts (fun k => k + 1) _ _ ?_
    rw [List.range'_eq_map_range]
    exact List.map_congr_left (fun k _ => by omega)
  have hblock : ∀ (freq : Nat) (a b c d : List ℚ) (n1 n2 n3 n4 : String) (L : List PlotLine),
      (if a ≠ [] ∧ b ≠ [] ∧ c ≠ [] ∧ d ≠ [] then
        if freq ≠ 0 ∧ b.length = a.length ∧ c.length = a.length ∧ d.length = a.length ∧ Fits a.length m.testAucs ∧ Fits a.length m.testAps then
          (.ok ((([(n1, a), (n2, b), (n3, c), (n4, d), ("test_auc", m.testAucs), ("test_ap", m.testAps)] : List (String × List ℚ)).filter (fun p => decide (p.2 ≠ []))).map
            (fun p => ⟨p.1, (List.range a.length).map (fun k => freq + k * freq), p.2⟩)) : Py (List PlotLine))
        else .error .value
      else .ok []) = .ok L →
      (∀ l ∈ L, l.ys ≠ [] ∧ l.xs.length = l.ys.length) ∧
      (a ≠ [] ∧ b ≠ [] ∧ c ≠ [] ∧ d ≠ [] → ∃ l ∈ L, l.label = n1 ∧ linePoints l = a.zipIdx.map (fun q => ((q.2 + 1) * freq, q.1))) := by
    intro freq a b c d n1 n2 n3 n4 L hL
    split at hL
    · rename_i hne
      split at hL
      · rename_i hg
        obtain rfl := Except.ok.inj hL
        constructor
        · intro l hl
          obtain ⟨q, hq, rfl⟩ := List.mem_map.1 hl
          have h1 := List.mem_filter.1 hq
          have h2 := of_decide_eq_true h1.2
          refine ⟨h2, ?_⟩
          have hfa : ∀ y : List ℚ, y ≠ [] → Fits a.length y → a.length = y.length := by
            rintro y hy (h | h)
            · exact absurd h hy
            · exact h.symm
          simp only [List.mem_cons, List.not_mem_nil, or_false] at h1
          simp only [List.length_map, List.length_range]
          rcases h1.1 with h | h | h | h | h | h <;> subst h
          · rfl
          · exact hg.2.1.symm
          · exact hg.2.2.1.symm
          · exact hg.2.2.2.1.symm
          · exact hfa _ h2 hg.2.2.2.2.1
          · exact hfa _ h2 hg.2.2.2.2.2
        · intro _
          refine ⟨⟨n1, (List.range a.length).map (fun k => freq + k * freq), a⟩, List.mem_map.2 ⟨(n1, a), List.mem_filter.2 ⟨by simp, by simpa using hne.1⟩, rfl⟩, rfl, ?_⟩
          exact hpts (fun k => (k + 1) * freq) _ _ (List.map_congr_left (fun k _ => by ring))
      · simp at hL
    · rename_i hne
      obtain rfl := Except.ok.inj hL
      exact ⟨by simp, fun h => absurd h hne⟩
  split at h
  · simp at h
  rename_i V hV
  split at h
  · simp at h
  rename_i W hW
  obtain ⟨v1, v2⟩ := hblock _ _ _ _ _ _ _ _ _ _ hV
  obtain ⟨w1, _⟩ := hblock _ _ _ _ _ _ _ _ _ _ hW
  obtain rfl := Except.ok.inj h
  refine ⟨?_, ?_, ?_, rfl, ?_, ?_⟩
  · intro hne
    obtain ⟨l, hl, h1⟩ := hloss hne
    exact ⟨l, by simp only [List.mem_append]; exact Or.inl (Or.inl hl), h1⟩
  · intro hne
    obtain ⟨l, hl, h1⟩ := v2 ⟨hne, hnil _ _ hv.1 hne, hnil _ _ hv.2.1 hne, hnil _ _ hv.2.2 hne⟩
    exact ⟨l, by simp only [List.mem_append]; exact Or.inl (Or.inr hl), h1⟩
  · intro l hl
    simp only [List.mem_append] at hl
    rcases hl with (hl | hl) | hl
    exacts [hTlines l hl, v1 l hl, w1 l hl]
  · intro ho; simp [ho]
  · intro ho; simp [ho]

/-- C207: defect: for a history that, as that of the graph autoencoder, records only losses and the accuracy, AUC and AP of tests, the plot is the line of the losses and nothing else. -/
theorem C207_autoencoder (rows : List (ℚ × ℚ × ℚ × ℚ)) (evalFreq testFreq : Nat) (selfType outputDir modelType : List Char) (hne : rows ≠ []) :
    ∃ p, plotMetrics (plotHistory (rows.flatMap (fun r => [MetricsOp.train (some r.1) none none none none, MetricsOp.test (some r.2.1) none none none (some r.2.2.1) (some r.2.2.2)])))
      evalFreq testFreq selfType outputDir modelType = .ok p ∧
      p.lines = [⟨"train_loss", List.range' 1 rows.length, rows.map (fun r => r.1)⟩] := by
  have key : ∀ (rows : List (ℚ × ℚ × ℚ × ℚ)) (s : MetricsState),
      let t := ((rows.flatMap (fun r => [MetricsOp.train (some r.1) none none none none, MetricsOp.test (some r.2.1) none none none (some r.2.2.1) (some r.2.2.2)])).foldl MetricsOp.run s).m
      t.trainLosses = s.m.trainLosses ++ rows.map (fun r => r.1) ∧ t.trainF1s = s.m.trainF1s ∧ t.trainAccs = s.m.trainAccs ∧ t.trainPrecisions = s.m.trainPrecisions ∧
      t.trainRecalls = s.m.trainRecalls ∧ t.valAccs = s.m.valAccs ∧ t.testF1s = s.m.testF1s := by
    intro rows
    induction rows with
    | nil => intro s; simp
    | cons r rows ih =>
      intro s
      simp only [List.flatMap_cons, List.cons_append, List.nil_append, List.foldl_cons, MetricsOp.run]
      have := ih ((s.updateTrain (some r.1) none none none none).updateTest (some r.2.1) none none none (some r.2.2.1) (some r.2.2.2))
      simp only at this
      obtain ⟨h1, h2, h3, h4, h5, h6, h7⟩ := this
      refine ⟨?_, ?_, ?_, ?_, ?_, ?_, ?_⟩
      · rw [h1]; simp [MetricsState.updateTrain, MetricsState.updateTest, appendSome]
      · rw [h2]; simp [MetricsState.updateTrain, MetricsState.updateTest, appendSome]
      · rw [h3]; simp [MetricsState.updateTrain, MetricsState.updateTest, appendSome]
      · rw [h4]; simp [MetricsState.updateTrain, MetricsState.updateTest, appendSome]
      · rw [h5]; simp [MetricsState.updateTrain, MetricsState.updateTest, appendSome]
      · rw [h6]; simp [MetricsState.updateTrain, MetricsState.updateTest, appendSome]
      · rw [h7]; simp [MetricsState.updateTrain, MetricsState.updateTest, appendSome]
  obtain ⟨h1, h2, h3, h4, h5, h6, h7⟩ := key rows ⟨{}, [], 0, 100⟩
  unfold plotHistory plotMetrics
  obtain ⟨t, ht⟩ : ∃ t, t = ((rows.flatMap (fun r => [MetricsOp.train (some r.1) none none none none, MetricsOp.test (some r.2.1) none none none (some r.2.2.1) (some r.2.2.2)])).foldl
    MetricsOp.run ⟨{}, [], 0, 100⟩).m := ⟨_, rfl⟩
  rw [← ht] at h1 h2 h3 h4 h5 h6 h7 ⊢
  change t.trainF1s = [] at h2
  change t.trainAccs = [] at h3
  change t.trainPrecisions = [] at h4
  change t.trainRecalls = [] at h5
  change t.valAccs = [] at h6
  change t.testF1s = [] at h7
  change t.trainLosses = rows.map (fun r => r.1) at h1
  have hr : rows.map (fun r => r.1) ≠ [] := by simpa using hne
  rw [plotAll_eq, plotBlock_eq, plotBlock_eq, h1, h2, h3, h4, h5, h6, h7]
  have hfit : ∀ p ∈ ([("train_loss", rows.map (fun r => r.1)), ("train_f1", []), ("train_acc", []), ("train_precision", []), ("train_recall", [])] : List (String × List ℚ)),
      Fits (List.range' 1 (rows.map (fun r => r.1)).length).length p.2 := by
    intro p hp
    simp only [List.mem_cons, List.not_mem_nil, or_false] at hp
    rcases hp with h | h | h | h | h <;> subst h
    · exact Or.inr (by simp)
    all_goals exact Or.inl rfl
  have n1 : ∀ b c d : List ℚ, ¬ (([] : List ℚ) ≠ [] ∧ b ≠ [] ∧ c ≠ [] ∧ d ≠ []) := fun _ _ _ h => h.1 rfl
  have n2 : ∀ a c d : List ℚ, ¬ (a ≠ [] ∧ ([] : List ℚ) ≠ [] ∧ c ≠ [] ∧ d ≠ []) := fun _ _ _ h => h.2.1 rfl
  rw [if_pos hfit, if_neg (n1 _ _ _), if_neg (n2 _ _ _)]
  refine ⟨_, rfl, ?_⟩
  simp [hne]

/-- A history with training and validation that can be drawn. -/
example : (plotMetrics (plotHistory [.train (some 1) none (some 2) none none, .val 3 4 5 6, .train (some 0) none (some 1) none none]) 20 10 "gat".toList "metric".toList []).toOption =
    some ⟨[⟨"train_loss", [1, 2], [1, 0]⟩, ⟨"train_acc", [1, 2], [2, 1]⟩, ⟨"val_acc", [20], [3]⟩, ⟨"val_f1", [20], [4]⟩, ⟨"val_precision", [20], [5]⟩, ⟨"val_recall", [20], [6]⟩],
      "gat Training Metrics".toList, some "metric/gat_metrics.png".toList⟩ := by decide +kernel

/-- One score missing: nothing is drawn. -/
example : (plotMetrics (plotHistory [.train (some 1) none (some 2) none none, .train (some 0) none none none none]) 20 10 [] [] []).toOption = none := by decide +kernel

end NGC
