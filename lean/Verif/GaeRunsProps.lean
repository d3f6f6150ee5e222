import Verif.GaeRuns
import Verif.SharedProps

/-!
C183, C184: training with checkpoints, restarted and killed at arbitrary points.
-/

namespace NGC

namespace Spec

/-- The weights before epoch `e`, of a training that begins with `s`. -/
def weightsAt {S : Type} (step : Nat → S → S × List GaeRow) (s : S) : Nat → S
  | 0 => s
  | e + 1 => (step e (weightsAt step s e)).1

/-- What the batches of epoch `e` give. -/
def rowsAt {S : Type} (step : Nat → S → S × List GaeRow) (s : S) (e : Nat) : List GaeRow := (step e (weightsAt step s e)).2

/-- The mean of a number over the batches of an epoch. -/
def batchMean (f : GaeRow → ℚ) (rows : List GaeRow) : ℚ := (rows.map f).sum / rows.length

/-- A process that starts now finds weights `s` saved in epoch `m`. -/
def Finds {S : Type} (glob : CkDir S → List (List Char)) (d : CkDir S) (m : Nat) (s : S) : Prop :=
  ∀ t : Trainer S, loadCheckpoint t d (glob d) = .ok ⟨s, m + 1, m + 1⟩

/-- `glob` lists the files with the right names, in any order. -/
def Lists {S : Type} (glob : CkDir S → List (List Char)) : Prop :=
  ∀ d n, n ∈ glob d ↔ n ∈ dkeys d ∧ globPt n = true

/-- `M` is the last epoch saved among the first `k`, with a checkpoint every `freq` epochs. -/
def LastSaved (freq k M : Nat) : Prop := M < k ∧ freq ∣ M ∧ ∀ e < k, freq ∣ e → e ≤ M

/-- The process is not killed inside a `torch.save`. -/
def CleanKill {S : Type} (r : GaeRun S) : Prop := ∀ k, r.killed = some (k, true) → ¬ r.freq ∣ k ∨ r.epochs < k

/-- The directory after a history of processes, at first empty. -/
def afterRuns {S : Type} (glob : CkDir S → List (List Char)) (rs : List (GaeRun S)) : CkDir S := rs.foldl (GaeRun.after glob) []

end Spec

section
variable {S : Type}

theorem gaeLoop_add (freq : Nat) (step : Nat → S → S × List GaeRow) (n m e : Nat) (st : GaeState S) :
    gaeLoop freq step (n + m) e st =
      if (gaeLoop freq step n e st).2 = none then gaeLoop freq step m (e + n) (gaeLoop freq step n e st).1 else gaeLoop freq step n e st := by
  induction n generalizing e st with
  | zero => simp [gaeLoop]
  | succ n ih =>
    rw [Nat.add_right_comm]
    simp only [gaeLoop]
    by_cases h1 : (step e st.state).2 = []
    · simp [h1]
    · rw [if_neg h1]
      by_cases h2 : freq = 0
      · simp [h2, h1]
      · rw [if_neg h2, ih]
        simp only [h1, h2, if_false]
        rw [show e + 1 + n = e + (n + 1) by omega]

/-- The checkpoints that `n` epochs write. -/
def gaeOps (freq : Nat) (step : Nat → S → S × List GaeRow) (s : S) (n : Nat) : List (CkOp S) :=
  ((List.range n).filter (fun e => decide (e % freq = 0))).map (fun e => .save e (Spec.weightsAt step s (e + 1)))

/-- First epoch with the greatest accuracy, by recursion. -/
def gaeBest (acc : Nat → ℚ) : Nat → ℚ × Nat
  | 0 => (0, 0)
  | n + 1 => if acc n > (gaeBest acc n).1 then (acc n, n) else gaeBest acc n

theorem gaeLoop_run (freq : Nat) (hf : 0 < freq) (step : Nat → S → S × List GaeRow) (s : S) (ops : List (CkOp S)) (n : Nat)
    (hr : ∀ e < n, Spec.rowsAt step s e ≠ []) :
    gaeLoop freq step n 0 { state := s, dir := ckRun ops } =
      ({ state := Spec.weightsAt step s n
         dir := ckRun (ops ++ gaeOps freq step s n)
         losses := (List.range n).map (fun e => Spec.batchMean GaeRow.loss (Spec.rowsAt step s e) / 2)
         accs := (List.range n).map (fun e => Spec.batchMean GaeRow.acc (Spec.rowsAt step s e))
         aucs := (List.range n).map (fun e => Spec.batchMean GaeRow.auc (Spec.rowsAt step s e))
         aps := (List.range n).map (fun e => Spec.batchMean GaeRow.ap (Spec.rowsAt step s e))
         bestAcc := (gaeBest (fun e => Spec.batchMean GaeRow.acc (Spec.rowsAt step s e)) n).1
         bestEpoch := (gaeBest (fun e => Spec.batchMean GaeRow.acc (Spec.rowsAt step s e)) n).2 }, none) := by
  induction n with
  | zero => simp [gaeLoop, gaeOps, gaeBest, Spec.weightsAt]
  | succ n ih =>
    rw [gaeLoop_add, ih (fun e he => hr e (by omega))]
    have hn : (step n (Spec.weightsAt step s n)).2 ≠ [] := hr n (by omega)
    simp only [gaeLoop, if_true, Nat.zero_add, hn, if_false, Nat.pos_iff_ne_zero.1 hf]
    have hops : gaeOps freq step s (n + 1) = gaeOps freq step s n ++
        if n % freq = 0 then [.save n (Spec.weightsAt step s (n + 1))] else [] := by
      unfold gaeOps
      rw [List.range_succ, List.filter_append, List.map_append]
      congr 1
      by_cases h : n % freq = 0 <;> simp [h]
    have hl : ∀ rows : List GaeRow, (rows.map GaeRow.loss).sum / ((rows.length + rows.length : Nat) : ℚ) = Spec.batchMean GaeRow.loss rows / 2 := by
      intro rows
      unfold Spec.batchMean
      rw [div_div]; congr 1; push_cast; ring
    have hbest : gaeBest (fun e => Spec.batchMean GaeRow.acc (Spec.rowsAt step s e)) (n + 1) =
      if Spec.batchMean GaeRow.acc (Spec.rowsAt step s n) > (gaeBest (fun e => Spec.batchMean GaeRow.acc (Spec.rowsAt step s e)) n).1 then
        (Spec.batchMean GaeRow.acc (Spec.rowsAt step s n), n) else gaeBest (fun e => Spec.batchMean GaeRow.acc (Spec.rowsAt step s e)) n := rfl
    rw [hops, hbest]
    simp only [List.range_succ, List.map_append, List.map_cons, List.map_nil]
    by_cases h : n % freq = 0
    · simp only [h, if_true, GaeState.book, hl]
      rw [← List.append_assoc, ckRun_snoc]
      by_cases hb : Spec.batchMean GaeRow.acc (Spec.rowsAt step s n) > (gaeBest (fun e => Spec.batchMean GaeRow.acc (Spec.rowsAt step s e)) n).1
      · rw [if_pos hb]
        simp only [npMean, Spec.batchMean, Spec.rowsAt, gt_iff_lt] at hb ⊢
        simp [hb, Spec.weightsAt, saveCheckpoint, CkOp.epoch, CkOp.content]
      · rw [if_neg hb]
        simp only [npMean, Spec.batchMean, Spec.rowsAt, gt_iff_lt] at hb ⊢
        simp [hb, Spec.weightsAt, saveCheckpoint, CkOp.epoch, CkOp.content]
    · simp only [h, if_false, GaeState.book, hl, List.append_nil]
      by_cases hb : Spec.batchMean GaeRow.acc (Spec.rowsAt step s n) > (gaeBest (fun e => Spec.batchMean GaeRow.acc (Spec.rowsAt step s e)) n).1
      · rw [if_pos hb]
        simp only [npMean, Spec.batchMean, Spec.rowsAt, gt_iff_lt] at hb ⊢
        simp [hb, Spec.weightsAt, saveCheckpoint, CkOp.epoch, CkOp.content]
      · rw [if_neg hb]
        simp only [npMean, Spec.batchMean, Spec.rowsAt, gt_iff_lt] at hb ⊢
        simp [hb, Spec.weightsAt, saveCheckpoint, CkOp.epoch, CkOp.content]

theorem gaeLoop_dir (freq : Nat) (step : Nat → S → S × List GaeRow) (n e : Nat) (st : GaeState S) (ops : List (CkOp S)) (hd : st.dir = ckRun ops) :
    ∃ more : List (CkOp S), (gaeLoop freq step n e st).1.dir = ckRun (ops ++ more) := by
  induction n generalizing e st ops with
  | zero => exact ⟨[], by simp [gaeLoop, hd]⟩
  | succ n ih =>
    simp only [gaeLoop]
    by_cases h1 : (step e st.state).2 = []
    · exact ⟨[], by simp [h1, hd]⟩
    · rw [if_neg h1]
      by_cases h2 : freq = 0
      · exact ⟨[], by simp [h2, GaeState.book, hd]⟩
      · rw [if_neg h2]
        by_cases h3 : e % freq = 0
        · rw [if_pos h3]
          obtain ⟨more, h⟩ := ih (e + 1) { (GaeState.book { st with state := (step e st.state).1 } e (step e st.state).2) with
            dir := saveCheckpoint st.dir e (step e st.state).1 } (ops ++ [.save e (step e st.state).1]) (by
              rw [ckRun_snoc]; simp [saveCheckpoint, hd, CkOp.epoch, CkOp.content])
          exact ⟨.save e (step e st.state).1 :: more, by
            rw [List.append_assoc] at h
            exact h⟩
        · rw [if_neg h3]
          exact ih (e + 1) _ ops (by simp [GaeState.book, hd])

theorem GaeRun.after_ops (glob : CkDir S → List (List Char)) (r : GaeRun S) (ops : List (CkOp S)) :
    ∃ more, r.after glob (ckRun ops) = ckRun (ops ++ more) := by
  unfold GaeRun.after GaeRun.exec
  rcases hl : loadCheckpoint ⟨r.init, 0, 0⟩ (ckRun ops) (glob (ckRun ops)) with x | t
  · exact ⟨[], by simp [bind, Except.bind]⟩
  · obtain ⟨more, hm⟩ := gaeLoop_dir r.freq r.step r.rounds 0 { state := t.state, dir := ckRun ops } ops rfl
    simp only [bind, Except.bind]
    rcases hk : r.killed with _ | ⟨k, b⟩
    · exact ⟨more, hm⟩
    · cases b
      · exact ⟨more, hm⟩
      · dsimp only
        split
        · rename_i x _ hx
          split at hx
          · simp at hx
          · simp at hx
        · rename_i x o hx
          split at hx
          · refine ⟨more ++ [.torn k], ?_⟩
            have := (Except.ok.inj hx).symm
            rw [this, ← List.append_assoc, ckRun_snoc, ← hm]
            rfl
          · have := (Except.ok.inj hx).symm
            exact ⟨more, by rw [this, hm]⟩

theorem afterRuns_ops (glob : CkDir S → List (List Char)) (rs : List (GaeRun S)) : ∃ ops, Spec.afterRuns glob rs = ckRun ops := by
  unfold Spec.afterRuns
  induction rs using List.reverseRecOn with
  | nil => exact ⟨[], rfl⟩
  | append_singleton rs r ih =>
    obtain ⟨ops, h⟩ := ih
    rw [List.foldl_append, h]
    obtain ⟨more, h'⟩ := r.after_ops glob ops
    exact ⟨_, h'⟩

theorem gaeBest_spec (acc : Nat → ℚ) (n : Nat) :
    (∀ e < n, acc e ≤ (gaeBest acc n).1) ∧ 0 ≤ (gaeBest acc n).1 ∧
    (((gaeBest acc n) = (0, 0) ∧ ∀ e < n, acc e ≤ 0) ∨
     ((gaeBest acc n).2 < n ∧ acc (gaeBest acc n).2 = (gaeBest acc n).1 ∧ 0 < (gaeBest acc n).1 ∧ ∀ e < (gaeBest acc n).2, acc e < (gaeBest acc n).1)) := by
  induction n with
  | zero => simp [gaeBest]
  | succ n ih =>
    obtain ⟨h1, h2, h3⟩ := ih
    rw [gaeBest]
    by_cases h : acc n > (gaeBest acc n).1
    · rw [if_pos h]
      refine ⟨?_, by linarith, Or.inr ⟨by simp, rfl, by simpa using lt_of_le_of_lt h2 h, ?_⟩⟩
      · intro e he
        rcases Nat.lt_succ_iff_lt_or_eq.1 he with he | rfl
        · exact le_of_lt (lt_of_le_of_lt (h1 e he) h)
        · exact le_refl _
      · intro e he
        exact lt_of_le_of_lt (h1 e he) h
    · rw [if_neg h]
      push Not at h
      refine ⟨?_, h2, ?_⟩
      · intro e he
        rcases Nat.lt_succ_iff_lt_or_eq.1 he with he | rfl
        · exact h1 e he
        · exact h
      · rcases h3 with ⟨h3, h4⟩ | ⟨h3, h4⟩
        · left
          refine ⟨h3, ?_⟩
          intro e he
          rcases Nat.lt_succ_iff_lt_or_eq.1 he with he | rfl
          · exact h4 e he
          · rw [h3] at h; exact h
        · right; exact ⟨by omega, h4⟩

/-- **C183, a training that runs to its end.** After any history of processes, killed or not: if a process can load (weights `s`), saves every `freq ≥ 1` epochs and always has batches,
it trains the epochs 0 to `epochs`, one more than asked for, whatever was trained before, each with the weights the one before left. It records one number per epoch: the mean accuracy,
area and precision over the batches, but *half* the mean loss (defect: the batches are counted twice). The accuracy it reports is the greatest, the epoch the first that reached it; if no
epoch has a positive accuracy it reports 0 and epoch 0. -/
theorem C183_session (glob : CkDir S → List (List Char)) (rs : List (GaeRun S)) (r : GaeRun S) (t : Trainer S)
    (hload : loadCheckpoint ⟨r.init, 0, 0⟩ (Spec.afterRuns glob rs) (glob (Spec.afterRuns glob rs)) = .ok t)
    (hk : r.killed = none) (hf : 0 < r.freq) (hb : ∀ e ≤ r.epochs, Spec.rowsAt r.step t.state e ≠ []) :
    ∃ o, r.exec glob (Spec.afterRuns glob rs) = .ok (o, none) ∧
      let mean := fun f => (List.range (r.epochs + 1)).map (fun e => Spec.batchMean f (Spec.rowsAt r.step t.state e))
      let acc := fun e => Spec.batchMean GaeRow.acc (Spec.rowsAt r.step t.state e)
      o.state = Spec.weightsAt r.step t.state (r.epochs + 1) ∧
      o.losses = (mean GaeRow.loss).map (· / 2) ∧ o.accs = mean GaeRow.acc ∧ o.aucs = mean GaeRow.auc ∧ o.aps = mean GaeRow.ap ∧
      (∀ e ≤ r.epochs, acc e ≤ o.bestAcc) ∧
      ((∃ e ≤ r.epochs, 0 < acc e) → o.bestEpoch ≤ r.epochs ∧ acc o.bestEpoch = o.bestAcc ∧ ∀ e < o.bestEpoch, acc e < o.bestAcc) ∧
      ((∀ e ≤ r.epochs, acc e ≤ 0) → o.bestAcc = 0 ∧ o.bestEpoch = 0) := by
  obtain ⟨ops, hops⟩ := afterRuns_ops glob rs
  rw [hops] at hload ⊢
  have hrun := gaeLoop_run r.freq hf r.step t.state ops (r.epochs + 1) (fun e he => hb e (by omega))
  have hrounds : r.rounds = r.epochs + 1 := by unfold GaeRun.rounds; rw [hk]
  obtain ⟨b1, b2, b3⟩ := gaeBest_spec (fun e => Spec.batchMean GaeRow.acc (Spec.rowsAt r.step t.state e)) (r.epochs + 1)
  have hexec : r.exec glob (ckRun ops) = .ok (gaeLoop r.freq r.step (r.epochs + 1) 0 { state := t.state, dir := ckRun ops }) := by
    unfold GaeRun.exec
    rw [hload, ← hrounds]
    simp only [bind, Except.bind, hk]
  rw [hrun] at hexec
  refine ⟨_, hexec, rfl, ?_, rfl, rfl, rfl, fun e he => b1 e (by omega), ?_, ?_⟩
  · simp [List.map_map, Function.comp_def]
  · rintro ⟨e, he, hp⟩
    rcases b3 with ⟨_, h⟩ | ⟨h1, h2, _, h4⟩
    · exact absurd (h e (by omega)) (not_le.2 hp)
    · exact ⟨by show (gaeBest _ _).2 ≤ _; omega, h2, h4⟩
  · intro hz
    rcases b3 with ⟨h, _⟩ | ⟨h1, h2, h3, _⟩
    · exact ⟨congrArg Prod.fst h, congrArg Prod.snd h⟩
    · exact absurd (le_of_eq_of_le h2.symm (hz _ (Nat.lt_succ_iff.1 h1))) (not_le.2 h3)

/-- **C183, division by zero.** A process that loads and is not killed at once raises ZeroDivisionError in its first epoch, after training it and before saving anything, if there are no
batches or the save interval is 0. -/
theorem C183_zero_division (glob : CkDir S → List (List Char)) (rs : List (GaeRun S)) (r : GaeRun S) (t : Trainer S)
    (hload : loadCheckpoint ⟨r.init, 0, 0⟩ (Spec.afterRuns glob rs) (glob (Spec.afterRuns glob rs)) = .ok t)
    (hk : r.killed = none) (hz : r.freq = 0 ∨ (r.step 0 t.state).2 = []) :
    ∃ o, r.exec glob (Spec.afterRuns glob rs) = .ok (o, some .zeroDiv) ∧ o.state = (r.step 0 t.state).1 ∧ o.dir = Spec.afterRuns glob rs := by
  have hrounds : r.rounds = r.epochs + 1 := by unfold GaeRun.rounds; rw [hk]
  unfold GaeRun.exec
  rw [hload, hrounds]
  simp only [bind, Except.bind, hk, gaeLoop]
  by_cases h1 : (r.step 0 t.state).2 = []
  · exact ⟨_, by rw [if_pos h1], rfl, rfl⟩
  · have h2 : r.freq = 0 := by tauto
    exact ⟨_, by rw [if_neg h1, if_pos h2], rfl, rfl⟩

theorem lastOp_append (a b : List (CkOp S)) (e : Nat) : lastOp (a ++ b) e = (lastOp b e).or (lastOp a e) := by
  unfold lastOp
  rw [List.reverse_append, List.find?_append]

theorem lastOp_gaeOps (freq : Nat) (step : Nat → S → S × List GaeRow) (s : S) (n e : Nat) :
    lastOp (gaeOps freq step s n) e = if e < n ∧ freq ∣ e then some (.save e (Spec.weightsAt step s (e + 1))) else none := by
  induction n with
  | zero => simp [gaeOps, lastOp]
  | succ n ih =>
    have hops : gaeOps freq step s (n + 1) = gaeOps freq step s n ++
        if n % freq = 0 then [.save n (Spec.weightsAt step s (n + 1))] else [] := by
      unfold gaeOps
      rw [List.range_succ, List.filter_append, List.map_append]
      congr 1
      by_cases h : n % freq = 0 <;> simp [h]
    rw [hops, lastOp_append, ih]
    by_cases hn : n % freq = 0
    · rw [if_pos hn]
      by_cases he : n = e
      · subst he
        have : freq ∣ n := Nat.dvd_of_mod_eq_zero hn
        simp [lastOp, CkOp.epoch, this]
      · have h1 : (e < n ∧ freq ∣ e) ↔ (e < n + 1 ∧ freq ∣ e) := by
          constructor
          · rintro ⟨a, b⟩; exact ⟨by omega, b⟩
          · rintro ⟨a, b⟩; exact ⟨by omega, b⟩
        simp only [lastOp, CkOp.epoch, List.reverse_singleton, List.find?_cons, he, decide_false, List.find?_nil, Option.none_or, h1]
    · rw [if_neg hn]
      have h1 : (e < n ∧ freq ∣ e) ↔ (e < n + 1 ∧ freq ∣ e) := by
        constructor
        · rintro ⟨a, b⟩; exact ⟨by omega, b⟩
        · rintro ⟨a, b⟩
          refine ⟨?_, b⟩
          rcases Nat.lt_succ_iff_lt_or_eq.1 a with h | rfl
          · exact h
          · exact absurd (Nat.mod_eq_zero_of_dvd b) hn
      simp only [lastOp, List.reverse_nil, List.find?_nil, Option.none_or, h1]

theorem gaeOps_epoch (freq : Nat) (step : Nat → S → S × List GaeRow) (s : S) (n : Nat) (o : CkOp S) (ho : o ∈ gaeOps freq step s n) :
    o.epoch < n ∧ freq ∣ o.epoch := by
  unfold gaeOps at ho
  obtain ⟨e, he, rfl⟩ := List.mem_map.1 ho
  rw [List.mem_filter, List.mem_range] at he
  exact ⟨he.1, Nat.dvd_of_mod_eq_zero (of_decide_eq_true he.2)⟩

theorem lastOp_epoch (ops : List (CkOp S)) (e : Nat) (o : CkOp S) (h : lastOp ops e = some o) : o.epoch = e := by
  unfold lastOp at h
  simpa using List.find?_some h

theorem lastOp_some (ops : List (CkOp S)) (o : CkOp S) (h : o ∈ ops) : ∃ o', lastOp ops o.epoch = some o' := by
  unfold lastOp
  rcases hf : ops.reverse.find? (fun x => decide (x.epoch = o.epoch)) with _ | x
  · rw [List.find?_eq_none] at hf
    exact absurd (hf o (by simpa using h)) (by simp)
  · exact ⟨x, hf⟩

theorem exists_max_epoch (ops : List (CkOp S)) (h : ops ≠ []) : ∃ o ∈ ops, ∀ x ∈ ops, x.epoch ≤ o.epoch := by
  induction ops with
  | nil => exact absurd rfl h
  | cons a l ih =>
    by_cases hl : l = []
    · subst hl; exact ⟨a, by simp, by simp⟩
    · obtain ⟨o, ho, hm⟩ := ih hl
      by_cases hc : a.epoch ≤ o.epoch
      · exact ⟨o, by simp [ho], by simpa [hc] using hm⟩
      · refine ⟨a, by simp, ?_⟩
        intro x hx
        rcases List.mem_cons.1 hx with rfl | hx
        · exact le_refl _
        · have := hm x hx; omega

theorem finds_iff (glob : CkDir S → List (List Char)) (hg : Spec.Lists glob) (ops : List (CkOp S)) (m : Nat) (s : S) :
    Spec.Finds glob (ckRun ops) m s ↔ (∀ o ∈ ops, o.epoch ≤ m) ∧ lastOp ops m = some (.save m s) := by
  constructor
  · intro h
    by_cases hn : ops = []
    · subst hn
      have hg0 : glob (ckRun ([] : List (CkOp S))) = [] := by
        apply List.eq_nil_iff_forall_not_mem.2
        intro n hn
        have := ((hg _ n).1 hn).1
        rw [ckRun_keys] at this
        simp at this
      have := h ⟨s, 0, 0⟩
      rw [hg0, C66_no_checkpoint] at this
      simp at this
    · obtain ⟨o, ho, hm⟩ := exists_max_epoch ops hn
      obtain ⟨o', hl⟩ := lastOp_some ops o ho
      have he := lastOp_epoch ops _ _ hl
      cases o' with
      | save e' s' =>
        have he' : e' = o.epoch := he
        subst he'
        have := C66_resume ops (glob (ckRun ops)) (fun n => hg _ n) ⟨s, 0, 0⟩ o.epoch s' hm hl
        rw [h] at this
        simp at this
        obtain ⟨h1, h2⟩ := this
        subst h1; subst h2
        exact ⟨hm, hl⟩
      | torn e' =>
        have he' : e' = o.epoch := he
        subst he'
        have := C107_torn_newest ops (glob (ckRun ops)) (fun n => hg _ n) ⟨s, 0, 0⟩ o.epoch hm hl
        rw [h] at this
        simp at this
  · rintro ⟨h1, h2⟩ t
    exact C66_resume ops (glob (ckRun ops)) (fun n => hg _ n) t m s h1 h2

theorem after_clean (glob : CkDir S → List (List Char)) (ops : List (CkOp S)) (r : GaeRun S) (t : Trainer S)
    (hload : loadCheckpoint ⟨r.init, 0, 0⟩ (ckRun ops) (glob (ckRun ops)) = .ok t) (hf : 0 < r.freq)
    (hb : ∀ e < r.rounds, Spec.rowsAt r.step t.state e ≠ []) (hc : Spec.CleanKill r) :
    r.after glob (ckRun ops) = ckRun (ops ++ gaeOps r.freq r.step t.state r.rounds) := by
  have hrun := gaeLoop_run r.freq hf r.step t.state ops r.rounds hb
  unfold GaeRun.after GaeRun.exec
  rw [hload]
  simp only [bind, Except.bind, hrun]
  rcases hk : r.killed with _ | ⟨k, b⟩
  · rfl
  · cases b
    · rfl
    · dsimp only
      rw [if_neg]
      rintro ⟨_, h1, _, h2⟩
      rcases hc k hk with h | h
      · exact h (Nat.dvd_of_mod_eq_zero h2)
      · omega

theorem after_torn (glob : CkDir S → List (List Char)) (ops : List (CkOp S)) (r : GaeRun S) (t : Trainer S)
    (hload : loadCheckpoint ⟨r.init, 0, 0⟩ (ckRun ops) (glob (ckRun ops)) = .ok t) (hf : 0 < r.freq)
    (k : Nat) (hk : r.killed = some (k, true)) (hke : k ≤ r.epochs) (hd : r.freq ∣ k)
    (hb : ∀ e < k, Spec.rowsAt r.step t.state e ≠ []) :
    r.after glob (ckRun ops) = ckRun (ops ++ (gaeOps r.freq r.step t.state k ++ [.torn k])) := by
  have hrounds : r.rounds = k := by unfold GaeRun.rounds; rw [hk]; dsimp only; omega
  have hrun := gaeLoop_run r.freq hf r.step t.state ops k hb
  unfold GaeRun.after GaeRun.exec
  rw [hload]
  simp only [bind, Except.bind, hrounds, hrun, hk]
  rw [if_pos ⟨trivial, hke, by omega, Nat.mod_eq_zero_of_dvd hd⟩, ← List.append_assoc, ckRun_snoc]
  rfl

theorem afterRuns_snoc (glob : CkDir S → List (List Char)) (rs : List (GaeRun S)) (r : GaeRun S) :
    Spec.afterRuns glob (rs ++ [r]) = r.after glob (Spec.afterRuns glob rs) := by
  unfold Spec.afterRuns; rw [List.foldl_append]; rfl

/-- **C184, what a process adds.** After any history, suppose a new process finds the weights `s` of epoch `m`. It counts its epochs from 0 again, so if it stops (killed, or at its end) after
saving some epoch not below `m`, the next process finds the weights of the last epoch it saved; otherwise, however long it trained, the next process finds `s` again: all its work is lost. -/
theorem C184_next (glob : CkDir S → List (List Char)) (hg : Spec.Lists glob) (rs : List (GaeRun S)) (m : Nat) (s : S)
    (hF : Spec.Finds glob (Spec.afterRuns glob rs) m s) (r : GaeRun S) (hf : 0 < r.freq)
    (hb : ∀ e < r.rounds, Spec.rowsAt r.step s e ≠ []) (hc : Spec.CleanKill r) :
    (∀ M, Spec.LastSaved r.freq r.rounds M → m ≤ M →
      Spec.Finds glob (Spec.afterRuns glob (rs ++ [r])) M (Spec.weightsAt r.step s (M + 1))) ∧
    ((∀ e < r.rounds, r.freq ∣ e → e < m) → Spec.Finds glob (Spec.afterRuns glob (rs ++ [r])) m s) := by
  obtain ⟨ops, hops⟩ := afterRuns_ops glob rs
  rw [afterRuns_snoc]
  rw [hops] at hF ⊢
  rw [after_clean glob ops r _ (hF ⟨r.init, 0, 0⟩) hf hb hc]
  obtain ⟨h1, h2⟩ := (finds_iff glob hg ops m s).1 hF
  constructor
  · rintro M ⟨hM1, hM2, hM3⟩ hmM
    rw [finds_iff glob hg]
    refine ⟨?_, ?_⟩
    · intro o ho
      rcases List.mem_append.1 ho with ho | ho
      · exact le_trans (h1 o ho) hmM
      · have := gaeOps_epoch _ _ _ _ _ ho
        exact hM3 _ this.1 this.2
    · rw [lastOp_append, lastOp_gaeOps, if_pos ⟨hM1, hM2⟩]; rfl
  · intro hlow
    rw [finds_iff glob hg]
    refine ⟨?_, ?_⟩
    · intro o ho
      rcases List.mem_append.1 ho with ho | ho
      · exact h1 o ho
      · have := gaeOps_epoch _ _ _ _ _ ho
        exact le_of_lt (hlow _ this.1 this.2)
    · rw [lastOp_append, lastOp_gaeOps, if_neg (fun h => lt_irrefl _ (hlow m h.1 h.2)), h2]; rfl

/-- **C184, killed too late.** A kill that comes after the last epoch changes nothing. -/
theorem C184_late (glob : CkDir S → List (List Char)) (r : GaeRun S) (k : Nat) (torn : Bool) (hk : r.epochs < k) (d : CkDir S) :
    ({ r with killed := some (k, torn) } : GaeRun S).exec glob d = ({ r with killed := none } : GaeRun S).exec glob d := by
  have h1 : ({ r with killed := some (k, torn) } : GaeRun S).rounds = r.epochs + 1 := by
    unfold GaeRun.rounds; dsimp only; omega
  have h2 : ({ r with killed := none } : GaeRun S).rounds = r.epochs + 1 := rfl
  unfold GaeRun.exec
  rw [h1, h2]
  dsimp only
  cases loadCheckpoint ⟨r.init, 0, 0⟩ d (glob d) with
  | error e => rfl
  | ok t =>
    simp only [bind, Except.bind]
    cases torn with
    | false => rfl
    | true =>
      dsimp only
      rw [if_neg]
      rintro ⟨_, h, _⟩
      omega

/-- **C184, the first process.** Where nothing was saved yet, a process that completes at least one epoch leaves the weights of the last epoch it saved. -/
theorem C184_first (glob : CkDir S → List (List Char)) (hg : Spec.Lists glob) (r : GaeRun S) (hf : 0 < r.freq)
    (hb : ∀ e < r.rounds, Spec.rowsAt r.step r.init e ≠ []) (hc : Spec.CleanKill r) (M : Nat) (hM : Spec.LastSaved r.freq r.rounds M) :
    Spec.Finds glob (Spec.afterRuns glob [r]) M (Spec.weightsAt r.step r.init (M + 1)) := by
  have hg0 : glob (ckRun ([] : List (CkOp S))) = [] := by
    apply List.eq_nil_iff_forall_not_mem.2
    intro n hn
    have := ((hg _ n).1 hn).1
    rw [ckRun_keys] at this
    simp at this
  have hload : loadCheckpoint ⟨r.init, 0, 0⟩ (ckRun ([] : List (CkOp S))) (glob (ckRun [])) = .ok ⟨r.init, 0, 0⟩ := by
    rw [hg0]; rfl
  have : Spec.afterRuns glob [r] = r.after glob (ckRun []) := rfl
  rw [this, after_clean glob [] r _ hload hf hb hc, finds_iff glob hg]
  obtain ⟨hM1, hM2, hM3⟩ := hM
  refine ⟨?_, ?_⟩
  · intro o ho
    have := gaeOps_epoch _ _ _ _ _ (by simpa using ho)
    exact hM3 _ this.1 this.2
  · rw [lastOp_append, lastOp_gaeOps, if_pos ⟨hM1, hM2⟩]; rfl

/-- **C184, killed while saving.** A process killed inside the save of epoch `k`: below the newest epoch `m` this costs only its own work; from `m` on no process can load any more, and none
changes the directory. -/
theorem C184_killed_saving (glob : CkDir S → List (List Char)) (hg : Spec.Lists glob) (rs : List (GaeRun S)) (m : Nat) (s : S)
    (hF : Spec.Finds glob (Spec.afterRuns glob rs) m s) (r : GaeRun S) (hf : 0 < r.freq)
    (k : Nat) (hk : r.killed = some (k, true)) (hke : k ≤ r.epochs) (hd : r.freq ∣ k) (hb : ∀ e < k, Spec.rowsAt r.step s e ≠ []) :
    (k < m → Spec.Finds glob (Spec.afterRuns glob (rs ++ [r])) m s) ∧
    (m ≤ k → (∀ t, loadCheckpoint t (Spec.afterRuns glob (rs ++ [r])) (glob (Spec.afterRuns glob (rs ++ [r]))) = .error .runtime) ∧
      ∀ later, Spec.afterRuns glob (rs ++ [r] ++ later) = Spec.afterRuns glob (rs ++ [r])) := by
  obtain ⟨ops, hops⟩ := afterRuns_ops glob rs
  rw [afterRuns_snoc]
  have hafter := after_torn glob ops r _ (by rw [hops] at hF; exact hF ⟨r.init, 0, 0⟩) hf k hk hke hd hb
  rw [← hops] at hafter
  obtain ⟨h1, h2⟩ := (finds_iff glob hg ops m s).1 (by rw [← hops]; exact hF)
  rw [hafter]
  constructor
  · intro hkm
    rw [finds_iff glob hg]
    refine ⟨?_, ?_⟩
    · intro o ho
      rcases List.mem_append.1 ho with ho | ho
      · exact h1 o ho
      · rcases List.mem_append.1 ho with ho | ho
        · have := gaeOps_epoch _ _ _ _ _ ho; omega
        · rw [List.mem_singleton] at ho; subst ho; exact le_of_lt hkm
    · rw [lastOp_append, lastOp_append, lastOp_gaeOps, if_neg (fun h => by omega)]
      have : lastOp [CkOp.torn (S := S) k] m = none := by
        have hne : ¬ k = m := by omega
        simp only [lastOp, CkOp.epoch, List.reverse_singleton, List.find?_cons, hne, decide_false, List.find?_nil]
      rw [this, h2]; rfl
  · intro hmk
    have herr : ∀ t, loadCheckpoint t (ckRun (ops ++ (gaeOps r.freq r.step s k ++ [.torn k])))
        (glob (ckRun (ops ++ (gaeOps r.freq r.step s k ++ [.torn k])))) = .error .runtime := by
      intro t
      refine C107_torn_newest _ _ (fun n => hg _ n) t k ?_ ?_
      · intro o ho
        rcases List.mem_append.1 ho with ho | ho
        · exact le_trans (h1 o ho) hmk
        · rcases List.mem_append.1 ho with ho | ho
          · have := gaeOps_epoch _ _ _ _ _ ho; omega
          · rw [List.mem_singleton] at ho; subst ho; exact le_refl _
      · rw [lastOp_append, lastOp_append]
        have : lastOp [CkOp.torn (S := S) k] k = some (.torn k) := by simp [lastOp, CkOp.epoch]
        rw [this]; rfl
    refine ⟨herr, ?_⟩
    intro later
    induction later using List.reverseRecOn with
    | nil => rw [List.append_nil, afterRuns_snoc, hafter]
    | append_singleton l r' ih =>
      rw [← List.append_assoc, afterRuns_snoc, ih]
      unfold GaeRun.after GaeRun.exec
      rw [herr]
      rfl

/-- **C184, processes that all run to their end.** With the same number of epochs and save interval, `M` being the last epoch saved: the next process finds the weights that `M + 1` epochs of each
process made, one after the other; the `epochs - M` epochs after the last save are lost every time. -/
theorem C184_repeated (glob : CkDir S → List (List Char)) (hg : Spec.Lists glob) (r0 : GaeRun S) (rs : List (GaeRun S)) (epochs freq M : Nat)
    (hf : 0 < freq) (hM : Spec.LastSaved freq (epochs + 1) M)
    (hr : ∀ r ∈ r0 :: rs, r.killed = none ∧ r.epochs = epochs ∧ r.freq = freq ∧ ∀ s e, (r.step e s).2 ≠ []) :
    Spec.Finds glob (Spec.afterRuns glob (r0 :: rs)) M ((r0 :: rs).foldl (fun s r => Spec.weightsAt r.step s (M + 1)) r0.init) := by
  induction rs using List.reverseRecOn with
  | nil =>
    obtain ⟨h1, h2, h3, h4⟩ := hr r0 (by simp)
    refine C184_first glob hg r0 (by omega) (fun e _ => h4 _ e) (fun k hk => by rw [h1] at hk; simp at hk) M ?_
    rw [h3, show r0.rounds = epochs + 1 by unfold GaeRun.rounds; rw [h1, h2]]
    exact hM
  | append_singleton l r ih =>
    have ih' := ih (fun x hx => hr x (by
      rcases List.mem_cons.1 hx with rfl | hx
      · simp
      · simp [hx]))
    obtain ⟨h1, h2, h3, h4⟩ := hr r (by simp)
    have := (C184_next glob hg (r0 :: l) M _ ih' r (by omega) (fun e _ => h4 _ e) (fun k hk => by rw [h1] at hk; simp at hk)).1 M
      (by rw [h3, show r.rounds = epochs + 1 by unfold GaeRun.rounds; rw [h1, h2]]; exact hM) (le_refl _)
    rw [← List.cons_append, List.foldl_append]
    exact this

end

/-- A process whose weights count the epochs they were trained. -/
def countingRun (epochs freq : Nat) (killed : Option (Nat × Bool)) : GaeRun Nat :=
  ⟨0, epochs, freq, fun _ s => (s + 1, [⟨1, 1 / 2, 1 / 2, 1 / 2⟩, ⟨3, 1, 1, 1⟩]), killed⟩

/-- All the files, in the order of the directory. -/
def plainGlob (d : CkDir Nat) : List (List Char) := (dkeys d).filter globPt

theorem plainGlob_lists : Spec.Lists plainGlob := by
  intro d n
  simp [plainGlob]

/-- **C184, an interrupted second training is lost (defect).** Ten epochs asked for, a checkpoint every five: the first process leaves eleven epochs of training. A second one, killed after ten more
epochs, leaves nothing, so a third begins at eleven epochs again; run to its end, it leaves 22. A save cut short at epoch 10 ends it all. -/
theorem C184_examples :
    Spec.Finds plainGlob (Spec.afterRuns plainGlob [countingRun 10 5 none]) 10 11 ∧
    Spec.Finds plainGlob (Spec.afterRuns plainGlob [countingRun 10 5 none, countingRun 10 5 (some (10, false))]) 10 11 ∧
    Spec.Finds plainGlob (Spec.afterRuns plainGlob [countingRun 10 5 none, countingRun 10 5 (some (10, false)), countingRun 10 5 none]) 10 22 ∧
    ∀ t, loadCheckpoint t (Spec.afterRuns plainGlob [countingRun 10 5 none, countingRun 10 5 (some (10, true))])
      (plainGlob (Spec.afterRuns plainGlob [countingRun 10 5 none, countingRun 10 5 (some (10, true))])) = .error .runtime := by
  have hw : ∀ k n s, Spec.weightsAt (countingRun 10 5 k).step s n = s + n := by
    intro k n s
    induction n with
    | zero => rfl
    | succ n ih => rw [Spec.weightsAt, ih]; rfl
  have hL : Spec.LastSaved 5 11 10 := ⟨by omega, by omega, by intro e he hd; omega⟩
  have h1 : Spec.Finds plainGlob (Spec.afterRuns plainGlob [countingRun 10 5 none]) 10 11 := by
    have := C184_first plainGlob plainGlob_lists (countingRun 10 5 none) (by decide) (fun e _ => by simp [Spec.rowsAt, countingRun])
      (fun k hk => by simp [countingRun] at hk) 10 hL
    rw [hw] at this; exact this
  have h2 : Spec.Finds plainGlob (Spec.afterRuns plainGlob ([countingRun 10 5 none] ++ [countingRun 10 5 (some (10, false))])) 10 11 :=
    (C184_next plainGlob plainGlob_lists _ 10 11 h1 (countingRun 10 5 (some (10, false))) (by decide) (fun e _ => by simp [Spec.rowsAt, countingRun])
      (fun k hk => by simp [countingRun] at hk)).2 (fun e he hd => by
        have : (countingRun 10 5 (some (10, false))).rounds = 10 := rfl
        omega)
  refine ⟨h1, h2, ?_, ?_⟩
  · have := (C184_next plainGlob plainGlob_lists _ 10 11 h2 (countingRun 10 5 none) (by decide) (fun e _ => by simp [Spec.rowsAt, countingRun])
      (fun k hk => by simp [countingRun] at hk)).1 10 hL (le_refl _)
    rw [hw] at this; exact this
  · exact ((C184_killed_saving plainGlob plainGlob_lists [countingRun 10 5 none] 10 11 h1 (countingRun 10 5 (some (10, true))) (by decide) 10 rfl (by decide) (by decide)
      (fun e _ => by simp [Spec.rowsAt, countingRun])).2 (le_refl _)).1

/-- The hypotheses of `C183_session` hold of a first process; the numbers it records. -/
example : ∃ o, (countingRun 2 5 none).exec plainGlob (Spec.afterRuns plainGlob []) = .ok (o, none) ∧ o.state = 3 ∧ o.losses = [1, 1, 1] ∧
    o.accs = [3/4, 3/4, 3/4] ∧ o.bestEpoch = 0 ∧ o.bestAcc = 3/4 :=
  ⟨_, rfl, by decide +kernel, by decide +kernel, by decide +kernel, by decide +kernel, by decide +kernel⟩

end NGC
