import Verif.Shared
import Mathlib.Data.List.Induction

/-!
Checkpoints (C66, C107) and metrics files (C108).
-/

namespace NGC

/-! ### Names -/

theorem stem_ckName (e : Nat) : stem (ckName e) = "checkpoint_".toList ++ decStr e := by
  unfold stem ckName
  rw [if_pos (by simp)]
  rw [List.reverse_append]
  have : (".pt".toList).reverse = ['t', 'p', '.'] := rfl
  rw [this]
  simp

theorem lastSeg_append (a b : List Char) (hb : '_' ∉ b) : lastSeg (a ++ '_' :: b) = b := by
  unfold lastSeg
  rw [List.reverse_append, List.reverse_cons, List.append_assoc]
  rw [List.takeWhile_append_of_pos]
  · simp
  · intro c hc
    rw [List.mem_reverse] at hc
    simp only [decide_eq_true_eq]
    intro e; subst e; exact hb hc

theorem ckKey_ckName (e : Nat) : ckKey (ckName e) = .ok e := by
  unfold ckKey
  rw [stem_ckName]
  have : "checkpoint_".toList ++ decStr e = "checkpoint".toList ++ '_' :: decStr e := rfl
  rw [this, lastSeg_append _ _ (underscore_notMem_decStr e), decVal_decStr]

theorem ckName_inj {a b : Nat} (h : ckName a = ckName b) : a = b := by
  have := ckKey_ckName a
  rw [h, ckKey_ckName] at this
  exact (Except.ok.inj this).symm

theorem globPt_ckName (e : Nat) : globPt (ckName e) = true := by
  unfold globPt ckName
  rw [Bool.and_eq_true]
  constructor
  · rw [List.append_assoc]; rfl
  · rw [List.isSuffixOf_iff_suffix]
    exact ⟨_, rfl⟩

/-! ### Histories of checkpoints -/

/-- What happened to a checkpoint directory: completed saves and saves cut short. -/
inductive CkOp (S : Type) where
  | save (epoch : Nat) (state : S)
  | torn (epoch : Nat)

/-- The epoch of an operation. -/
def CkOp.epoch {S : Type} : CkOp S → Nat
  | .save e _ => e
  | .torn e => e

/-- The directory after a history, oldest first. -/
def ckRun {S : Type} (ops : List (CkOp S)) : CkDir S :=
  ops.foldl (fun d o => match o with | .save e s => saveCheckpoint d e s | .torn e => saveTorn d e) []

/-- Specification: the last operation on an epoch. -/
def lastOp {S : Type} (ops : List (CkOp S)) (e : Nat) : Option (CkOp S) :=
  ops.reverse.find? (fun o => o.epoch = e)

/-- Content an operation leaves. -/
def CkOp.content {S : Type} : CkOp S → CkFile S
  | .save e s => .full e s
  | .torn _ => .torn

theorem ckRun_snoc {S : Type} (ops : List (CkOp S)) (o : CkOp S) :
    ckRun (ops ++ [o]) = dset (ckRun ops) (ckName o.epoch) o.content := by
  unfold ckRun
  rw [List.foldl_append]
  cases o <;> rfl

theorem ckRun_get {S : Type} (ops : List (CkOp S)) (e : Nat) :
    dget (ckRun ops) (ckName e) = (lastOp ops e).map CkOp.content := by
  induction ops using List.reverseRecOn with
  | nil => rfl
  | append_singleton ops o ih =>
    rw [ckRun_snoc, dget_dset, ih]
    unfold lastOp
    rw [List.reverse_append, List.reverse_singleton, List.singleton_append, List.find?_cons]
    by_cases h : o.epoch = e
    · subst h; simp
    · have : ckName o.epoch ≠ ckName e := fun x => h (ckName_inj x)
      simp [h, this]

theorem ckRun_keys {S : Type} (ops : List (CkOp S)) (n : List Char) :
    n ∈ dkeys (ckRun ops) ↔ ∃ o ∈ ops, n = ckName o.epoch := by
  induction ops using List.reverseRecOn with
  | nil => simp [ckRun, dkeys]
  | append_singleton ops o ih =>
    rw [ckRun_snoc, mem_dkeys_dset, ih]
    constructor
    · rintro (h | ⟨o', ho, h⟩)
      · exact ⟨o, by simp, h⟩
      · exact ⟨o', by simp [ho], h⟩
    · rintro ⟨o', ho, h⟩
      rw [List.mem_append, List.mem_singleton] at ho
      rcases ho with ho | rfl
      · exact Or.inr ⟨o', ho, h⟩
      · exact Or.inl h

/-- Keys of a listing made of checkpoint names. -/
theorem ckKeys_names (es : List Nat) :
    ckKeys (es.map ckName) = .ok (es.map (fun e => (ckName e, e))) := by
  induction es with
  | nil => rfl
  | cons e es ih =>
    rw [List.map_cons, ckKeys, ckKey_ckName]
    simp only [ih, bind, Except.bind, List.map_cons]

theorem sorted_getLast {α : Type} (key : α → ℚ) (l : List α)
    (h : l.Pairwise (fun a b => key a ≤ key b)) (x : α) (hx : l.getLast? = some x) :
    ∀ y ∈ l, key y ≤ key x := by
  induction l using List.reverseRecOn with
  | nil => simp
  | append_singleton l z _ =>
    rw [List.getLast?_concat] at hx
    cases hx
    rw [List.pairwise_append] at h
    intro y hy
    rw [List.mem_append, List.mem_singleton] at hy
    rcases hy with hy | rfl
    · exact h.2.2 y hy x (by simp)
    · exact le_refl _

/-- Loading from a listing of checkpoint names reads the file of the largest epoch. -/
theorem load_names {S : Type} (t : Trainer S) (d : CkDir S) (es : List Nat) (m : Nat) (hm : m ∈ es)
    (hmax : ∀ e ∈ es, e ≤ m) :
    loadCheckpoint t d (es.map ckName) = readCk d (ckName m) := by
  unfold loadCheckpoint
  have hne : es.map ckName ≠ [] := by
    intro h
    rw [List.map_eq_nil_iff] at h
    rw [h] at hm
    simp at hm
  rw [if_neg hne, ckKeys_names]
  simp only [bind, Except.bind]
  have hp := sortByKey_perm (fun p : List Char × Nat => (p.2 : ℚ)) (es.map (fun e => (ckName e, e)))
  have hs := sortByKey_sorted (fun p : List Char × Nat => (p.2 : ℚ))
    (es.map (fun e => (ckName e, e)))
  generalize sortByKey (fun p : List Char × Nat => (p.2 : ℚ)) (es.map (fun e => (ckName e, e))) = L
    at hp hs
  have hmL : (ckName m, m) ∈ L := hp.mem_iff.2 (List.mem_map.2 ⟨m, hm, rfl⟩)
  cases hl : L.getLast? with
  | none =>
    rw [List.getLast?_eq_none_iff] at hl
    rw [hl] at hmL
    simp at hmL
  | some p =>
    have hpL : p ∈ L := List.mem_of_getLast? hl
    have hpe := hp.mem_iff.1 hpL
    rw [List.mem_map] at hpe
    obtain ⟨e, he, rfl⟩ := hpe
    have h1 := sorted_getLast _ L hs _ hl _ hmL
    have h2 := hmax e he
    simp only [Nat.cast_le] at h1
    have : e = m := by omega
    subst this
    rfl

/-- A listing of exactly the files of a directory written by checkpoints only, in any order. -/
theorem listing_names {S : Type} (ops : List (CkOp S)) (listing : List (List Char))
    (hl : ∀ n, n ∈ listing ↔ n ∈ dkeys (ckRun ops) ∧ globPt n = true) :
    ∃ es : List Nat, listing = es.map ckName ∧ ∀ e, e ∈ es ↔ ∃ o ∈ ops, o.epoch = e := by
  have ex : ∀ l : List (List Char), (∀ n ∈ l, ∃ o ∈ ops, n = ckName o.epoch) →
      ∃ es : List Nat, l = es.map ckName := by
    intro l
    induction l with
    | nil => intro _; exact ⟨[], rfl⟩
    | cons n l ih =>
      intro h
      obtain ⟨es, e⟩ := ih (fun x hx => h x (List.mem_cons_of_mem _ hx))
      obtain ⟨o, _, ho⟩ := h n List.mem_cons_self
      exact ⟨o.epoch :: es, by rw [List.map_cons, ← ho, ← e]⟩
  obtain ⟨es, e⟩ := ex listing (fun n hn => (ckRun_keys ops n).1 ((hl n).1 hn).1)
  refine ⟨es, e, ?_⟩
  intro x
  constructor
  · intro hx
    have : ckName x ∈ listing := by rw [e]; exact List.mem_map.2 ⟨x, hx, rfl⟩
    obtain ⟨o, ho, h⟩ := (ckRun_keys ops _).1 ((hl _).1 this).1
    exact ⟨o, ho, (ckName_inj h).symm⟩
  · rintro ⟨o, ho, rfl⟩
    have : ckName o.epoch ∈ listing :=
      (hl _).2 ⟨(ckRun_keys ops _).2 ⟨o, ho, rfl⟩, globPt_ckName _⟩
    rw [e, List.mem_map] at this
    obtain ⟨y, hy, hxy⟩ := this
    rwa [ckName_inj hxy] at hy

/-- C66. After any history of saves (completed or cut short), in whatever order the directory is
listed: if the last save of the largest epoch was completed, loading restores exactly the state saved
then and continues at the next epoch. -/
theorem C66_resume {S : Type} (ops : List (CkOp S)) (listing : List (List Char))
    (hl : ∀ n, n ∈ listing ↔ n ∈ dkeys (ckRun ops) ∧ globPt n = true)
    (t : Trainer S) (m : Nat) (s : S)
    (hmax : ∀ o ∈ ops, o.epoch ≤ m) (hm : lastOp ops m = some (.save m s)) :
    loadCheckpoint t (ckRun ops) listing = .ok ⟨s, m + 1, m + 1⟩ := by
  obtain ⟨es, rfl, hes⟩ := listing_names ops listing hl
  have mem : m ∈ es := by
    rw [hes]
    have := List.mem_of_find?_eq_some hm
    rw [List.mem_reverse] at this
    exact ⟨_, this, rfl⟩
  rw [load_names t _ es m mem (by
    intro e he
    obtain ⟨o, ho, rfl⟩ := (hes e).1 he
    exact hmax o ho)]
  unfold readCk
  rw [ckRun_get, hm]
  rfl

/-- C66. With no checkpoint there is nothing to load: the trainer is left as it is. -/
theorem C66_no_checkpoint {S : Type} (t : Trainer S) (d : CkDir S) : loadCheckpoint t d [] = .ok t := rfl

/-- C107. A save of the newest epoch that was cut short makes loading raise, whatever older
checkpoints are there: there is no fall-back. -/
theorem C107_torn_newest {S : Type} (ops : List (CkOp S)) (listing : List (List Char))
    (hl : ∀ n, n ∈ listing ↔ n ∈ dkeys (ckRun ops) ∧ globPt n = true)
    (t : Trainer S) (m : Nat)
    (hmax : ∀ o ∈ ops, o.epoch ≤ m) (hm : lastOp ops m = some (.torn m)) :
    loadCheckpoint t (ckRun ops) listing = .error .runtime := by
  obtain ⟨es, rfl, hes⟩ := listing_names ops listing hl
  have mem : m ∈ es := by
    rw [hes]
    have := List.mem_of_find?_eq_some hm
    rw [List.mem_reverse] at this
    exact ⟨_, this, rfl⟩
  rw [load_names t _ es m mem (by
    intro e he
    obtain ⟨o, ho, rfl⟩ := (hes e).1 he
    exact hmax o ho)]
  unfold readCk
  rw [ckRun_get, hm]
  rfl

/-- C107. A file in the directory whose name does not end in a number makes loading raise ValueError,
whatever checkpoints are there. -/
theorem C107_foreign_file {S : Type} (t : Trainer S) (d : CkDir S) (listing : List (List Char))
    (n : List Char) (hn : n ∈ listing) (hk : ckKey n = .error .value) :
    loadCheckpoint t d listing = .error .value := by
  have kv : ∀ x, ckKey x = .error .value ∨ ∃ k, ckKey x = .ok k := by
    intro x; unfold ckKey; cases decVal (lastSeg (stem x)) <;> simp
  have hbad : ∀ l : List (List Char), n ∈ l → ckKeys l = .error .value := by
    intro l
    induction l with
    | nil => simp
    | cons x l ih =>
      intro h
      rw [ckKeys]
      rcases kv x with e | ⟨k, e⟩
      · simp only [e, bind, Except.bind]
      · have hnl : n ∈ l := by
          rcases List.mem_cons.1 h with rfl | h
          · rw [hk] at e; simp at e
          · exact h
        simp only [e, bind, Except.bind, ih hnl]
  unfold loadCheckpoint
  split
  · rename_i h; rw [h] at hn; simp at hn
  · simp only [hbad listing hn, bind, Except.bind]

/-- Epochs 20, 100 and 40 were saved, listed in another order: training goes on at 101. -/
example : loadCheckpoint (⟨0, 0, 0⟩ : Trainer Nat)
    (ckRun [.save 20 7, .save 100 8, .save 40 9])
    [ckName 40, ckName 20, ckName 100] = .ok ⟨8, 101, 101⟩ := by
  have := C66_resume (S := Nat) [.save 20 7, .save 100 8, .save 40 9]
    [ckName 40, ckName 20, ckName 100] (by
      intro n
      rw [ckRun_keys]
      constructor
      · intro h
        simp only [List.mem_cons, List.not_mem_nil, or_false] at h
        rcases h with rfl | rfl | rfl
        · exact ⟨⟨.save 40 9, by simp, rfl⟩, globPt_ckName _⟩
        · exact ⟨⟨.save 20 7, by simp, rfl⟩, globPt_ckName _⟩
        · exact ⟨⟨.save 100 8, by simp, rfl⟩, globPt_ckName _⟩
      · rintro ⟨⟨o, ho, rfl⟩, _⟩
        simp only [List.mem_cons, List.not_mem_nil, or_false] at ho
        rcases ho with rfl | rfl | rfl <;> simp [CkOp.epoch]) ⟨0, 0, 0⟩ 100 8 (by
      intro o ho
      simp only [List.mem_cons, List.not_mem_nil, or_false] at ho
      rcases ho with rfl | rfl | rfl <;> simp [CkOp.epoch]) (by
      simp [lastOp, CkOp.epoch, List.find?])
  exact this

/-! ### Metrics -/

/-- A text that begins with a nonempty `d` and continues with `m` is never `m` followed by a character
that `d` does not contain. -/
theorem no_shift (d m x y : List Char) (c : Char) (hd : d ≠ []) (hc : c ∉ d) :
    d ++ (m ++ x) ≠ m ++ c :: y := by
  induction h : m.length using Nat.strong_induction_on generalizing m with
  | _ n ih =>
    intro e
    by_cases hlt : m.length < d.length
    · have e1 := congrArg (fun l => l[m.length]?) e
      rw [List.getElem?_append_left hlt, List.getElem?_append_right (le_refl _)] at e1
      simp only [Nat.sub_self, List.getElem?_cons_zero] at e1
      exact hc (List.mem_of_getElem? e1)
    · have hp : d <+: m := by
        have h1 : d <+: m ++ c :: y := ⟨m ++ x, e⟩
        exact List.prefix_of_prefix_length_le h1 (List.prefix_append m _) (by omega)
      obtain ⟨m', rfl⟩ := hp
      have hdl : 0 < d.length := List.length_pos_iff.2 hd
      rw [List.length_append] at h
      refine ih m'.length (by omega) m' rfl ?_
      rw [List.append_assoc, List.append_assoc] at e
      exact List.append_cancel_left e

theorem joinPath_prefix (dir name : List Char) (h : dir ≠ []) :
    ∃ d, d ≠ [] ∧ joinPath dir name = d ++ name ∧ ∀ c ∈ d, c ∈ dir ∨ c = '/' := by
  unfold joinPath
  rw [if_neg h]
  split
  · exact ⟨dir, h, rfl, fun c hc => Or.inl hc⟩
  · refine ⟨dir ++ ['/'], by simp, by simp, ?_⟩
    intro c hc
    rw [List.mem_append, List.mem_singleton] at hc
    exact hc

/-- C108 (refutation of "restores the recorded metrics"). With the metrics directory the constructor
sets (or any other nonempty one without an underscore), loading never restores any metric, for any
model type and whatever files there are: the bare name is looked up among paths that include the
directory. -/
theorem C108_metrics_never_restored (dir modelType : List Char) (hd : dir ≠ []) (hu : '_' ∉ dir)
    (paths : List (List Char)) (hp : ∀ p ∈ paths, GlobPath dir modelType p)
    (m : Metrics) (files : List (MetricsKind × MetricsDict)) :
    loadMetrics m paths modelType files = .ok m := by
  have key : ∀ k : MetricsKind, modelType ++ k.suffix ∉ paths := by
    intro k hk
    obtain ⟨w, e⟩ := hp _ hk
    obtain ⟨d, hdn, he, hdc⟩ := joinPath_prefix dir (modelType ++ w ++ ".pt".toList) hd
    rw [he] at e
    have hsuf : ∃ y, k.suffix = '_' :: y := by cases k <;> exact ⟨_, rfl⟩
    obtain ⟨y, hy⟩ := hsuf
    rw [hy] at e
    refine no_shift d modelType (w ++ ".pt".toList) y '_' hdn ?_ (by rw [e]; simp)
    intro hc
    rcases hdc _ hc with h | h
    · exact hu h
    · exact absurd h (by decide)
  have r : ∀ (m : Metrics) (k : MetricsKind) (f : Metrics → MetricsDict → Py Metrics),
      restoreIf m paths modelType files k f = .ok m := by
    intro m k f
    unfold restoreIf
    rw [if_neg (key k)]
  unfold loadMetrics
  simp only [r, bind, Except.bind]

/-- The directory set by the constructor (ngc_shared.py 104) qualifies. -/
example : "metric".toList ≠ [] ∧ '_' ∉ "metric".toList ∧
    GlobPath "metric".toList "gat".toList "metric/gat_train_metrics.pt".toList :=
  ⟨by decide, by decide, ⟨"_train_metrics".toList, by decide +kernel⟩⟩

/-- The steps of a training history that touch metrics. -/
inductive MetricsOp where
  | train (loss f1 acc recall precision : Option ℚ)
  | val (acc f1 precision recall : ℚ)
  | test (acc f1 precision recall auc ap : Option ℚ)
  | epoch (e : Nat)
  | rate (r : Nat)

/-- One step. -/
def MetricsOp.run (s : MetricsState) : MetricsOp → MetricsState
  | .train a b c d e => s.updateTrain a b c d e
  | .val a b c d => s.updateVal a b c d
  | .test a b c d e f => s.updateTest a b c d e f
  | .epoch e => { s with epoch := e }
  | .rate r => { s with rate := r }

/-- The same history with every training metric left out. -/
def MetricsOp.noTrain : MetricsOp → MetricsOp
  | .train _ _ _ _ _ => .train none none none none none
  | o => o

/-- C108. No training metric ever reaches a file: with all training losses and scores replaced by
nothing, every file of the same history has the same content. -/
theorem C108_train_metrics_never_saved (ops : List MetricsOp) (s : MetricsState) :
    (ops.foldl MetricsOp.run s).files = ((ops.map MetricsOp.noTrain).foldl MetricsOp.run s).files := by
  -- the two states agree on everything but the training lists
  have main : ∀ (ops : List MetricsOp) (s s' : MetricsState),
      s.files = s'.files → s.epoch = s'.epoch → s.rate = s'.rate →
      s.m.valAccs = s'.m.valAccs → s.m.valF1s = s'.m.valF1s →
      s.m.valPrecisions = s'.m.valPrecisions → s.m.valRecalls = s'.m.valRecalls →
      s.m.testAucs = s'.m.testAucs → s.m.testAps = s'.m.testAps →
      (ops.foldl MetricsOp.run s).files =
        ((ops.map MetricsOp.noTrain).foldl MetricsOp.run s').files := by
    intro ops
    induction ops with
    | nil => intro s s' h _ _ _ _ _ _ _ _; exact h
    | cons o ops ih =>
      intro s s' h1 h2 h3 h4 h5 h6 h7 h8 h9
      have hdue : s.due = s'.due := by unfold MetricsState.due; rw [h2, h3]
      rw [List.foldl_cons, List.map_cons, List.foldl_cons]
      apply ih
      all_goals cases o <;>
        simp only [MetricsOp.run, MetricsOp.noTrain, MetricsState.updateTrain,
          MetricsState.updateVal, MetricsState.updateTest, h1, h2, h3, h4, h5, h6, h7, h8, h9, hdue]
  exact main ops s s rfl rfl rfl rfl rfl rfl rfl rfl rfl

/-- C108. The file written under the training name cannot be read back: it lacks the training lists, so
restoring from it raises KeyError, after any history. -/
theorem C108_train_file_unreadable (ops : List MetricsOp) (rate : Nat) (m : Metrics) (d : MetricsDict)
    (h : dget (ops.foldl MetricsOp.run ⟨{}, [], 0, rate⟩).files .train = some d) :
    Metrics.restoreTrain m d = .error .key := by
  have main : ∀ (ops : List MetricsOp) (s : MetricsState),
      (∀ d, dget s.files .train = some d → dget d "train_losses" = none) →
      ∀ d, dget (ops.foldl MetricsOp.run s).files .train = some d →
        dget d "train_losses" = none := by
    intro ops
    induction ops with
    | nil => intro s h; exact h
    | cons o ops ih =>
      intro s h
      rw [List.foldl_cons]
      apply ih
      intro d hd
      cases o with
      | train a b c e f =>
        simp only [MetricsOp.run, MetricsState.updateTrain] at hd
        split at hd
        · rw [dget_dset_self] at hd
          cases hd
          simp [dget]
        · exact h d hd
      | val a b c e =>
        simp only [MetricsOp.run, MetricsState.updateVal] at hd
        split at hd
        · rw [dget_dset_ne _ _ (by decide)] at hd; exact h d hd
        · exact h d hd
      | test a b c e f g =>
        simp only [MetricsOp.run, MetricsState.updateTest] at hd
        split at hd
        · rw [dget_dset_ne _ _ (by decide)] at hd; exact h d hd
        · exact h d hd
      | epoch e => exact h d hd
      | rate r => exact h d hd
  have := main ops _ (by intro d hd; simp [dget] at hd) d h
  unfold Metrics.restoreTrain MetricsDict.get
  rw [this]
  rfl

/-- C108. The validation file, when it exists, can be read back and holds the validation lists as they
were at the last validation step of an epoch that is a multiple of the rate. -/
theorem C108_validation_roundtrip (s : MetricsState) (acc f1 precision recall : ℚ)
    (h : s.due = true) (m : Metrics) :
    ∃ d, dget (s.updateVal acc f1 precision recall).files .validation = some d ∧
      Metrics.restoreVal m d = .ok { m with
        valAccs := s.m.valAccs ++ [acc], valF1s := s.m.valF1s ++ [f1],
        valPrecisions := s.m.valPrecisions ++ [precision],
        valRecalls := s.m.valRecalls ++ [recall] } := by
  refine ⟨[("val_accs", s.m.valAccs ++ [acc]), ("val_f1s", s.m.valF1s ++ [f1]),
    ("val_precisions", s.m.valPrecisions ++ [precision]),
    ("val_recalls", s.m.valRecalls ++ [recall])], ?_, ?_⟩
  · simp only [MetricsState.updateVal, h, if_true]
    rw [dget_dset_self]
  · unfold Metrics.restoreVal MetricsDict.get
    simp [dget, bind, Except.bind]

/-- What the three files hold after any history: the files under the training and the test name lack the F1 list the
loader asks for, the validation file has its four lists. -/
theorem metricsFiles_shape (rate : Nat) : ∀ (ops : List MetricsOp) (s : MetricsState), s = ⟨{}, [], 0, rate⟩ →
    ∀ k d, dget (ops.foldl MetricsOp.run s).files k = some d → match k with
      | .train => dget d "train_losses" = none
      | .validation => ∃ a b c e, d = [("val_accs", a), ("val_f1s", b), ("val_precisions", c), ("val_recalls", e)]
      | .test => (∃ a, dget d "test_accs" = some a) ∧ dget d "test_f1s" = none := by
  let P : MetricsState → Prop := fun s => ∀ k d, dget s.files k = some d → match k with
      | .train => dget d "train_losses" = none
      | .validation => ∃ a b c e, d = [("val_accs", a), ("val_f1s", b), ("val_precisions", c), ("val_recalls", e)]
      | .test => (∃ a, dget d "test_accs" = some a) ∧ dget d "test_f1s" = none
  have main : ∀ (ops : List MetricsOp) (s : MetricsState), P s → P (ops.foldl MetricsOp.run s) := by
    intro ops
    induction ops with
    | nil => intro s h; exact h
    | cons o ops ih =>
      intro s h
      rw [List.foldl_cons]
      apply ih
      intro k d hd
      cases o with
      | train a b c e f =>
        simp only [MetricsOp.run, MetricsState.updateTrain] at hd
        split at hd
        · by_cases hk : k = .train
          · subst hk
            rw [dget_dset_self] at hd
            cases hd
            simp [dget]
          · rw [dget_dset_ne _ _ (fun e => hk (by first | exact e | exact e.symm))] at hd
            exact h k d hd
        · exact h k d hd
      | val a b c e =>
        simp only [MetricsOp.run, MetricsState.updateVal] at hd
        split at hd
        · by_cases hk : k = .validation
          · subst hk
            rw [dget_dset_self] at hd
            cases hd
            exact ⟨_, _, _, _, rfl⟩
          · rw [dget_dset_ne _ _ (fun e => hk (by first | exact e | exact e.symm))] at hd
            exact h k d hd
        · exact h k d hd
      | test a b c e f g =>
        simp only [MetricsOp.run, MetricsState.updateTest] at hd
        split at hd
        · by_cases hk : k = .test
          · subst hk
            rw [dget_dset_self] at hd
            cases hd
            simp [dget]
          · rw [dget_dset_ne _ _ (fun e => hk (by first | exact e | exact e.symm))] at hd
            exact h k d hd
        · exact h k d hd
      | epoch e => exact h k d hd
      | rate r => exact h k d hd
  rintro ops s rfl
  exact main ops _ (by intro k d hd; simp [dget] at hd)

/-- C108. With an empty metrics directory the names are found, and then it is worse: after any history, loading
raises KeyError as soon as a file of training or test metrics was ever written. Only if neither was does it restore
the validation lists, or leave everything as it is if there is no file at all. -/
theorem C108_bare_directory (ops : List MetricsOp) (rate : Nat) (modelType : List Char) (paths : List (List Char))
    (m : Metrics) (files : List (MetricsKind × MetricsDict))
    (hf : files = (ops.foldl MetricsOp.run ⟨{}, [], 0, rate⟩).files)
    (h1 : modelType ++ "_train_metrics.pt".toList ∈ paths ↔ (dget files .train).isSome)
    (h2 : modelType ++ "_validation_metrics.pt".toList ∈ paths ↔ (dget files .validation).isSome)
    (h3 : modelType ++ "_test_metrics.pt".toList ∈ paths ↔ (dget files .test).isSome) :
    ((dget files .train).isSome ∨ (dget files .test).isSome → loadMetrics m paths modelType files = .error .key) ∧
    (dget files .train = none → dget files .test = none →
      (dget files .validation = none → loadMetrics m paths modelType files = .ok m) ∧
      (∀ d, dget files .validation = some d → ∃ a b c e,
        d = [("val_accs", a), ("val_f1s", b), ("val_precisions", c), ("val_recalls", e)] ∧
        loadMetrics m paths modelType files =
          .ok { m with valAccs := a, valF1s := b, valPrecisions := c, valRecalls := e })) := by
  have shape := metricsFiles_shape rate ops _ rfl
  rw [← hf] at shape
  have g1 : ∀ m, (dget files .train).isSome →
      restoreIf m paths modelType files .train Metrics.restoreTrain = .error .key := by
    intro m h
    unfold restoreIf
    rw [if_pos (show modelType ++ MetricsKind.train.suffix ∈ paths from h1.2 h)]
    obtain ⟨d, hd⟩ := Option.isSome_iff_exists.1 h
    have := shape .train d hd
    simp only [hd, Metrics.restoreTrain, MetricsDict.get, this]
    rfl
  have n1 : ∀ m, dget files .train = none →
      restoreIf m paths modelType files .train Metrics.restoreTrain = .ok m := by
    intro m h
    unfold restoreIf
    rw [if_neg (by intro hc; have := h1.1 hc; rw [h] at this; cases this)]
  have n2 : ∀ m, dget files .validation = none →
      restoreIf m paths modelType files .validation Metrics.restoreVal = .ok m := by
    intro m h
    unfold restoreIf
    rw [if_neg (by intro hc; have := h2.1 hc; rw [h] at this; cases this)]
  have g2 : ∀ m d, dget files .validation = some d → ∃ a b c e,
      d = [("val_accs", a), ("val_f1s", b), ("val_precisions", c), ("val_recalls", e)] ∧
      restoreIf m paths modelType files .validation Metrics.restoreVal =
        .ok { m with valAccs := a, valF1s := b, valPrecisions := c, valRecalls := e } := by
    intro m d hd
    obtain ⟨a, b, c, e, rfl⟩ := shape .validation d hd
    refine ⟨a, b, c, e, rfl, ?_⟩
    unfold restoreIf
    rw [if_pos (show modelType ++ MetricsKind.validation.suffix ∈ paths from h2.2 (by rw [hd]; rfl))]
    simp only [hd, Metrics.restoreVal, MetricsDict.get]
    simp [dget, bind, Except.bind]
  have n3 : ∀ m, dget files .test = none →
      restoreIf m paths modelType files .test Metrics.restoreTest = .ok m := by
    intro m h
    unfold restoreIf
    rw [if_neg (by intro hc; have := h3.1 hc; rw [h] at this; cases this)]
  have g3 : ∀ m, (dget files .test).isSome →
      restoreIf m paths modelType files .test Metrics.restoreTest = .error .key := by
    intro m h
    unfold restoreIf
    rw [if_pos (show modelType ++ MetricsKind.test.suffix ∈ paths from h3.2 h)]
    obtain ⟨d, hd⟩ := Option.isSome_iff_exists.1 h
    obtain ⟨⟨a, ha⟩, hb⟩ := shape .test d hd
    simp only [hd, Metrics.restoreTest, MetricsDict.get, ha, hb]
    rfl
  unfold loadMetrics
  constructor
  · intro h
    cases ht : dget files .train with
    | some d => rw [g1 m (by rw [ht]; rfl)]; rfl
    | none =>
      have h' : (dget files .test).isSome := by
        rcases h with h | h
        · rw [ht] at h; cases h
        · exact h
      rw [n1 m ht]
      simp only [bind, Except.bind]
      cases hv : dget files .validation with
      | none => rw [n2 m hv]; exact g3 m h'
      | some d =>
        obtain ⟨a, b, c, e, -, he⟩ := g2 m d hv
        rw [he]; exact g3 _ h'
  · intro ht hte
    rw [n1 m ht]
    simp only [bind, Except.bind]
    refine ⟨fun hv => by rw [n2 m hv]; exact n3 m hte, fun d hv => ?_⟩
    obtain ⟨a, b, c, e, hd, he⟩ := g2 m d hv
    exact ⟨a, b, c, e, hd, by rw [he]; exact n3 _ hte⟩

/-- Its hypotheses are met by one training step, and by one validation step. -/
example : (let files := (([.train (some 1) none none none none] : List MetricsOp).foldl MetricsOp.run ⟨{}, [], 0, 100⟩).files
    let paths := ["gat_train_metrics.pt".toList]
    (("gat".toList ++ "_train_metrics.pt".toList ∈ paths ↔ (dget files .train).isSome) ∧
     ("gat".toList ++ "_validation_metrics.pt".toList ∈ paths ↔ (dget files .validation).isSome) ∧
     ("gat".toList ++ "_test_metrics.pt".toList ∈ paths ↔ (dget files .test).isSome))) ∧
    (let files := (([.val 1 1 1 1] : List MetricsOp).foldl MetricsOp.run ⟨{}, [], 0, 100⟩).files
    let paths := ["gat_validation_metrics.pt".toList]
    (("gat".toList ++ "_train_metrics.pt".toList ∈ paths ↔ (dget files .train).isSome) ∧
     ("gat".toList ++ "_validation_metrics.pt".toList ∈ paths ↔ (dget files .validation).isSome) ∧
     ("gat".toList ++ "_test_metrics.pt".toList ∈ paths ↔ (dget files .test).isSome))) := by decide +kernel

example : (MetricsOp.run ⟨{}, [], 0, 100⟩ (.train (some 1) none none none none)).files ≠ [] := by
  decide +kernel

theorem ckKeys_mem : ∀ (l : List (List Char)) (ks : List (List Char × Nat)), ckKeys l = .ok ks → ∀ p ∈ ks, p.1 ∈ l
  | [], ks, h, p, hp => by cases h; cases hp
  | n :: ns, ks, h, p, hp => by
    rw [ckKeys] at h
    cases hk : ckKey n with
    | error e => rw [hk] at h; cases h
    | ok k =>
      rw [hk] at h
      cases hks : ckKeys ns with
      | error e => rw [hks] at h; cases h
      | ok ks' =>
        rw [hks] at h
        cases h
        rcases List.mem_cons.1 hp with rfl | hp
        · exact List.mem_cons_self
        · exact List.mem_cons_of_mem _ (ckKeys_mem ns ks' hks p hp)

/-- C107. Hidden files and files that are not `.pt` files are not looked at: writing one to the directory changes
neither which files `glob` can list nor what loading gives. -/
theorem C107_other_files {S : Type} (d : CkDir S) (listing : List (List Char)) (t : Trainer S)
    (name : List Char) (f : CkFile S) (hn : (∃ r, name = '.' :: r) ∨ ¬ ".pt".toList <:+ name) :
    (∀ n, (n ∈ dkeys (dset d name f) ∧ globPt n = true) ↔ (n ∈ dkeys d ∧ globPt n = true)) ∧
    ((∀ n ∈ listing, globPt n = true) → loadCheckpoint t (dset d name f) listing = loadCheckpoint t d listing) := by
  have hg : globPt name = false := by
    unfold globPt
    rcases hn with ⟨r, rfl⟩ | h
    · simp
    · rw [Bool.and_eq_false_iff]
      right
      rw [← Bool.not_eq_true, List.isSuffixOf_iff_suffix]
      exact h
  constructor
  · intro n
    rw [mem_dkeys_dset]
    constructor
    · rintro ⟨rfl | h1, h2⟩
      · rw [hg] at h2; cases h2
      · exact ⟨h1, h2⟩
    · rintro ⟨h1, h2⟩
      exact ⟨Or.inr h1, h2⟩
  · intro hl
    unfold loadCheckpoint
    split
    · rfl
    · cases hk : ckKeys listing with
      | error e => rfl
      | ok ks =>
        dsimp only [bind, Except.bind]
        cases hlast : (sortByKey (fun p : List Char × Nat => (p.2 : ℚ)) ks).getLast? with
        | none => rfl
        | some p =>
          dsimp only
          have hp := (sortByKey_perm _ _).mem_iff.1 (List.mem_of_getLast? hlast)
          have hne : name ≠ p.1 := by
            intro h
            have := hl p.1 (ckKeys_mem _ _ hk p hp)
            rw [← h, hg] at this; cases this
          unfold readCk
          rw [dget_dset_ne d f hne]

example : loadCheckpoint (S := Nat) ⟨0, 0, 0⟩ (dset (saveCheckpoint [] 3 7) ".checkpoint_9.pt".toList .torn) [ckName 3] =
    loadCheckpoint ⟨0, 0, 0⟩ (saveCheckpoint [] 3 7) [ckName 3] :=
  (C107_other_files _ _ _ _ _ (Or.inl ⟨_, rfl⟩)).2 (by
    intro n hn; simp only [List.mem_singleton] at hn; subst hn; exact globPt_ckName 3)

/-- C108. If a dictionary does hold the five training lists, restoring from it puts exactly these into the
metrics and changes nothing else. -/
theorem C108_restore_train (m : Metrics) (d : MetricsDict) (a b c e f : List ℚ)
    (h1 : dget d "train_losses" = some a) (h2 : dget d "train_accs" = some b) (h3 : dget d "train_f1s" = some c)
    (h4 : dget d "train_precisions" = some e) (h5 : dget d "train_recalls" = some f) :
    Metrics.restoreTrain m d = .ok
      { m with trainLosses := a, trainAccs := b, trainF1s := c, trainPrecisions := e, trainRecalls := f } := by
  unfold Metrics.restoreTrain MetricsDict.get
  rw [h1, h2, h3, h4, h5]
  rfl

example : (Metrics.restoreTrain {} [("train_losses", [1]), ("train_accs", [2]), ("train_f1s", []),
    ("train_precisions", []), ("train_recalls", [3])]).isOk = true := by
  rw [C108_restore_train {} _ [1] [2] [] [] [3] rfl rfl rfl rfl rfl]; rfl

/-- C108. If a dictionary does hold the four test lists, restoring from it puts exactly these into the metrics and
changes nothing else: areas under the curve and average precisions are not restored. -/
theorem C108_restore_test (m : Metrics) (d : MetricsDict) (a b c e : List ℚ)
    (h1 : dget d "test_accs" = some a) (h2 : dget d "test_f1s" = some b) (h3 : dget d "test_precisions" = some c)
    (h4 : dget d "test_recalls" = some e) :
    Metrics.restoreTest m d = .ok { m with testAccs := a, testF1s := b, testPrecisions := c, testRecalls := e } := by
  unfold Metrics.restoreTest MetricsDict.get
  rw [h1, h2, h3, h4]
  rfl

example : (Metrics.restoreTest {} [("test_accs", [1]), ("test_f1s", [2]), ("test_precisions", []),
    ("test_recalls", [3])]) = .ok { testAccs := [1], testF1s := [2], testRecalls := [3] } :=
  C108_restore_test {} _ [1] [2] [] [3] rfl rfl rfl rfl

/-- C108. What a training or test update writes when it is due: the *validation* lists, under the names of test
scores with one of them misspelt; the test file also gets the areas and average precisions. -/
theorem C108_written_names (s : MetricsState) (h : s.due = true) (loss f1 acc recall precision auc ap : Option ℚ) :
    dget (s.updateTrain loss f1 acc recall precision).files .train =
      some [("test_accs", s.m.valAccs), ("tet_f1s", s.m.valF1s), ("test_precisions", s.m.valPrecisions),
        ("test_recalls", s.m.valRecalls)] ∧
    dget (s.updateTest acc f1 precision recall auc ap).files .test =
      some [("test_accs", s.m.valAccs), ("tet_f1s", s.m.valF1s), ("test_precisions", s.m.valPrecisions),
        ("test_recalls", s.m.valRecalls), ("test_aucs", s.m.testAucs ++ auc.toList), ("test_aps", s.m.testAps ++ ap.toList)] := by
  constructor
  · unfold MetricsState.updateTrain
    simp only [h, if_true, dget_dset]
  · unfold MetricsState.updateTest
    simp only [h, if_true, dget_dset]
    cases auc <;> cases ap <;> simp [appendSome]

example : (⟨{ valAccs := [1/2] }, [], 0, 1⟩ : MetricsState).due = true ∧
    dget ((⟨{ valAccs := [1/2] }, [], 0, 1⟩ : MetricsState).updateTrain (some 1) none none none none).files .train =
      some [("test_accs", [1/2]), ("tet_f1s", []), ("test_precisions", []), ("test_recalls", [])] :=
  ⟨rfl, (C108_written_names _ rfl (some 1) none none none none none none).1⟩

/-- C108. When files are written: in epochs that are multiples of a positive rate, and then only the file of the kind of
metric that was updated; in any other epoch no file changes. -/
theorem C108_when_written (s : MetricsState) (acc f1 precision recall : ℚ) (o1 o2 o3 o4 o5 o6 : Option ℚ) :
    let due := 0 < s.rate ∧ s.rate ∣ s.epoch
    (¬ due → (s.updateVal acc f1 precision recall).files = s.files ∧ (s.updateTrain o1 o2 o3 o4 o5).files = s.files ∧
      (s.updateTest o1 o2 o3 o4 o5 o6).files = s.files) ∧
    (due → (dget (s.updateVal acc f1 precision recall).files .validation).isSome ∧
      (dget (s.updateTrain o1 o2 o3 o4 o5).files .train).isSome ∧ (dget (s.updateTest o1 o2 o3 o4 o5 o6).files .test).isSome) ∧
    (∀ k, (k ≠ .validation → dget (s.updateVal acc f1 precision recall).files k = dget s.files k) ∧
      (k ≠ .train → dget (s.updateTrain o1 o2 o3 o4 o5).files k = dget s.files k) ∧
      (k ≠ .test → dget (s.updateTest o1 o2 o3 o4 o5 o6).files k = dget s.files k)) := by
  intro due
  have hd : s.due = true ↔ due := by
    unfold MetricsState.due
    simp only [due, Bool.and_eq_true, decide_eq_true_eq, Nat.dvd_iff_mod_eq_zero]
    omega
  refine ⟨fun h => ?_, fun h => ?_, fun k => ?_⟩
  · have : s.due = false := by simpa using mt hd.1 h
    simp [MetricsState.updateVal, MetricsState.updateTrain, MetricsState.updateTest, this]
  · have : s.due = true := hd.2 h
    simp [MetricsState.updateVal, MetricsState.updateTrain, MetricsState.updateTest, this, dget_dset]
  · unfold MetricsState.updateVal MetricsState.updateTrain MetricsState.updateTest
    refine ⟨fun hk => ?_, fun hk => ?_, fun hk => ?_⟩ <;>
    · simp only
      split
      · exact dget_dset_ne _ _ hk.symm
      · rfl

example : ((⟨{}, [], 7, 5⟩ : MetricsState).updateVal 1 1 1 1).files = [] ∧
    (dget ((⟨{}, [], 10, 5⟩ : MetricsState).updateVal 1 1 1 1).files .validation).isSome :=
  ⟨((C108_when_written ⟨{}, [], 7, 5⟩ 1 1 1 1 none none none none none none).1 (by simp)).1,
    ((C108_when_written ⟨{}, [], 10, 5⟩ 1 1 1 1 none none none none none none).2.1 (by simp)).1⟩

end NGC
