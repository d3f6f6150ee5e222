import Verif.SelfCheck
import Verif.GraphProps5
import Verif.PipelineProps3

/-!
C194: a dataset with `do_sanity_check=True` cannot be made.
-/

namespace NGC

open Spec

/-- The self-check after a build by a new builder. -/
theorem selfCheck_first (env : PyEnv) (o : BuildOpts) (tracks : List MSeq) (b : Builder) (hb : build env ⟨Tables.empty, [], []⟩ tracks o true = .ok b) :
    graphsChecked b = .error (if songChords env o tracks = [] then .value else .attribute) := by
  have inv0 : BuilderInv env ⟨Tables.empty, [], []⟩ := ⟨Built.fresh, by simp, by simp⟩
  obtain ⟨inv, _⟩ := build_builderInv env o _ b tracks inv0 hb
  obtain ⟨h1, h2⟩ := selfCheck_of_inv env b inv
  obtain ⟨new, hn, hq⟩ := build_graphs env o _ b tracks hb
  have hlog : LogInv env ((songChords env o tracks).flatten) b.tables := by
    rw [← usedSets_hash, build_registers env o true _ b tracks hb]
    have h0 : LogInv env [] Tables.empty := ⟨tinv_empty env, rfl⟩
    simpa using h0.registers (tracks.flatMap (usedSets env o))
  split_ifs with hc
  · apply h2
    have hk := hlog.keys
    rw [hc] at hk
    exact List.map_eq_nil_iff.1 hk
  · refine (h1 ?_).1
    rw [hn, List.nil_append]
    intro hnew
    rw [hnew] at hq
    cases hq' : songChords env o tracks with
    | nil => exact hc hq'
    | cons x xs => rw [hq'] at hq; cases hq

theorem instChecked_first (env : PyEnv) (o : DataOpts) (keep : PygData → Bool) (rnd : Nat → Nat → List Nat) (l : List MaskedData) (tracks : List MSeq)
    (b : Builder) (hb : build env ⟨Tables.empty, [], []⟩ tracks o.build true = .ok b) :
    instFileChecked env o keep rnd (⟨Tables.empty, [], []⟩, l) (.ok tracks) =
      .error (if songChords env o.build tracks = [] then .value else .attribute) := by
  unfold instFileChecked
  dsimp only
  rw [hb]
  dsimp only [bind, Except.bind]
  rw [selfCheck_first env o.build tracks b hb]

theorem checkedPass_skip (env : PyEnv) (o : DataOpts) (keep : PygData → Bool) (rnd : Nat → Nat → List Nat) (skipped : Nat) (l : List (Py (List MSeq)))
    (st : Builder × List MaskedData) :
    (List.replicate skipped (Except.error Err.key) ++ l).foldlM (instFileChecked env o keep rnd) st = l.foldlM (instFileChecked env o keep rnd) st := by
  induction skipped with
  | zero => rfl
  | succ n ih => rw [List.replicate_succ, List.cons_append, ← ih]; rfl

/-- **C194, never.** Whatever the raw files, settings, filter and random numbers are, a dataset with `do_sanity_check=True` is never processed: there is
always an exception, raised before any file is written. -/
theorem C194_never (env : PyEnv) (o : DataOpts) (keep : PygData → Bool) (rnd rnd2 : Nat → Nat → List Nat) (files : List (Py (List MSeq))) :
    ∃ e, processChecked env o keep rnd rnd2 files = .error e := by
  have key : ∀ files : List (Py (List MSeq)), (∃ e, files.foldlM (instFileChecked env o keep rnd) (⟨Tables.empty, [], []⟩, []) = .error e) ∨
      files.foldlM (instFileChecked env o keep rnd) (⟨Tables.empty, [], []⟩, []) = .ok (⟨Tables.empty, [], []⟩, []) := by
    intro files
    induction files with
    | nil => exact .inr rfl
    | cons f files ih =>
      rw [List.foldlM_cons]
      cases f with
      | error e =>
        by_cases he : e = .key
        · subst he; exact ih
        · left
          refine ⟨e, ?_⟩
          have : instFileChecked env o keep rnd (⟨Tables.empty, [], []⟩, []) (.error e) = .error e := by
            cases e <;> first | rfl | exact absurd rfl he
          rw [this]; rfl
      | ok tracks =>
        left
        cases hb : build env ⟨Tables.empty, [], []⟩ tracks o.build true with
        | error e =>
          refine ⟨e, ?_⟩
          have : instFileChecked env o keep rnd (⟨Tables.empty, [], []⟩, []) (.ok tracks) = .error e := by
            unfold instFileChecked
            dsimp only
            rw [hb]
            rfl
          rw [this]; rfl
        | ok b =>
          rw [instChecked_first env o keep rnd [] tracks b hb]
          exact ⟨_, rfl⟩
  unfold processChecked
  rcases key files with ⟨e, he⟩ | h
  · rw [he]; exact ⟨e, rfl⟩
  · rw [h]; exact ⟨_, rfl⟩

/-- **C194, which exception.** With settings and a first readable song that can be built, it is AttributeError if this song has a chord and ValueError if it has none; all
songs after it are never read. -/
theorem C194_first_song (env : PyEnv) (henv : env.IterOk) (o : DataOpts) (ho : o.build.ok = true) (hty : o.build.ty = .tensor) (keep : PygData → Bool)
    (rnd rnd2 : Nat → Nat → List Nat) (skipped : Nat) (tracks : List MSeq) (later : List (Py (List MSeq)))
    (hp : ∀ s ∈ tracks, usable s = true → CanBuild s) :
    processChecked env o keep rnd rnd2 (List.replicate skipped (.error .key) ++ .ok tracks :: later) =
      .error (if songChords env o.build tracks = [] then .value else .attribute) := by
  obtain ⟨b, hb, _⟩ := build_total env henv o.build ho hty true ⟨Tables.empty, [], []⟩ tracks hp
  unfold processChecked
  rw [checkedPass_skip, List.foldlM_cons, instChecked_first env o keep rnd [] tracks b hb]
  rfl

/-- **C194, nothing to read.** Without a readable raw file: IndexError, as without the check. -/
theorem C194_no_song (env : PyEnv) (o : DataOpts) (keep : PygData → Bool) (rnd rnd2 : Nat → Nat → List Nat) (skipped : Nat) :
    processChecked env o keep rnd rnd2 (List.replicate skipped (.error .key)) = .error .index := by
  have := checkedPass_skip env o keep rnd skipped [] (⟨Tables.empty, [], []⟩, [])
  rw [List.append_nil] at this
  unfold processChecked
  rw [this]
  rfl

/-- Files that are processed without the check are refused with it. -/
example : (∃ r, processFiles exEnvAll {} (fun _ => true) (fun _ n => List.range n) (fun _ n => List.range n) exFiles = .ok r) ∧
    processChecked exEnvAll {} (fun _ => true) (fun _ n => List.range n) (fun _ n => List.range n) exFiles = .error .attribute := by
  constructor
  · obtain ⟨a, b, h⟩ := C149_succeeds exEnvAll exEnvAll_ok {} (by decide +kernel) rfl (fun _ => true) (fun _ n => List.range n) (fun _ n => List.range n) exFiles
      exFiles_good [exWhole] [[exMelody]] rfl (by decide +kernel) (fun _ _ => rfl)
    exact ⟨_, h⟩
  · have hp : ∀ s ∈ [exWhole], usable s = true → CanBuild s := by
      rcases exFiles_good (.ok [exWhole]) (by unfold exFiles; simp) with h | ⟨t, h, hg⟩
      · cases h
      · cases h; exact hg
    have h := C194_first_song exEnvAll exEnvAll_ok {} (by decide +kernel) rfl (fun _ => true) (fun _ n => List.range n) (fun _ n => List.range n) 0 [exWhole]
      [.error .key, .ok [exMelody]] hp
    rw [if_neg (by decide +kernel)] at h
    exact h

end NGC
