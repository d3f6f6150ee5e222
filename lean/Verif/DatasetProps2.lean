import Verif.DatasetProps

/-!
Processed files: crash safety and contents (C65), file names (C104), stale caches (C105), which
graphs end up in a dataset (C106).
-/

namespace NGC

/-! ### File names -/

/-- C104. The names spelt out, for any settings. -/
theorem C104_names_spelt (v : Bool) (n : Nat) (tol : List Char) :
    FileKey.inst ⟨v, some n, tol⟩ = ("per_instrument_vel_" ++ (if v then "True" else "False") ++ "_feature_size_").toList ++
      decStr n ++ "_tolerance_".toList ++ tol ++ ".pt".toList ∧
    FileKey.whole ⟨v, some n, tol⟩ = ("data_vel_" ++ (if v then "True" else "False") ++ "_feature_size_").toList ++
      decStr n ++ "_tolerance_".toList ++ tol ++ ".pt".toList ∧
    FileKey.inst ⟨v, none, tol⟩ = ("per_instrument_vel_" ++ (if v then "True" else "False") ++
      "_feature_size_None_tolerance_").toList ++ tol ++ ".pt".toList ∧
    FileKey.whole ⟨v, none, tol⟩ = ("data_vel_" ++ (if v then "True" else "False") ++
      "_feature_size_None_tolerance_").toList ++ tol ++ ".pt".toList := by
  unfold FileKey.inst FileKey.whole FileKey.tail
  cases v <;> simp [String.toList_append]

example : FileKey.whole ⟨true, some 16, "0.5".toList⟩ = "data_vel_True_feature_size_16_tolerance_0.5.pt".toList := by
  decide +kernel

/-- C104. The per-instrument file and the whole-graph file of any settings never share a name, and
two settings share a file only if velocity flag, feature size and the text of the tolerance agree. -/
theorem C104_file_names (k k' : FileKey) :
    k.inst ≠ k'.whole ∧ (k.inst = k'.inst ↔ k = k') ∧ (k.whole = k'.whole ↔ k = k') := by
  have tail : k.tail = k'.tail → k = k' := by
    obtain ⟨v, s, t⟩ := k
    obtain ⟨v', s', t'⟩ := k'
    intro h
    unfold FileKey.tail at h
    simp only [List.append_assoc] at h
    rw [List.append_cancel_left_eq] at h
    have hv : v = v' := by
      cases v <;> cases v' <;> first | rfl | (simp at h)
    subst hv
    rw [List.append_cancel_left_eq, List.append_cancel_left_eq] at h
    have nus : ∀ o : Option Nat,
        '_' ∉ (match o with | some n => decStr n | none => "None".toList) := by
      intro o
      cases o with
      | some n => exact underscore_notMem_decStr n
      | none => decide
    have e : ∀ x : List Char, "_tolerance_".toList ++ x = '_' :: ("tolerance_".toList ++ x) := by
      intro x; rfl
    rw [e, e] at h
    obtain ⟨h1, h2⟩ := append_sep_inj (nus s) (nus s') h
    rw [List.append_cancel_left_eq, List.append_cancel_right_eq] at h2
    subst h2
    have : s = s' := by
      cases s with
      | none =>
        cases s' with
        | none => rfl
        | some n =>
          exfalso
          simp only at h1
          exact N_notMem_decStr n (by rw [← h1]; decide)
      | some m =>
        cases s' with
        | none =>
          exfalso
          simp only at h1
          exact N_notMem_decStr m (by rw [h1]; decide)
        | some n =>
          simp only at h1
          rw [decStr_inj h1]
    subst this
    rfl
  refine ⟨?_, ⟨?_, fun h => by rw [h]⟩, ⟨?_, fun h => by rw [h]⟩⟩
  · intro h
    unfold FileKey.inst FileKey.whole at h
    simp at h
  · intro h
    exact tail (List.append_cancel_left h)
  · intro h
    exact tail (List.append_cancel_left h)

example : FileKey.inst ⟨false, some 12, "0.2".toList⟩ =
    "per_instrument_vel_False_feature_size_12_tolerance_0.2.pt".toList := by
  decide +kernel

section
variable {G T : Type}

/-! ### Directories -/

/-- What holds of a directory after any history: the second file is created only when the first one is
complete, and a complete second file holds the same graphs as the first. -/
def Dir.Good (d : Dir G T) : Prop :=
  ∀ k : FileKey, (d k.whole).isSome →
    ∃ data t, d k.inst = some (.full data t) ∧
      (∀ c, d k.whole = some c → c = .torn ∨ ∃ t', c = .full data t')

theorem Dir.put_self (d : Dir G T) (n : List Char) (c : Content G T) : d.put n c n = some c := by
  simp [Dir.put]

theorem Dir.put_ne (d : Dir G T) {n m : List Char} (c : Content G T) (h : m ≠ n) :
    d.put n c m = d m := by simp [Dir.put, h]

theorem inst_ne_whole (k k' : FileKey) : k.inst ≠ k'.whole := (C104_file_names k k').1

theorem whole_ne_inst (k k' : FileKey) : k.whole ≠ k'.inst := fun h => inst_ne_whole k' k h.symm

/-- Rewriting the first file keeps a directory good as long as the second one is absent. -/
theorem Dir.good_put_inst {d : Dir G T} (h : d.Good) (k : FileKey) (hk : d k.whole = none)
    (c : Content G T) : (d.put k.inst c).Good := by
  intro k' hs
  rw [Dir.put_ne _ _ (whole_ne_inst k' k)] at hs ⊢
  have hne : k'.inst ≠ k.inst := by
    intro e
    rw [(C104_file_names k' k).2.1] at e
    subst e
    rw [hk] at hs
    simp at hs
  rw [Dir.put_ne _ _ hne]
  exact h k' hs

/-- Writing the second file keeps a directory good when the first holds the same graphs. -/
theorem Dir.good_put_whole {d : Dir G T} (h : d.Good) (k : FileKey) (data : List G) (t : T)
    (hi : d k.inst = some (.full data t)) (c : Content G T)
    (hc : c = .torn ∨ ∃ t', c = .full data t') : (d.put k.whole c).Good := by
  intro k' hs
  rw [Dir.put_ne _ _ (inst_ne_whole k' k)]
  by_cases e : k' = k
  · subst e
    refine ⟨data, t, hi, ?_⟩
    intro c' hc'
    rw [Dir.put_self] at hc'
    cases hc'
    exact hc
  · have hne : k'.whole ≠ k.whole := fun x => e ((C104_file_names k' k).2.2.1 x)
    rw [Dir.put_ne _ _ hne] at hs ⊢
    exact h k' hs

theorem Dir.empty_good : (Dir.empty : Dir G T).Good := by
  intro k h
  simp [Dir.empty] at h

/-- The writes of one run, in the only two shapes they have. -/
theorem Run.plan_shape (r : Run G T) :
    r.plan.1 = [] ∨ ∃ data, passInst r.keep r.f r.inst = .ok data ∧ data ≠ [] ∧
      (r.plan.1 = [⟨r.key.inst, .torn⟩, ⟨r.key.inst, .full data r.tables1⟩] ∨
       r.plan.1 = [⟨r.key.inst, .torn⟩, ⟨r.key.inst, .full data r.tables1⟩,
         ⟨r.key.whole, .torn⟩, ⟨r.key.whole, .full data r.tables2⟩]) := by
  unfold Run.plan
  cases h : passInst r.keep r.f r.inst with
  | error e => left; rfl
  | ok l =>
    cases l with
    | nil => left; rfl
    | cons g gs =>
      right
      refine ⟨g :: gs, rfl, by simp, ?_⟩
      cases passWhole r.keep r.f r.whole with
      | error e => left; rfl
      | ok _ => right; rfl

/-- Any number of writes of a run keeps a good directory good, when the run has something to do. -/
theorem Run.good_take (r : Run G T) {d : Dir G T} (h : d.Good) (hr : d.ready r.key = false)
    (n : Nat) : (d.apply (r.plan.1.take n)).Good := by
  have hw : d r.key.whole = none := by
    cases hx : d r.key.whole with
    | none => rfl
    | some c =>
      obtain ⟨data, t, hi, _⟩ := h r.key (by rw [hx]; rfl)
      simp [Dir.ready, hx, hi] at hr
  rcases r.plan_shape with e | ⟨data, _, _, e⟩
  · rw [e, List.take_nil]; exact h
  have g1 := Dir.good_put_inst h r.key hw .torn
  have w1 : (d.put r.key.inst .torn) r.key.whole = none := by
    rw [Dir.put_ne _ _ (whole_ne_inst _ _)]; exact hw
  have g2 := Dir.good_put_inst g1 r.key w1 (.full data r.tables1)
  have i2 := Dir.put_self (d.put r.key.inst .torn) r.key.inst (.full data r.tables1)
  have g3 := Dir.good_put_whole g2 r.key data r.tables1 i2 .torn (Or.inl rfl)
  have i3 : ((d.put r.key.inst .torn).put r.key.inst (.full data r.tables1)).put r.key.whole .torn
      r.key.inst = some (.full data r.tables1) := by
    rw [Dir.put_ne _ _ (inst_ne_whole _ _)]; exact i2
  have g4 := Dir.good_put_whole g3 r.key data r.tables1 i3 (.full data r.tables2)
    (Or.inr ⟨_, rfl⟩)
  rcases e with e | e
  · rw [e]
    match n with
    | 0 => exact h
    | 1 => exact g1
    | n + 2 => simp only [List.take_succ_cons, List.take_nil]; exact g2
  · rw [e]
    match n with
    | 0 => exact h
    | 1 => exact g1
    | 2 => exact g2
    | 3 => exact g3
    | n + 4 => simp only [List.take_succ_cons, List.take_nil]; exact g4

theorem Run.construct_dir (r : Run G T) (d : Dir G T) :
    (r.construct d).1 = if d.ready r.key then d else d.apply r.plan.1 := by
  unfold Run.construct
  split
  · rfl
  · cases r.plan.2 <;> rfl

theorem Reachable.good {d : Dir G T} (h : Reachable d) : d.Good := by
  induction h with
  | empty => exact Dir.empty_good
  | @finish r d _ ih =>
    rw [r.construct_dir]
    split
    · exact ih
    · rename_i hr
      have := r.good_take ih (by simpa using hr) r.plan.1.length
      rwa [List.take_length] at this
  | @crash r n d _ ih =>
    unfold Run.crash
    split
    · exact ih
    · rename_i hr
      exact r.good_take ih (by simpa using hr) n

/-- C65. Whatever finished and interrupted runs came before, a dataset opened with
`per_instrument_graph=True` never reads a half-written file: either both files are there and the first
is complete, or processing is done again. -/
theorem C65_per_instrument_crash_safe {d : Dir G T} (h : Reachable d) (r : Run G T)
    (hp : r.perInst = true) :
    (∃ data t, d r.key.inst = some (.full data t) ∧ r.construct d = (d, .ok (data, t))) ∨
    (r.construct d).1 = d.apply r.plan.1 := by
  by_cases hr : d.ready r.key = true
  · left
    have hs : (d r.key.whole).isSome := by
      unfold Dir.ready at hr
      rw [Bool.and_eq_true] at hr
      exact hr.2
    obtain ⟨data, t, hi, _⟩ := h.good r.key hs
    refine ⟨data, t, hi, ?_⟩
    unfold Run.construct Run.load
    rw [if_pos hr, hp]
    simp only [if_true, hi]
  · right
    rw [r.construct_dir, if_neg hr]

/-- C65. A run that gets to its end returns the graphs it has just computed, in the first pass, for
both values of `per_instrument_graph`, together with the tables of the pass belonging to the file. -/
theorem C65_fresh_result {d : Dir G T} (r : Run G T) (hr : d.ready r.key = false)
    (h : r.plan.2 = none) :
    ∃ data, passInst r.keep r.f r.inst = .ok data ∧ data ≠ [] ∧
      (r.construct d).2 = .ok (data, if r.perInst then r.tables1 else r.tables2) := by
  have hc : (r.construct d).2 = r.load (d.apply r.plan.1) := by
    unfold Run.construct
    rw [if_neg (by rw [hr]; simp)]
    simp only [h]
  rw [hc]
  unfold Run.plan at h ⊢
  cases hp : passInst r.keep r.f r.inst with
  | error e => rw [hp] at h; simp at h
  | ok l =>
    rw [hp] at h
    cases l with
    | nil => simp at h
    | cons g gs =>
      cases hq : passWhole r.keep r.f r.whole with
      | error e => rw [hq] at h; simp at h
      | ok w =>
        refine ⟨g :: gs, rfl, by simp, ?_⟩
        simp only [Dir.apply, List.foldl_append, List.foldl_cons, List.foldl_nil]
        unfold Run.load
        cases r.perInst
        · simp only [Bool.false_eq_true, if_false]
          rw [Dir.put_self]
        · simp only [if_true]
          rw [Dir.put_ne _ _ (inst_ne_whole _ _), Dir.put_ne _ _ (inst_ne_whole _ _), Dir.put_self]

/-- C65 (refutation of "the whole-graph file holds whole graphs"). Whenever, after any history, a
dataset opens with `per_instrument_graph=False`, its graphs are those of the per-instrument file:
opening the same directory with `per_instrument_graph=True` gives the same list. -/
theorem C65_whole_file_holds_instrument_graphs {d : Dir G T} (h : Reachable d) (r : Run G T)
    (hr : d.ready r.key = true) (data : List G) (t : T)
    (hl : ({ r with perInst := false } : Run G T).load d = .ok (data, t)) :
    ∃ t', ({ r with perInst := true } : Run G T).load d = .ok (data, t') := by
  have hs : (d r.key.whole).isSome := by
    unfold Dir.ready at hr
    rw [Bool.and_eq_true] at hr
    exact hr.2
  obtain ⟨data', t', hi, hc⟩ := h.good r.key hs
  unfold Run.load at hl ⊢
  simp only [Bool.false_eq_true, if_false] at hl
  simp only [if_true, hi]
  cases hx : d r.key.whole with
  | none => rw [hx] at hs; simp at hs
  | some c =>
    rw [hx] at hl
    rcases hc c hx with rfl | ⟨t2, rfl⟩
    · simp at hl
    · simp only [Except.ok.injEq, Prod.mk.injEq] at hl
      exact ⟨t', by rw [hl.1]⟩

/-- C65 (refutation of "a later run never loads an incomplete set"). Whenever processing gets as far
as the second save, a crash inside that save leaves a directory that counts as complete; every later
constructor call with `per_instrument_graph=False` and these settings then raises, and leaves the
directory as it is. -/
theorem C65_crash_in_second_save {d : Dir G T} (r : Run G T) (hr : d.ready r.key = false)
    (h : r.plan.2 = none) (r' : Run G T) (hk : r'.key = r.key) (hp : r'.perInst = false) :
    (r.crash 3 d).ready r.key = true ∧
    r'.construct (r.crash 3 d) = (r.crash 3 d, .error .runtime) := by
  have hc : (r.crash 3 d) = d.apply (r.plan.1.take 3) := by
    unfold Run.crash; rw [if_neg (by rw [hr]; simp)]
  have hw : (r.crash 3 d) r.key.whole = some .torn ∧
      ((r.crash 3 d) r.key.inst).isSome := by
    rw [hc]
    unfold Run.plan at h ⊢
    cases hp : passInst r.keep r.f r.inst with
    | error e => rw [hp] at h; simp at h
    | ok l =>
      rw [hp] at h
      cases l with
      | nil => simp at h
      | cons g gs =>
        cases hq : passWhole r.keep r.f r.whole with
        | error e => rw [hq] at h; simp at h
        | ok w =>
          simp only [List.cons_append, List.nil_append, List.take_succ_cons, List.take_zero,
            Dir.apply, List.foldl_cons, List.foldl_nil]
          rw [Dir.put_self, Dir.put_ne _ _ (inst_ne_whole _ _), Dir.put_self]
          exact ⟨rfl, rfl⟩
  have rd : (r.crash 3 d).ready r.key = true := by
    unfold Dir.ready
    rw [hw.1, hw.2]
    rfl
  refine ⟨rd, ?_⟩
  unfold Run.construct Run.load
  rw [hk, if_pos rd, hp]
  simp only [Bool.false_eq_true, if_false]
  rw [hw.1]

/-- C65. At every other point a crash is harmless: the next run starts processing again. -/
theorem C65_other_crash_points {d : Dir G T} (h : Reachable d) (r : Run G T)
    (hr : d.ready r.key = false) (n : Nat) (hn : n < 3) : (r.crash n d).ready r.key = false := by
  have hc : (r.crash n d) = d.apply (r.plan.1.take n) := by
    unfold Run.crash; rw [if_neg (by rw [hr]; simp)]
  have hw : d r.key.whole = none := by
    cases hx : d r.key.whole with
    | none => rfl
    | some c =>
      obtain ⟨data, t, hi, _⟩ := h.good r.key (by rw [hx]; rfl)
      simp [Dir.ready, hx, hi] at hr
  have : (r.crash n d) r.key.whole = none := by
    rw [hc]
    rcases r.plan_shape with e | ⟨data, _, _, e | e⟩ <;> rw [e]
    · rw [List.take_nil]; exact hw
    · match n with
      | 0 => exact hw
      | 1 => simp [Dir.apply, Dir.put_ne _ _ (whole_ne_inst _ _), hw]
      | 2 => simp [Dir.apply, Dir.put_ne _ _ (whole_ne_inst _ _), hw]
    · match n with
      | 0 => exact hw
      | 1 => simp [Dir.apply, Dir.put_ne _ _ (whole_ne_inst _ _), hw]
      | 2 => simp [Dir.apply, Dir.put_ne _ _ (whole_ne_inst _ _), hw]
  unfold Dir.ready
  rw [this]
  simp

/-! ### Stale caches -/

/-- C105. Once both files exist, nothing a caller passes can change them or make the constructor look
at the raw files: two calls with the same file-name settings and the same flag return the same result,
whatever their raw files, ratios, filters and transforms, and the directory stays as it is. -/
theorem C105_cache_wins (d : Dir G T) (r r' : Run G T) (hk : r'.key = r.key)
    (hr : d.ready r.key = true) (hp : r'.perInst = r.perInst) :
    r'.construct d = r.construct d ∧ (r.construct d).1 = d := by
  unfold Run.construct Run.load
  rw [hk, if_pos hr, if_pos hr, hp]
  exact ⟨rfl, rfl⟩

/-- C105. Runs with other file-name settings leave the two files of a setting alone. -/
theorem C105_other_settings (d : Dir G T) (r : Run G T) (k : FileKey) (hk : r.key ≠ k) :
    (r.construct d).1 k.inst = d k.inst ∧ (r.construct d).1 k.whole = d k.whole := by
  have n1 : k.inst ≠ r.key.inst := fun e => hk ((C104_file_names k r.key).2.1.1 e).symm
  have n2 : k.whole ≠ r.key.whole := fun e => hk ((C104_file_names k r.key).2.2.1 e).symm
  rw [r.construct_dir]
  split
  · exact ⟨rfl, rfl⟩
  rcases r.plan_shape with e | ⟨data, _, _, e | e⟩ <;> rw [e]
  · exact ⟨rfl, rfl⟩
  · simp [Dir.apply, Dir.put_ne _ _ n1, Dir.put_ne _ _ (whole_ne_inst _ _)]
  · simp [Dir.apply, Dir.put_ne _ _ n1, Dir.put_ne _ _ n2, Dir.put_ne _ _ (whole_ne_inst _ _),
      Dir.put_ne _ _ (inst_ne_whole _ _)]

/-! ### Which graphs a dataset holds -/

/-- C106. When the first pass succeeds, the dataset holds, file by file and in the order they were
built, the masked and transformed graphs that pass the filter; a file that ended with a KeyError
contributes the graphs it had already handed out. -/
theorem C106_instrument_graphs (keep : G → Bool) (f : G → G) (ps : List (Produced G)) :
    passInst keep f ps =
      match ps.findSome? (fun p => if p.stop = some .key then none else p.stop) with
      | some e => .error e
      | none => .ok ((((ps.map Produced.graphs).flatten).filter keep).map f) := by
  induction ps with
  | nil => rfl
  | cons p ps ih =>
    obtain ⟨gs, st⟩ := p
    rw [passInst]
    cases st with
    | none =>
      simp only [ih, List.findSome?_cons]
      simp only [reduceCtorEq, if_false]
      cases List.findSome? (fun p => if p.stop = some .key then none else p.stop) ps with
      | none => simp [bind, Except.bind]
      | some e => simp [bind, Except.bind]
    | some e =>
      by_cases he : e = .key
      · subst he
        simp only [ih, List.findSome?_cons, if_true]
        cases List.findSome? (fun p => if p.stop = some .key then none else p.stop) ps with
        | none => simp [bind, Except.bind]
        | some e => simp [bind, Except.bind]
      · have h1 : ¬ (some e = some Err.key) := fun x => he (Option.some.inj x)
        rw [List.findSome?_cons]
        simp only [if_neg h1]

/-- C106. The second pass makes the constructor fail whenever some raw file (before any other error)
yields no graph at all: StopIteration escapes. -/
theorem C106_empty_file_fails (keep : G → Bool) (f : G → G) (ps qs : List (Produced G))
    (hps : ∀ p ∈ ps, p.graphs ≠ [] ∨ p.stop = some .key ∨ p.stop = some .fileNotFound) :
    passWhole keep f (ps ++ ⟨[], none⟩ :: qs) = .error .stopIteration := by
  induction ps with
  | nil => rfl
  | cons p ps ih =>
    obtain ⟨gs, st⟩ := p
    have ih' := ih (fun q hq => hps q (List.mem_cons_of_mem _ hq))
    rw [List.cons_append, passWhole.eq_def]
    cases gs with
    | cons g gs => simp only [ih', bind, Except.bind]
    | nil =>
      rcases hps _ List.mem_cons_self with h | h | h
      · exact absurd rfl h
      · simp only at h; subst h; exact ih'
      · simp only at h; subst h; exact ih'

end

/-- A run over two files, one of which breaks off with a KeyError after its first graph: it finishes,
and both files hold the three per-instrument graphs. -/
def sampleRun : Run Nat Nat where
  key := ⟨false, some 12, "0.2".toList⟩
  perInst := false
  inst := [⟨[1, 2], none⟩, ⟨[3], some .key⟩]
  whole := [⟨[100], none⟩, ⟨[200], none⟩]
  keep := fun _ => true
  f := id
  tables1 := 5
  tables2 := 6

example : sampleRun.plan.2 = none ∧ (sampleRun.construct Dir.empty).2 = .ok ([1, 2, 3], 6) ∧
    (sampleRun.construct (sampleRun.crash 3 Dir.empty)).2 = .error .runtime ∧
    (({ sampleRun with perInst := true }).construct (sampleRun.crash 3 Dir.empty)).2
      = .ok ([1, 2, 3], 5) := by
  decide +kernel

end NGC
