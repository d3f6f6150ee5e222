import Verif.PipelineProps3

/-!
C195: which options have a say in the dictionaries of a builder and of a dataset, building the same songs again, and the
numbers of the first graph.
-/

namespace NGC

open Spec

namespace Spec

/-- A history of one builder: songs built, with any options, and `list(builder.graphs())` in between; the log keeps, for each
song, the feature size and whether single notes are filtered. Nothing raised. -/
inductive BuilderHist (env : PyEnv) : Builder → List (List MSeq × Int × Bool) → Builder → Prop
  | start (b : Builder) : BuilderHist env b [] b
  | build {b c d : Builder} {log : List (List MSeq × Int × Bool)} (song : List MSeq) (o : BuildOpts) (perInstr : Bool) :
      BuilderHist env b log c → NGC.build env c song o perInstr = .ok d →
      BuilderHist env b (log ++ [(song, o.size, o.filterSingle)]) d
  | graphs {b c d : Builder} {log : List (List MSeq × Int × Bool)} (skip : Bool) (out : List PygData) :
      BuilderHist env b log c → NGC.graphs c skip = .ok (out, d) → BuilderHist env b log d

end Spec

/-! ### Registering a list of chords -/

theorem opt_chordSets (env : PyEnv) (o o' : BuildOpts) (s : MSeq) (hs : o.size = o'.size) (hf : o.filterSingle = o'.filterSingle) :
    chordSets env o s = chordSets env o' s := by
  have : computeData env s o.tol o.filterSingle true = computeData env s o'.tol o'.filterSingle true := by
    unfold computeData; rw [hf]; rfl
  unfold chordSets
  rw [this, hs]

theorem opt_usedSets (env : PyEnv) (o o' : BuildOpts) (s : MSeq) (hs : o.size = o'.size) (hf : o.filterSingle = o'.filterSingle) :
    usedSets env o s = usedSets env o' s := by
  unfold usedSets; rw [opt_chordSets env o o' s hs hf]

/-- The chords of a logged song. -/
def logSets (env : PyEnv) (e : List MSeq × Int × Bool) : List (Finset Int) :=
  e.1.flatMap (usedSets env { size := e.2.1, filterSingle := e.2.2 })

theorem graphs_same_tables (b d : Builder) (skip : Bool) (out : List PygData) (h : graphs b skip = .ok (out, d)) :
    d.tables = b.tables := by
  unfold graphs at h
  split at h
  · cases h
  · cases hl : graphsLoop b.tables skip b.pyg.length 0 b.pyg with
    | error e => rw [hl] at h; cases h
    | ok z => rw [hl] at h; cases h; rfl

theorem hist_registers {env : PyEnv} {b c : Builder} {log : List (List MSeq × Int × Bool)} (h : Spec.BuilderHist env b log c) :
    c.tables = (log.flatMap (logSets env)).foldl (fun t c => t.register env c) b.tables := by
  induction h with
  | start => rfl
  | build song o p _ hb ih =>
    rw [build_registers env o p _ _ song hb, ih, List.flatMap_append, List.foldl_append]
    have : song.flatMap (usedSets env o) = logSets env (song, o.size, o.filterSingle) := by
      unfold logSets
      exact congrArg (fun f => song.flatMap f) (funext (fun s => opt_usedSets env o _ s rfl rfl))
    rw [this]
    simp
  | graphs skip out _ hg ih => rw [graphs_same_tables _ _ _ _ hg, ih]

/-! ### The same chords again -/

section Dict
variable {K V : Type} [DecidableEq K]

theorem dset_known (d : List (K × V)) (k : K) (v : V) (h : dget d k = some v) : dset d k v = d := by
  induction d with
  | nil => cases h
  | cons p d ih =>
    unfold dset
    unfold dget at h
    by_cases hk : p.1 = k
    · rw [if_pos hk] at h ⊢
      obtain ⟨a, b⟩ := p
      simp only [Option.some.injEq] at h hk
      rw [hk, h]
    · rw [if_neg hk] at h ⊢
      rw [ih h]

theorem dset_overwrite (d : List (K × V)) (k : K) (v w : V) : dset (dset d k v) k w = dset d k w := by
  induction d with
  | nil => simp [dset]
  | cons p d ih =>
    by_cases hk : p.1 = k
    · simp [dset, hk]
    · simp [dset, hk, ih]

theorem dset_swap (d : List (K × V)) (k k' : K) (v v' : V) (hne : k ≠ k') (hk' : k' ∈ dkeys d) :
    dset (dset d k v) k' v' = dset (dset d k' v') k v := by
  induction d with
  | nil => simp [dkeys] at hk'
  | cons p d ih =>
    by_cases h1 : p.1 = k
    · have h2 : ¬ p.1 = k' := by rw [h1]; exact hne
      simp [dset, h1, hne]
    · by_cases h2 : p.1 = k'
      · simp [dset, h2, Ne.symm hne]
      · simp only [dset, if_neg h1, if_neg h2]
        rw [ih (by
          unfold dkeys at hk' ⊢
          rw [List.map_cons, List.mem_cons] at hk'
          rcases hk' with h | h
          · exact absurd h.symm h2
          · exact h)]

theorem dset_through (l : List (K × V)) : ∀ (d : List (K × V)) (k : K) (v w : V), (∀ p ∈ l, p.1 ∈ dkeys d) →
    dset (l.foldl (fun d p => dset d p.1 p.2) (dset d k v)) k w = dset (l.foldl (fun d p => dset d p.1 p.2) d) k w := by
  induction l with
  | nil => intro d k v w _; exact dset_overwrite d k v w
  | cons p l ih =>
    intro d k v w h
    rw [List.foldl_cons, List.foldl_cons]
    have hp := h p List.mem_cons_self
    have hl : ∀ q ∈ l, q.1 ∈ dkeys (dset d p.1 p.2) := by
      intro q hq
      rw [mem_dkeys_dset]
      exact Or.inr (h q (List.mem_cons_of_mem _ hq))
    by_cases hk : k = p.1
    · rw [hk, dset_overwrite]
    · rw [dset_swap d k p.1 v p.2 hk hp]
      exact ih (dset d p.1 p.2) k v w hl

theorem mem_dkeys_foldl (l : List (K × V)) : ∀ (d : List (K × V)) (k : K), (k ∈ dkeys d ∨ ∃ p ∈ l, p.1 = k) →
    k ∈ dkeys (l.foldl (fun d p => dset d p.1 p.2) d) := by
  induction l with
  | nil => intro d k h; simpa using h
  | cons p l ih =>
    intro d k h
    rw [List.foldl_cons]
    apply ih
    rw [mem_dkeys_dset]
    rcases h with h | ⟨q, hq, rfl⟩
    · exact Or.inl (Or.inr h)
    · rw [List.mem_cons] at hq
      rcases hq with rfl | hq
      · exact Or.inl (Or.inl rfl)
      · exact Or.inr ⟨q, hq, rfl⟩

/-- Assigning a list of entries a second time changes nothing. -/
theorem foldl_dset_again (l : List (K × V)) (d : List (K × V)) :
    l.foldl (fun d p => dset d p.1 p.2) (l.foldl (fun d p => dset d p.1 p.2) d) = l.foldl (fun d p => dset d p.1 p.2) d := by
  induction l using List.reverseRecOn generalizing d with
  | nil => rfl
  | append_singleton l p ih =>
    rw [List.foldl_append, List.foldl_append]
    simp only [List.foldl_cons, List.foldl_nil]
    rw [dset_through l _ _ _ _ (fun q hq => mem_dkeys_foldl l d q.1 (Or.inr ⟨q, hq, rfl⟩)), ih]

end Dict

theorem registers_dicts (env : PyEnv) (cs : List (Finset Int)) : ∀ t : Tables,
    (cs.foldl (fun t c => t.register env c) t).notesToHash =
      (cs.map (fun c => (c, env.hashSet c))).foldl (fun d p => dset d p.1 p.2) t.notesToHash ∧
    (cs.foldl (fun t c => t.register env c) t).hashToNotes =
      (cs.map (fun c => (env.hashSet c, c))).foldl (fun d p => dset d p.1 p.2) t.hashToNotes := by
  induction cs with
  | nil => intro t; exact ⟨rfl, rfl⟩
  | cons c cs ih =>
    intro t
    have h1 : (t.register env c).notesToHash = dset t.notesToHash c (env.hashSet c) := by
      unfold Tables.register; simp only []; split <;> rfl
    have h2 : (t.register env c).hashToNotes = dset t.hashToNotes (env.hashSet c) c := by
      unfold Tables.register; simp only []; split <;> rfl
    obtain ⟨g1, g2⟩ := ih (t.register env c)
    rw [List.foldl_cons, g1, g2, h1, h2]
    exact ⟨rfl, rfl⟩

/-- The index dictionaries do not change while known chords are registered. -/
theorem registers_known (env : PyEnv) (cs : List (Finset Int)) : ∀ t : Tables,
    (∀ c ∈ cs, dhas t.hashToIndex (env.hashSet c) = true) →
    (cs.foldl (fun t c => t.register env c) t).hashToIndex = t.hashToIndex ∧
    (cs.foldl (fun t c => t.register env c) t).indexToHash = t.indexToHash := by
  induction cs with
  | nil => intro t _; exact ⟨rfl, rfl⟩
  | cons c cs ih =>
    intro t h
    have hc := h c List.mem_cons_self
    have h1 : (t.register env c).hashToIndex = t.hashToIndex ∧ (t.register env c).indexToHash = t.indexToHash := by
      unfold Tables.register
      simp only []
      rw [if_pos hc]
      exact ⟨rfl, rfl⟩
    obtain ⟨g1, g2⟩ := ih (t.register env c) (by rw [h1.1]; exact fun x hx => h x (List.mem_cons_of_mem _ hx))
    rw [List.foldl_cons, g1, g2]
    exact h1

theorem register_has (env : PyEnv) (t : Tables) (c : Finset Int) (h : Int) :
    dhas (t.register env c).hashToIndex h = true ↔ h = env.hashSet c ∨ dhas t.hashToIndex h = true := by
  unfold Tables.register
  simp only []
  split
  · rename_i hc
    constructor
    · exact Or.inr
    · rintro (rfl | h')
      · exact hc
      · exact h'
  · simp only [dhas_iff, mem_dkeys_dset]

theorem registers_has (env : PyEnv) (cs : List (Finset Int)) : ∀ (t : Tables) (h : Int),
    (h ∈ cs.map env.hashSet ∨ dhas t.hashToIndex h = true) →
    dhas (cs.foldl (fun t c => t.register env c) t).hashToIndex h = true := by
  induction cs with
  | nil => intro t h hh; simpa using hh
  | cons c cs ih =>
    intro t h hh
    rw [List.foldl_cons]
    apply ih
    rw [register_has]
    rw [List.map_cons, List.mem_cons] at hh
    tauto

theorem registers_again (env : PyEnv) (cs : List (Finset Int)) (t : Tables) :
    cs.foldl (fun t c => t.register env c) (cs.foldl (fun t c => t.register env c) t) = cs.foldl (fun t c => t.register env c) t := by
  obtain ⟨a1, a2⟩ := registers_dicts env cs t
  obtain ⟨b1, b2⟩ := registers_dicts env cs (cs.foldl (fun t c => t.register env c) t)
  obtain ⟨c1, c2⟩ := registers_known env cs (cs.foldl (fun t c => t.register env c) t)
    (fun c hc => registers_has env cs t _ (Or.inl (List.mem_map_of_mem hc)))
  have e1 : ∀ (x y : Tables), x.notesToHash = y.notesToHash → x.hashToNotes = y.hashToNotes →
      x.hashToIndex = y.hashToIndex → x.indexToHash = y.indexToHash → x = y := by
    intro x y; cases x; cases y; rintro rfl rfl rfl rfl; rfl
  refine e1 _ _ ?_ ?_ c1 c2
  · rw [b1, a1]; exact foldl_dset_again _ _
  · rw [b2, a2]; exact foldl_dset_again _ _

/-! ### C195 -/

/-- **C195, which options count.** The dictionaries of a builder depend on nothing but the songs built, their order, the
feature size and the filter for single notes of each: two histories that agree in these, from builders with the same
dictionaries, end with the same dictionaries, whatever tolerance, buckets, kind of features, velocities, one graph per
instrument or not, and graphs taken in between. -/
theorem C195_options (env : PyEnv) (b b' c c' : Builder) (log : List (List MSeq × Int × Bool)) (ht : b.tables = b'.tables)
    (h : Spec.BuilderHist env b log c) (h' : Spec.BuilderHist env b' log c') : c.tables = c'.tables := by
  rw [hist_registers h, hist_registers h', ht]

/-- **C195, the same songs again.** Building the same songs in the same order again, with whatever other options, leaves all
four dictionaries as they are, even if different chords have the same hash. -/
theorem C195_again (env : PyEnv) (b c d : Builder) (log : List (List MSeq × Int × Bool))
    (h : Spec.BuilderHist env b log c) (h' : Spec.BuilderHist env c log d) : d.tables = c.tables := by
  rw [hist_registers h', hist_registers h]
  exact registers_again env _ _

/-- **C195, builder and dataset.** The dictionaries saved with a dataset, in both files, are those of any fresh builder that
builds the songs of the raw files that could be read, in that order, with the feature size and filter of the dataset and any
other options. This is what `index_checker` of ngc_small_graph asserts. -/
theorem C195_dataset (env : PyEnv) (o : DataOpts) (keep : PygData → Bool) (rnd rnd2 : Nat → Nat → List Nat)
    (files : List (Py (List MSeq))) (a b : SavedSet) (h : processFiles env o keep rnd rnd2 files = .ok (a, b))
    (songs : List (List MSeq)) (hs : songs = files.filterMap (fun f => match f with | .ok t => some t | .error _ => none))
    (f c : Builder) (hf : f.tables = Tables.empty)
    (hist : Spec.BuilderHist env f (songs.map (fun t => (t, o.build.size, o.build.filterSingle))) c) :
    a.tables = c.tables ∧ b.tables = c.tables := by
  have hc := hist_registers hist
  have hl : ∀ (l : List (List MSeq)), (l.map (fun t => (t, o.build.size, o.build.filterSingle))).flatMap (logSets env) =
      l.flatMap (fun t => t.flatMap (usedSets env o.build)) := by
    intro l
    rw [List.flatMap_map]
    exact congrArg (fun f => l.flatMap f) (funext (fun t => congrArg (fun f => t.flatMap f) (funext (fun s => opt_usedSets env _ _ s rfl rfl))))
  rw [hl, hf, hs] at hc
  unfold processFiles at h
  cases h1 : instPass env o keep rnd files (⟨Tables.empty, [], []⟩, []) with
  | error e => rw [h1] at h; cases h
  | ok r1 =>
    rw [h1] at h
    simp only [bind, Except.bind] at h
    split at h
    · cases h
    cases h2 : wholePass env o keep rnd2 files (r1.1, []) with
    | error e => rw [h2] at h; cases h
    | ok r2 =>
      rw [h2] at h
      cases h
      have e1 := instPass_registers env o keep rnd files _ r1 h1
      have e2 := wholePass_registers env o keep rnd2 files _ r2 h2
      refine ⟨?_, ?_⟩
      · show r1.1.tables = _
        rw [e1, hc]; rfl
      · show r2.1.tables = _
        rw [e2]
        show List.foldl _ r1.1.tables _ = _
        rw [e1, hc]
        exact registers_again env _ _

/-- **C149, two files equal.** The two files that processing writes are always equal in all, hash collisions or not. -/
theorem C149_equal (env : PyEnv) (o : DataOpts) (keep : PygData → Bool) (rnd rnd2 : Nat → Nat → List Nat) (files : List (Py (List MSeq)))
    (a b : SavedSet) (h : processFiles env o keep rnd rnd2 files = .ok (a, b)) : a = b := by
  unfold processFiles at h
  cases h1 : instPass env o keep rnd files (⟨Tables.empty, [], []⟩, []) with
  | error e => rw [h1] at h; cases h
  | ok r1 =>
    rw [h1] at h
    simp only [bind, Except.bind] at h
    split at h
    · cases h
    cases h2 : wholePass env o keep rnd2 files (r1.1, []) with
    | error e => rw [h2] at h; cases h
    | ok r2 =>
      rw [h2] at h
      cases h
      have e1 := instPass_registers env o keep rnd files _ r1 h1
      have e2 := wholePass_registers env o keep rnd2 files _ r2 h2
      have : r2.1.tables = r1.1.tables := by
        rw [e2]
        show List.foldl _ r1.1.tables _ = _
        rw [e1]
        exact registers_again env _ _
      rw [this]

/-! ### What is built does not depend on the builder's past -/

/-- The same outcome up to a relation of the values. -/
def SimPy {α β : Type} (R : α → β → Prop) : Py α → Py β → Prop
  | .ok a, .ok b => R a b
  | .error e, .error e' => e = e'
  | _, _ => False

theorem SimPy.bind' {α β γ δ : Type} {R : α → β → Prop} {Q : γ → δ → Prop} {x : Py α} {y : Py β} {f : α → Py γ} {g : β → Py δ}
    (h : SimPy R x y) (hf : ∀ a b, R a b → SimPy Q (f a) (g b)) : SimPy Q (x >>= f) (y >>= g) := by
  match x, y, h with
  | .ok a, .ok b, h => exact hf a b h
  | .error e, .error e', h => exact h

theorem SimPy.foldlM {α β γ : Type} {R : α → β → Prop} (f : α → γ → Py α) (g : β → γ → Py β)
    (hs : ∀ a b c, R a b → SimPy R (f a c) (g b c)) : ∀ (l : List γ) (a : α) (b : β), R a b → SimPy R (l.foldlM f a) (l.foldlM g b) := by
  intro l
  induction l with
  | nil => intro a b h; exact h
  | cons c l ih =>
    intro a b h
    rw [List.foldlM_cons, List.foldlM_cons]
    exact SimPy.bind' (hs a b c h) (fun a' b' h' => ih a' b' h')

theorem SimPy.same {α : Type} {R : α → α → Prop} (hr : ∀ a, R a a) (x : Py α) : SimPy R x x := by
  match x with
  | .ok a => exact hr a
  | .error e => exact (rfl : e = e)

theorem buildSequence_sim (env : PyEnv) (t t' : Tables) (s : MSeq) (o : BuildOpts) (g : Option MGraph) :
    SimPy (fun x y => x.2 = y.2) (buildSequence env t s o g) (buildSequence env t' s o g) := by
  unfold buildSequence
  split
  · exact (rfl : Err.value = Err.value)
  · refine SimPy.bind' (R := Eq) (SimPy.same (fun _ => rfl) _) ?_
    rintro ⟨data, m⟩ _ rfl
    dsimp only
    split
    · exact (rfl : _ = _)
    · have key : ∀ (G : MGraph) (last : Option Int), SimPy (fun (x y : Tables × MGraph) => x.2 = y.2)
          (do let st ← buildLoop env o (orderedGroups data) ⟨t, G, last⟩; .ok (st.tables, st.graph))
          (do let st ← buildLoop env o (orderedGroups data) ⟨t', G, last⟩; .ok (st.tables, st.graph)) := by
        intro G last
        refine SimPy.bind' (R := fun (x y : BState) => x.graph = y.graph ∧ x.last = y.last) ?_ ?_
        · unfold buildLoop
          refine SimPy.foldlM _ _ ?_ _ _ _ ⟨rfl, rfl⟩
          intro a b notes hab
          refine SimPy.foldlM _ _ ?_ _ _ _ hab
          intro a b c hab
          unfold chordStep
          have fin : ∀ (vel : Option (List ℚ)), SimPy (fun (x y : BState) => x.graph = y.graph ∧ x.last = y.last)
              (do let x ← createTensor o.ty (env.iter c) vel o.size.toNat 127
                  .ok { tables := a.tables.register env c
                        graph := linkChord a.graph a.last (env.hashSet c) x ((notes.map (fun n => env.noteName n.pitch)).toFinset)
                        last := some (env.hashSet c) })
              (do let x ← createTensor o.ty (env.iter c) vel o.size.toNat 127
                  .ok { tables := b.tables.register env c
                        graph := linkChord b.graph b.last (env.hashSet c) x ((notes.map (fun n => env.noteName n.pitch)).toFinset)
                        last := some (env.hashSet c) }) := by
            intro vel
            refine SimPy.bind' (R := Eq) (SimPy.same (fun _ => rfl) _) ?_
            rintro x _ rfl
            refine ⟨?_, rfl⟩
            show linkChord _ _ _ _ _ = linkChord _ _ _ _ _
            rw [hab.1, hab.2]
          dsimp only
          split
          · refine SimPy.bind' (R := Eq) (SimPy.same (fun _ => rfl) _) ?_
            rintro v _ rfl
            exact fin v
          · exact fin none
        · intro a b hab
          exact hab.1
      cases g with
      | none => exact key _ _
      | some g =>
        dsimp only
        cases (dkeys g.nodes).getLast? with
        | none => exact (rfl : Err.index = Err.index)
        | some l => exact key _ _

/-- Two runs that appended the same graphs. -/
def SameNew (b c : Builder) (x y : Builder × Option MGraph) : Prop :=
  x.2 = y.2 ∧ ∃ (new : List PygData) (sub : List MGraph), x.1.pyg = b.pyg ++ new ∧ y.1.pyg = c.pyg ++ new ∧
    x.1.sub = b.sub ++ sub ∧ y.1.sub = c.sub ++ sub

theorem buildTrack_sim (env : PyEnv) (o : BuildOpts) (p : Bool) (b c : Builder) (x y : Builder × Option MGraph) (s : MSeq)
    (h : SameNew b c x y) : SimPy (SameNew b c) (buildTrack env o p x s) (buildTrack env o p y s) := by
  unfold buildTrack
  split
  · exact h
  split
  · exact h
  obtain ⟨h2, new, sub, hx, hy, sx, sy⟩ := h
  rw [← h2]
  refine SimPy.bind' (buildSequence_sim env x.1.tables y.1.tables s o _) ?_
  rintro ⟨t, g⟩ ⟨t', g'⟩ hg
  dsimp only at hg ⊢
  rw [← hg]
  split
  · exact ⟨rfl, new, sub, hx, hy, sx, sy⟩
  split
  · exact (rfl : Err.value = Err.value)
  split
  · refine SimPy.bind' (R := Eq) (SimPy.same (fun _ => rfl) _) ?_
    rintro d _ rfl
    refine ⟨rfl, new ++ [d], sub ++ [g], ?_, ?_, ?_, ?_⟩
    · show x.1.pyg ++ [d] = _; rw [hx, List.append_assoc]
    · show y.1.pyg ++ [d] = _; rw [hy, List.append_assoc]
    · show x.1.sub ++ [g] = _; rw [sx, List.append_assoc]
    · show y.1.sub ++ [g] = _; rw [sy, List.append_assoc]
  · exact ⟨rfl, new, sub, hx, hy, sx, sy⟩

/-- **C195, the past does not matter.** What one call of `build` does is the same on any two builders: it raises the same error,
or it succeeds on both and appends the same graphs, also the unconverted ones. -/
theorem C195_past (env : PyEnv) (o : BuildOpts) (p : Bool) (tracks : List MSeq) (b c : Builder) :
    (∀ e, build env b tracks o p = .error e → build env c tracks o p = .error e) ∧
    (∀ b1, build env b tracks o p = .ok b1 → ∃ c1 new sub, build env c tracks o p = .ok c1 ∧
      b1.pyg = b.pyg ++ new ∧ c1.pyg = c.pyg ++ new ∧ b1.sub = b.sub ++ sub ∧ c1.sub = c.sub ++ sub) := by
  have key : SimPy (fun x y => ∃ (new : List PygData) (sub : List MGraph), x.pyg = b.pyg ++ new ∧ y.pyg = c.pyg ++ new ∧
      x.sub = b.sub ++ sub ∧ y.sub = c.sub ++ sub) (build env b tracks o p) (build env c tracks o p) := by
    unfold build
    refine SimPy.bind' (SimPy.foldlM _ _ (fun x y s h => buildTrack_sim env o p b c x y s h) tracks (b, none) (c, none)
      ⟨rfl, [], [], by simp, by simp, by simp, by simp⟩) ?_
    rintro ⟨b1, l1⟩ ⟨c1, l2⟩ ⟨hl, new, sub, hx, hy, sx, sy⟩
    dsimp only at hl hx hy sx sy ⊢
    rw [← hl]
    cases l1 with
    | none => exact ⟨new, sub, hx, hy, sx, sy⟩
    | some g =>
      dsimp only
      split
      · exact ⟨new, sub, hx, hy, sx, sy⟩
      · refine SimPy.bind' (R := Eq) (SimPy.same (fun _ => rfl) _) ?_
        rintro d _ rfl
        exact ⟨new ++ [d], sub ++ [g], by simp [hx], by simp [hy], by simp [sx], by simp [sy]⟩
  constructor
  · intro e he
    rw [he] at key
    cases hc : build env c tracks o p with
    | ok c1 => rw [hc] at key; exact key.elim
    | error e' => rw [hc] at key; rw [(key : e = e')]
  · intro b1 hb
    rw [hb] at key
    cases hc : build env c tracks o p with
    | error e' => rw [hc] at key; exact key.elim
    | ok c1 =>
      rw [hc] at key
      obtain ⟨new, sub, h⟩ := key
      exact ⟨c1, new, sub, rfl, h⟩

theorem classNumbers_first (l l' : List Int) : (firstSeen l).map (classNumber (l ++ l')) = List.range' 1 (firstSeen l).length := by
  apply List.ext_getElem
  · simp
  · intro i h1 h2
    have hi : i < (firstSeen l).length := by simpa using h1
    rw [List.getElem_map, classNumber_append l l' _ ((mem_firstSeen l _).1 (List.getElem_mem hi)), List.getElem_range']
    unfold classNumber
    rw [(firstSeen_nodup l).idxOf_getElem i hi]
    omega

/-- **C195, the first graph of a fresh builder.** Its nodes are numbered 1, 2, 3, … in their order, and keep these numbers
whatever the builder does later. -/
theorem C195_first (env : PyEnv) (f b c : Builder) (hf : f.tables = Tables.empty) (hp : f.pyg = []) (o : BuildOpts)
    (tracks : List MSeq) (h : build env f tracks o true = .ok b) (d : PygData) (hd : b.pyg.head? = some d)
    (log : List (List MSeq × Int × Bool)) (hist : Spec.BuilderHist env b log c) (skip : Bool) :
    ∃ r, labelGraph c.tables skip d = .ok r ∧ r.y = some (List.range' 1 d.nodeHash.length) ∧ d.attrs.length = d.nodeHash.length ∧
      r.attrs = d.attrs := by
  obtain ⟨new, hnew, hall⟩ := build_graphs env o f b tracks h
  rw [hp, List.nil_append] at hnew
  rw [hnew] at hd
  obtain ⟨css, hcss⟩ : ∃ css, css = songChords env o tracks := ⟨_, rfl⟩
  rw [← hcss] at hall
  cases hall with
  | nil => cases hd
  | @cons cs d' css ds hg hrest =>
    simp only [List.head?_cons, Option.some.injEq] at hd
    subst hd
    have e1 := hist_registers hist
    rw [build_registers env o true f b tracks h, hf, ← List.foldl_append] at e1
    have l0 : LogInv env [] Tables.empty := ⟨tinv_empty env, rfl⟩
    have l1 := l0.registers (tracks.flatMap (usedSets env o) ++ log.flatMap (logSets env))
    rw [← e1, List.nil_append, List.map_append, usedSets_hash, ← hcss, List.flatten_cons, List.append_assoc] at l1
    refine ⟨_, l1.label skip d' ?_, ?_, hg.rows, rfl⟩
    · intro x hx
      rw [hg.nodes, mem_firstSeen] at hx
      exact List.mem_append_left _ hx
    · show some (d'.nodeHash.map _) = _
      rw [hg.nodes, classNumbers_first]

/-- **C195, looking features up by label (defect).** So `x[y[i]]`, as in `index_checker`, is never row `i` of the first graph but
the row of the next node, and for the last node there is none (IndexError). -/
theorem C195_lookup (env : PyEnv) (f b c : Builder) (hf : f.tables = Tables.empty) (hp : f.pyg = []) (o : BuildOpts)
    (tracks : List MSeq) (h : build env f tracks o true = .ok b) (d : PygData) (hd : b.pyg.head? = some d)
    (log : List (List MSeq × Int × Bool)) (hist : Spec.BuilderHist env b log c) (skip : Bool) :
    ∃ r y, labelGraph c.tables skip d = .ok r ∧ r.y = some y ∧ y.length = d.attrs.length ∧
      ∀ (i l : Nat), y[i]? = some l → r.attrs[l]? = d.attrs[i + 1]? ∧ (i + 1 = d.attrs.length → r.attrs[l]? = none) := by
  obtain ⟨r, h1, h2, h3, hattr⟩ := C195_first env f b c hf hp o tracks h d hd log hist skip
  refine ⟨r, _, h1, h2, by rw [List.length_range', h3], ?_⟩
  intro i l hl
  rw [List.getElem?_eq_some_iff] at hl
  obtain ⟨hi, hl⟩ := hl
  rw [List.getElem_range'] at hl
  have : l = i + 1 := by omega
  rw [this, hattr]
  exact ⟨rfl, fun he => by rw [he]; simp⟩

/-- Two songs built by two fresh builders: one graph per instrument first and a wide tolerance then, or one graph for all with
velocities, taken in between. -/
def exOptA : Py Builder := do
  let b ← build exEnv ⟨Tables.empty, [], []⟩ [exWhole] {} true
  build exEnv b [exMelody] { tol := 1/2 } false

def exOptB : Py Builder := do
  let b ← build exEnv ⟨Tables.empty, [], []⟩ [exWhole] { velocity := true, tol := 1, buckets := 3 } false
  let r ← graphs b true
  build exEnv r.2 [exMelody] {} true

/-- The hypotheses of `C195_options` and `C195_dataset` are met: both are histories with the log of the two songs, their
dictionaries number three chords and their lists of graphs differ. -/
example : ∃ c c', exOptA = .ok c ∧ exOptB = .ok c' ∧
    Spec.BuilderHist exEnv ⟨Tables.empty, [], []⟩ [([exWhole], 12, false), ([exMelody], 12, false)] c ∧
    Spec.BuilderHist exEnv ⟨Tables.empty, [], []⟩ [([exWhole], 12, false), ([exMelody], 12, false)] c' ∧
    c.tables.indexToHash = [(1, 1), (2, 2), (3, 4)] ∧ c.pyg.length = 2 ∧ c'.pyg.length = 1 := by
  have kA : exOptA.map (fun c => (c.tables.indexToHash, c.pyg.length)) = .ok ([(1, 1), (2, 2), (3, 4)], 2) := by decide +kernel
  have kB : exOptB.map (fun c => c.pyg.length) = .ok 1 := by decide +kernel
  cases hA : exOptA with
  | error e => rw [hA] at kA; cases kA
  | ok c =>
    cases hB : exOptB with
    | error e => rw [hB] at kB; cases kB
    | ok c' =>
      rw [hA] at kA
      rw [hB] at kB
      simp only [Except.map, Except.ok.injEq, Prod.mk.injEq] at kA kB
      refine ⟨c, c', rfl, rfl, ?_, ?_, kA.1, kA.2, kB⟩
      · unfold exOptA at hA
        cases h1 : build exEnv ⟨Tables.empty, [], []⟩ [exWhole] {} true with
        | error e => rw [h1] at hA; cases hA
        | ok b =>
          rw [h1] at hA
          exact Spec.BuilderHist.build [exMelody] { tol := 1/2 } false (Spec.BuilderHist.build [exWhole] {} true (.start _) h1) hA
      · unfold exOptB at hB
        cases h1 : build exEnv ⟨Tables.empty, [], []⟩ [exWhole] { velocity := true, tol := 1, buckets := 3 } false with
        | error e => rw [h1] at hB; cases hB
        | ok b =>
          rw [h1] at hB
          simp only [bind, Except.bind] at hB
          cases h2 : graphs b true with
          | error e => rw [h2] at hB; cases hB
          | ok r =>
            rw [h2] at hB
            exact Spec.BuilderHist.build [exMelody] {} true (Spec.BuilderHist.graphs true r.1
              (Spec.BuilderHist.build [exWhole] { velocity := true, tol := 1, buckets := 3 } false (.start _) h1) h2) hB

/-- The first graph of the first builder: three nodes with the numbers 1, 2, 3; the melody, built later, has 1, 3, 2. -/
example : ((do let c ← exOptA; c.pyg.mapM (labelGraph c.tables false)) : Py (List PygData)).map (fun (l : List PygData) => l.map (fun d => (d.nodeHash, d.y))) =
    .ok [([1, 2, 4], some [1, 2, 3]), ([1, 4, 2], some [1, 3, 2])] := by decide +kernel

end NGC
