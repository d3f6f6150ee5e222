import Verif.Pipeline
import Verif.GraphProps5
import Verif.DatasetProps

/-! Properties C148, C149: from raw files to the graphs, labels and masks of a dataset. -/

namespace NGC

open Spec

namespace Spec

/-- The chord numbers of a track in the order in which the builder visits them. -/
def chordsOf (env : PyEnv) (o : BuildOpts) (s : MSeq) : List Int :=
  match computeData env s o.tol o.filterSingle true with
  | .ok (d, _) => visited env o.size.toNat d
  | .error _ => []

/-- The tracks `build` uses: not drums, not a single note. -/
def usable (s : MSeq) : Bool := !s.instr.isDrum && decide (s.notes.length ≠ 1)

/-- The chords of a song, one list for each usable track that has any. -/
def songChords (env : PyEnv) (o : BuildOpts) (tracks : List MSeq) : List (List Int) :=
  ((tracks.filter usable).map (chordsOf env o)).filter (fun l => decide (l ≠ []))

/-- The songs among the raw files: those that could be read. -/
def songsOf (files : List (Py (List MSeq))) : List (List MSeq) :=
  files.filterMap (fun f => match f with | .ok t => some t | .error _ => none)

/-- All chords of all songs, in the order met. -/
def chordLog (env : PyEnv) (o : BuildOpts) (songs : List (List MSeq)) : List Int :=
  songs.flatMap (fun t => (songChords env o t).flatten)

/-- The number of different chords met before `h` was first met, plus one. -/
def classNumber (log : List Int) (h : Int) : Nat := (firstSeen log).idxOf h + 1

/-- Chord numbers of the graph of a song: those of its first usable track with chords. -/
def graphChords (env : PyEnv) (o : BuildOpts) (t : List MSeq) : Option (List Int) :=
  (songChords env o t).head?.map firstSeen

end Spec

/-! ### The order of first appearance -/

/-- Adding one element to a list of different ones. -/
def addSeen {α : Type} [DecidableEq α] (acc : List α) (x : α) : List α := if x ∈ acc then acc else acc ++ [x]

theorem firstSeen_foldl {α : Type} [DecidableEq α] (l l' : List α) : firstSeen (l ++ l') = l'.foldl addSeen (firstSeen l) := by
  unfold firstSeen
  rw [List.foldl_append]
  rfl

theorem foldl_addSeen_prefix {α : Type} [DecidableEq α] (l acc : List α) : ∃ r, l.foldl addSeen acc = acc ++ r := by
  induction l generalizing acc with
  | nil => exact ⟨[], by simp⟩
  | cons a l ih =>
    obtain ⟨r, hr⟩ := ih (addSeen acc a)
    rw [List.foldl_cons, hr]
    unfold addSeen
    split
    · exact ⟨r, rfl⟩
    · exact ⟨a :: r, by simp⟩

theorem foldl_addSeen_known {α : Type} [DecidableEq α] (l acc : List α) (h : ∀ x ∈ l, x ∈ acc) : l.foldl addSeen acc = acc := by
  induction l with
  | nil => rfl
  | cons a l ih =>
    rw [List.foldl_cons]
    unfold addSeen
    rw [if_pos (h a List.mem_cons_self)]
    exact ih (fun x hx => h x (List.mem_cons_of_mem _ hx))

theorem classNumber_append (l l' : List Int) (h : Int) (hm : h ∈ l) : classNumber (l ++ l') h = classNumber l h := by
  unfold classNumber
  rw [firstSeen_foldl]
  obtain ⟨r, hr⟩ := foldl_addSeen_prefix l' (firstSeen l)
  rw [hr, List.idxOf_append_of_mem ((mem_firstSeen l h).2 hm)]

theorem classNumber_inj (l : List Int) (a b : Int) (ha : a ∈ l) (hb : b ∈ l) (h : classNumber l a = classNumber l b) : a = b := by
  unfold classNumber at h
  have ha' := (mem_firstSeen l a).2 ha
  exact (List.idxOf_inj ha').1 (by omega)

theorem classNumber_range (l : List Int) (a : Int) (ha : a ∈ l) : 1 ≤ classNumber l a ∧ classNumber l a ≤ (firstSeen l).length := by
  unfold classNumber
  have := List.idxOf_lt_length_iff.2 ((mem_firstSeen l a).2 ha)
  omega

/-! ### Tables -/

theorem register_keys (env : PyEnv) (t : Tables) (c : Finset Int) :
    dkeys (t.register env c).hashToNotes = addSeen (dkeys t.hashToNotes) (env.hashSet c) := by
  unfold Tables.register addSeen
  simp only []
  split <;> exact dkeys_dset _ _ _

theorem registers_keys (env : PyEnv) (cs : List (Finset Int)) (t : Tables) :
    dkeys (cs.foldl (fun t c => t.register env c) t).hashToNotes = (cs.map env.hashSet).foldl addSeen (dkeys t.hashToNotes) := by
  induction cs generalizing t with
  | nil => rfl
  | cons c cs ih => rw [List.foldl_cons, ih, register_keys, List.map_cons, List.foldl_cons]

/-- The chords of a track. -/
def chordSets (env : PyEnv) (o : BuildOpts) (s : MSeq) : List (Finset Int) :=
  match computeData env s o.tol o.filterSingle true with
  | .ok (d, _) => (orderedGroups d).flatMap (subGroups env o.size.toNat)
  | .error _ => []

theorem chordSets_hash (env : PyEnv) (o : BuildOpts) (s : MSeq) : (chordSets env o s).map env.hashSet = chordsOf env o s := by
  unfold chordSets chordsOf
  cases computeData env s o.tol o.filterSingle true with
  | error e => rfl
  | ok r => rfl

/-- `build_sequence`, onto any graph, registers the chords of the track. -/
theorem buildSequence_registers (env : PyEnv) (t : Tables) (s : MSeq) (o : BuildOpts) (g : Option MGraph)
    (t' : Tables) (g' : MGraph) (h : buildSequence env t s o g = .ok (t', g')) :
    t' = (chordSets env o s).foldl (fun t c => t.register env c) t := by
  unfold buildSequence at h
  by_cases ho : o.ok = true
  · rw [ho] at h
    simp only [Bool.not_true, Bool.false_eq_true, if_false] at h
    unfold chordSets
    cases hd : computeData env s o.tol o.filterSingle true with
    | error e => rw [hd] at h; cases h
    | ok r =>
      obtain ⟨data, m⟩ := r
      rw [hd] at h
      simp only [bind, Except.bind] at h ⊢
      by_cases hn : data = []
      · subst hn
        rw [if_pos rfl] at h
        cases h
        rfl
      · rw [if_neg hn] at h
        have hflat : ((orderedGroups data).flatMap (fun ns => (subGroups env o.size.toNat ns).map (fun c => (ns, c)))).map (·.2) =
            (orderedGroups data).flatMap (subGroups env o.size.toNat) := by
          generalize orderedGroups data = l
          induction l with
          | nil => rfl
          | cons a l ih => simp [List.flatMap_cons, ih]
        have key : ∀ g0 last, ∀ r, buildLoop env o (orderedGroups data) ⟨t, g0, last⟩ = .ok r →
            r.tables = ((orderedGroups data).flatMap (subGroups env o.size.toNat)).foldl (fun t c => t.register env c) t := by
          intro g0 last r hr
          rw [buildLoop_flat] at hr
          have := foldlM_inv (fun (st : BState) (p : List Note × Finset Int) => chordStep env o p.1 st p.2)
            (fun pre st => st.tables = (pre.map (·.2)).foldl (fun t c => t.register env c) t) ?_
            _ [] ⟨t, g0, last⟩ r rfl hr
          · rw [List.nil_append, hflat] at this
            exact this
          · intro pre p st st' hp hs
            obtain ⟨vel, x, _, _, _, rfl⟩ := chordStep_ok env o p.1 st st' p.2 hs
            simp only [List.map_append, List.foldl_append, hp]
            rfl
        cases g with
        | none =>
          simp only [] at h
          cases hb : buildLoop env o (orderedGroups data) ⟨t, DiGraph.empty, none⟩ with
          | error e => simp only [Option.getD_none, hb] at h; cases h
          | ok r =>
            simp only [Option.getD_none, hb] at h
            cases h
            exact key _ _ r hb
        | some g0 =>
          simp only [] at h
          cases hl : (dkeys g0.nodes).getLast? with
          | none => rw [hl] at h; cases h
          | some l =>
            rw [hl] at h
            simp only [Option.getD_some] at h
            cases hb : buildLoop env o (orderedGroups data) ⟨t, g0, some l⟩ with
            | error e => rw [hb] at h; cases h
            | ok r =>
              rw [hb] at h
              cases h
              exact key _ _ r hb
  · rw [Bool.not_eq_true] at ho
    rw [ho] at h
    cases h

/-- Chords of a track that `build` uses. -/
def usedSets (env : PyEnv) (o : BuildOpts) (s : MSeq) : List (Finset Int) := if usable s then chordSets env o s else []

theorem usedSets_hash (env : PyEnv) (o : BuildOpts) (tracks : List MSeq) :
    (tracks.flatMap (usedSets env o)).map env.hashSet = (songChords env o tracks).flatten := by
  unfold songChords
  induction tracks with
  | nil => rfl
  | cons s l ih =>
    rw [List.flatMap_cons, List.map_append, ih]
    unfold usedSets
    by_cases hu : usable s = true
    · rw [if_pos hu, List.filter_cons_of_pos hu, List.map_cons, chordSets_hash]
      by_cases hc : chordsOf env o s = []
      · rw [List.filter_cons_of_neg (by simpa using hc), hc]; rfl
      · rw [List.filter_cons_of_pos (by simpa using hc), List.flatten_cons]
    · rw [if_neg hu, List.filter_cons_of_neg hu]; rfl

theorem buildTrack_registers (env : PyEnv) (o : BuildOpts) (p : Bool) (st r : Builder × Option MGraph) (s : MSeq)
    (h : buildTrack env o p st s = .ok r) : r.1.tables = (usedSets env o s).foldl (fun t c => t.register env c) st.1.tables := by
  unfold buildTrack at h
  unfold usedSets usable
  split at h
  · rename_i hd
    cases h
    rw [hd]; rfl
  rename_i hd
  rw [Bool.not_eq_true] at hd
  split at h
  · rename_i h1
    cases h
    simp [h1]
  rename_i h1
  rw [if_pos (by simp [hd, h1])]
  cases hb : buildSequence env st.1.tables s o (if p then none else st.2) with
  | error e => rw [hb] at h; cases h
  | ok tg =>
    obtain ⟨t, g⟩ := tg
    have ht := buildSequence_registers env _ s o _ t g hb
    rw [hb] at h
    simp only [bind, Except.bind] at h
    rw [← ht]
    split at h
    · cases h; rfl
    split at h
    · cases h
    split at h
    · cases hf : fromNetworkx g with
      | error e => rw [hf] at h; cases h
      | ok d => rw [hf] at h; cases h; rfl
    · cases h; rfl

theorem build_registers (env : PyEnv) (o : BuildOpts) (p : Bool) (b b' : Builder) (tracks : List MSeq)
    (h : build env b tracks o p = .ok b') : b'.tables = (tracks.flatMap (usedSets env o)).foldl (fun t c => t.register env c) b.tables := by
  unfold build at h
  cases hf : tracks.foldlM (buildTrack env o p) (b, none) with
  | error e => rw [hf] at h; cases h
  | ok r =>
    have key := foldlM_inv (buildTrack env o p)
      (fun pre st => st.1.tables = (pre.flatMap (usedSets env o)).foldl (fun t c => t.register env c) b.tables) (by
        intro pre a s s' hs ha
        rw [buildTrack_registers env o p s s' a ha, hs, List.flatMap_append, List.foldl_append]
        simp) tracks [] (b, none) r rfl hf
    obtain ⟨b1, large⟩ := r
    rw [List.nil_append] at key
    rw [hf] at h
    simp only [bind, Except.bind] at h
    rw [← key]
    cases large with
    | none => cases h; rfl
    | some g =>
      simp only [] at h
      split at h
      · cases h; rfl
      · cases hn : fromNetworkx g with
        | error e => rw [hn] at h; cases h
        | ok d => rw [hn] at h; cases h; rfl

/-! ### The graphs of a song -/

/-- A converted graph: chords of its nodes, one row and one edge list that fits. -/
structure GoodGraph (env : PyEnv) (o : BuildOpts) (cs : List Int) (d : PygData) : Prop where
  nodes : d.nodeHash = firstSeen cs
  rows : d.attrs.length = d.nodeHash.length
  weights : d.weight.length = d.edgeIndex.length
  ends : ∀ e ∈ d.edgeIndex, e.1 < d.nodeHash.length ∧ e.2 < d.nodeHash.length

theorem firstSeen_eq_nil {α : Type} [DecidableEq α] (l : List α) : firstSeen l = [] ↔ l = [] := by
  constructor
  · intro h
    cases l with
    | nil => rfl
    | cons a l =>
      have : a ∈ firstSeen (a :: l) := (mem_firstSeen _ _).2 List.mem_cons_self
      rw [h] at this; cases this
  · rintro rfl; rfl

theorem buildTrack_graphs (env : PyEnv) (o : BuildOpts) (b : Builder) (large : Option MGraph) (r : Builder × Option MGraph) (s : MSeq)
    (h : buildTrack env o true (b, large) s = .ok r) :
    ∃ new, r.1.pyg = b.pyg ++ new ∧ List.Forall₂ (GoodGraph env o) (songChords env o [s]) new := by
  unfold buildTrack at h
  unfold songChords
  split at h
  · rename_i hd
    cases h
    refine ⟨[], by simp, ?_⟩
    rw [List.filter_cons_of_neg (by simp [usable, hd])]
    exact List.Forall₂.nil
  rename_i hd
  rw [Bool.not_eq_true] at hd
  split at h
  · rename_i h1
    cases h
    refine ⟨[], by simp, ?_⟩
    rw [List.filter_cons_of_neg (by simp [usable, h1])]
    exact List.Forall₂.nil
  rename_i h1
  rw [List.filter_cons_of_pos (by simp [usable, hd, h1])]
  simp only [if_true] at h
  cases hb : buildSequence env b.tables s o none with
  | error e => rw [hb] at h; cases h
  | ok tg =>
    obtain ⟨t, g⟩ := tg
    rw [hb] at h
    simp only [bind, Except.bind] at h
    obtain ⟨_, data, m, hdd, _⟩ := buildSequence_fresh env b.tables s o t g hb
    have hk := C50_nodes env b.tables s o t g data m hb hdd
    have hc : chordsOf env o s = visited env o.size.toNat data := by
      unfold chordsOf; rw [hdd]
    rw [← hc] at hk
    simp only [List.filter_nil, List.map_cons, List.map_nil]
    split at h
    · rename_i hn
      cases h
      refine ⟨[], by simp, ?_⟩
      rw [hn] at hk
      have : chordsOf env o s = [] := (firstSeen_eq_nil _).1 hk.symm
      rw [List.filter_cons_of_neg (by simpa using this)]
      exact List.Forall₂.nil
    rename_i hn
    split at h
    · cases h
    obtain ⟨d, hd', hnh, h2, h3, h4, _⟩ := C89_conversion env b.tables s o t g hb
    rw [hd'] at h
    cases h
    refine ⟨[d], rfl, ?_⟩
    rw [List.filter_cons_of_pos]
    · exact List.Forall₂.cons ⟨by rw [hnh, hk], h2, h3, h4⟩ List.Forall₂.nil
    · simp only [decide_eq_true_eq]
      intro h0
      rw [h0] at hk
      apply hn
      unfold dkeys at hk
      exact List.map_eq_nil_iff.1 hk

theorem songChords_append (env : PyEnv) (o : BuildOpts) (a b : List MSeq) : songChords env o (a ++ b) = songChords env o a ++ songChords env o b := by
  unfold songChords
  rw [List.filter_append, List.map_append, List.filter_append]

theorem build_graphs (env : PyEnv) (o : BuildOpts) (b b' : Builder) (tracks : List MSeq) (h : build env b tracks o true = .ok b') :
    ∃ new, b'.pyg = b.pyg ++ new ∧ List.Forall₂ (GoodGraph env o) (songChords env o tracks) new := by
  unfold build at h
  cases hf : tracks.foldlM (buildTrack env o true) (b, none) with
  | error e => rw [hf] at h; cases h
  | ok r =>
    have key := foldlM_inv (buildTrack env o true)
      (fun pre st => ∃ new, st.1.pyg = b.pyg ++ new ∧ List.Forall₂ (GoodGraph env o) (songChords env o pre) new) (by
        rintro pre a ⟨s1, s2⟩ s' ⟨new, hn, hq⟩ ha
        obtain ⟨new2, hn2, hq2⟩ := buildTrack_graphs env o s1 s2 s' a ha
        refine ⟨new ++ new2, by rw [hn2, hn, List.append_assoc], ?_⟩
        rw [songChords_append]
        exact List.rel_append hq hq2) tracks [] (b, none) r ⟨[], by simp, List.Forall₂.nil⟩ hf
    obtain ⟨b1, large⟩ := r
    rw [List.nil_append] at key
    rw [hf] at h
    simp only [bind, Except.bind, if_true] at h
    cases large with
    | none => cases h; exact key
    | some g => cases h; exact key

/-! ### Labels -/

/-- What the passes keep: tables of all chords met so far. -/
structure LogInv (env : PyEnv) (log : List Int) (t : Tables) : Prop where
  inv : TInv env t
  keys : dkeys t.hashToNotes = firstSeen log

theorem LogInv.index {env : PyEnv} {log : List Int} {t : Tables} (hl : LogInv env log t) (h : Int) (hm : h ∈ log) :
    dget t.hashToIndex h = some (classNumber log h) := by
  rw [hl.inv.h2i, dget_zipIdx _ hl.inv.nodup, hl.keys]
  unfold classNumber
  have hm' := (mem_firstSeen log h).2 hm
  refine ⟨by omega, ?_⟩
  have := List.idxOf_lt_length_iff.2 hm'
  rw [Nat.add_sub_cancel, List.getElem?_eq_getElem this]
  simp

theorem LogInv.registers {env : PyEnv} {log : List Int} {t : Tables} (hl : LogInv env log t) (cs : List (Finset Int)) :
    LogInv env (log ++ cs.map env.hashSet) (cs.foldl (fun t c => t.register env c) t) := by
  refine ⟨(tinv_fold env cs t hl.inv).1, ?_⟩
  rw [registers_keys, hl.keys, firstSeen_foldl]

theorem LogInv.label {env : PyEnv} {log : List Int} {t : Tables} (hl : LogInv env log t) (skip : Bool) (g : PygData)
    (hm : ∀ h ∈ g.nodeHash, h ∈ log) :
    labelGraph t skip g = .ok { g with label := if skip then none else some (g.nodeHash.map (classNumber log)), y := some (g.nodeHash.map (classNumber log)) } := by
  unfold labelGraph
  have : ∀ l : List Int, (∀ h ∈ l, h ∈ log) → l.mapM (fun h => match dget t.hashToIndex h with
      | some i => (.ok i : Py Nat)
      | none => .error .key) = .ok (l.map (classNumber log)) := by
    intro l
    induction l with
    | nil => intro _; rfl
    | cons a l ih =>
      intro h
      rw [List.mapM_cons, hl.index a (h a List.mem_cons_self), ih (fun x hx => h x (List.mem_cons_of_mem _ hx))]
      rfl
  exact congrArg (fun r : Py (List Nat) => Except.bind r (fun idx : List Nat =>
    (Except.ok { g with label := if skip then none else some idx, y := some idx } : Py PygData))) (this _ hm)

theorem graphs_log {env : PyEnv} {log : List Int} {b : Builder} (hl : LogInv env log b.tables) (skip : Bool)
    (hm : ∀ g, b.pyg.head? = some g → ∀ h ∈ g.nodeHash, h ∈ log) :
    graphs b skip = if log = [] then .error .value else .ok (b.pyg.head?.toList.map (fun g =>
      { g with label := if skip then none else some (g.nodeHash.map (classNumber log)), y := some (g.nodeHash.map (classNumber log)) }),
      { b with pyg := [], sub := if b.pyg = [] then b.sub else [] }) := by
  have hnil : b.tables.hashToNotes = [] ↔ log = [] := by
    have := hl.keys
    rw [← firstSeen_eq_nil log, ← this]
    unfold dkeys
    rw [List.map_eq_nil_iff]
  unfold graphs
  by_cases h0 : log = []
  · rw [if_pos (hnil.2 h0), if_pos h0]
  · rw [if_neg (fun h => h0 (hnil.1 h)), if_neg h0]
    cases hp : b.pyg with
    | nil => simp [graphsLoop, bind, Except.bind]
    | cons g rest =>
      have hlab := hl.label skip g (hm g (by rw [hp]; rfl))
      have : ∀ fuel, graphsLoop b.tables skip fuel (0 + 1) [] = .ok ([], []) := by
        intro fuel; cases fuel <;> rfl
      simp [graphsLoop, bind, Except.bind, hlab, this]

/-! ### The first pass -/

/-- The graph of a song as the dataset holds it. -/
structure SongGraph (env : PyEnv) (o : BuildOpts) (log : List Int) (cs : List Int) (d : PygData) : Prop where
  nodes : d.nodeHash = cs
  rows : d.attrs.length = d.nodeHash.length
  weights : d.weight.length = d.edgeIndex.length
  ends : ∀ e ∈ d.edgeIndex, e.1 < d.nodeHash.length ∧ e.2 < d.nodeHash.length
  labels : d.y = some (d.nodeHash.map (classNumber log))
  known : ∀ h ∈ d.nodeHash, h ∈ log

/-- The masks of the graphs kept: the k-th with the k-th permutation. -/
def maskAll (o : DataOpts) (rnd : Nat → Nat → List Nat) (gs : List PygData) : List MaskedData :=
  gs.zipIdx.map (fun p => ⟨p.1, if o.split then some (splitMasks o.train o.val p.1.attrs.length (rnd p.2 p.1.attrs.length)) else none⟩)

theorem maskAll_length (o : DataOpts) (rnd : Nat → Nat → List Nat) (gs : List PygData) : (maskAll o rnd gs).length = gs.length := by
  unfold maskAll; simp

theorem addMasked_all (o : DataOpts) (keep : PygData → Bool) (rnd : Nat → Nat → List Nat) (gs : List PygData) (g : PygData) :
    addMasked o keep rnd (maskAll o rnd (gs.filter keep)) g = maskAll o rnd ((gs ++ [g]).filter keep) := by
  unfold addMasked
  rw [List.filter_append]
  by_cases hk : keep g = true
  · rw [if_pos hk, List.filter_cons_of_pos hk, List.filter_nil, maskAll_length]
    unfold maskAll
    rw [List.zipIdx_append, List.map_append]
    simp
  · rw [if_neg hk, List.filter_cons_of_neg hk, List.filter_nil, List.append_nil]

theorem SongGraph.later {env : PyEnv} {o : BuildOpts} {log cs : List Int} {d : PygData} (h : SongGraph env o log cs d) (more : List Int) :
    SongGraph env o (log ++ more) cs d := by
  refine ⟨h.nodes, h.rows, h.weights, h.ends, ?_, fun x hx => List.mem_append_left _ (h.known x hx)⟩
  rw [h.labels]
  congr 1
  refine List.map_congr_left ?_
  intro x hx
  exact (classNumber_append log more x (h.known x hx)).symm

theorem chordLog_append (env : PyEnv) (o : BuildOpts) (a b : List (List MSeq)) : chordLog env o (a ++ b) = chordLog env o a ++ chordLog env o b := by
  unfold chordLog; rw [List.flatMap_append]

/-- What the first pass has done after some files. -/
structure PassInv (env : PyEnv) (o : DataOpts) (keep : PygData → Bool) (rnd : Nat → Nat → List Nat) (files : List (Py (List MSeq)))
    (st : Builder × List MaskedData) : Prop where
  log : LogInv env (chordLog env o.build (songsOf files)) st.1.tables
  none : st.1.pyg = []
  data : ∃ gs, st.2 = maskAll o rnd (gs.filter keep) ∧
    List.Forall₂ (SongGraph env o.build (chordLog env o.build (songsOf files))) ((songsOf files).filterMap (graphChords env o.build)) gs

theorem instFile_inv (env : PyEnv) (o : DataOpts) (keep : PygData → Bool) (rnd : Nat → Nat → List Nat) (files : List (Py (List MSeq)))
    (st st' : Builder × List MaskedData) (f : Py (List MSeq)) (inv : PassInv env o keep rnd files st)
    (h : instFile env o keep rnd st f = .ok st') : PassInv env o keep rnd (files ++ [f]) st' := by
  have herr : ∀ e, songsOf (files ++ [.error e]) = songsOf files := by
    intro e; unfold songsOf; rw [List.filterMap_append]; simp
  have hok : ∀ t, songsOf (files ++ [.ok t]) = songsOf files ++ [t] := by
    intro t; unfold songsOf; rw [List.filterMap_append]; rfl
  cases f with
  | error e =>
    have : st' = st := by
      unfold instFile at h
      cases e <;> cases h
      rfl
    subst this
    refine ⟨?_, inv.none, ?_⟩
    · rw [herr]; exact inv.log
    · rw [herr]; exact inv.data
  | ok tracks =>
    unfold instFile at h
    simp only [] at h
    cases hb : build env st.1 tracks o.build true with
    | error e => rw [hb] at h; cases h
    | ok b =>
      rw [hb] at h
      dsimp only [bind, Except.bind] at h
      have hlog' : chordLog env o.build (songsOf (files ++ [.ok tracks])) =
          chordLog env o.build (songsOf files) ++ (songChords env o.build tracks).flatten := by
        rw [hok, chordLog_append]
        unfold chordLog
        simp
      have hlb : LogInv env (chordLog env o.build (songsOf (files ++ [.ok tracks]))) b.tables := by
        rw [hlog', ← usedSets_hash, build_registers env o.build true st.1 b tracks hb]
        exact inv.log.registers _
      obtain ⟨new, hn, hq⟩ := build_graphs env o.build st.1 b tracks hb
      rw [inv.none, List.nil_append] at hn
      obtain ⟨gs, hgs, hall⟩ := inv.data
      have hold : List.Forall₂ (SongGraph env o.build (chordLog env o.build (songsOf (files ++ [.ok tracks]))))
          ((songsOf files).filterMap (graphChords env o.build)) gs := by
        rw [hlog']
        exact hall.imp (fun c d hcd => hcd.later _)
      have hfm : (songsOf (files ++ [.ok tracks])).filterMap (graphChords env o.build) =
          (songsOf files).filterMap (graphChords env o.build) ++ (graphChords env o.build tracks).toList := by
        rw [hok, List.filterMap_append]
        congr 1
      have hhead : ∀ g, b.pyg.head? = some g → ∀ x ∈ g.nodeHash, x ∈ chordLog env o.build (songsOf (files ++ [.ok tracks])) := by
        intro g hg x hx
        rw [hn] at hg
        rw [hlog']
        generalize songChords env o.build tracks = sc at hq
        cases hq with
        | nil => cases hg
        | cons hcd _ =>
          cases hg
          rw [hcd.nodes, mem_firstSeen] at hx
          exact List.mem_append_right _ (by rw [List.flatten_cons]; exact List.mem_append_left _ hx)
      rw [graphs_log hlb o.skipLabel hhead] at h
      by_cases hnil : chordLog env o.build (songsOf (files ++ [.ok tracks])) = []
      · rw [if_pos hnil] at h; cases h
      rw [if_neg hnil] at h
      cases h
      refine ⟨hlb, rfl, ?_⟩
      rw [hfm]
      have hgc : graphChords env o.build tracks = (songChords env o.build tracks).head?.map firstSeen := rfl
      rw [hgc]
      rw [hn] at hhead ⊢
      clear hgc hfm hlog' hlb
      generalize songChords env o.build tracks = sc at hq ⊢
      cases hq with
      | nil =>
        refine ⟨gs, ?_, ?_⟩
        · simpa using hgs
        · simpa using hold
      | cons hcd htl =>
        rename_i c d cs ds
        refine ⟨gs ++ [{ d with label := if o.skipLabel then none else some (d.nodeHash.map (classNumber (chordLog env o.build (songsOf (files ++ [.ok tracks])))))
                                y := some (d.nodeHash.map (classNumber (chordLog env o.build (songsOf (files ++ [.ok tracks]))))) }], ?_, ?_⟩
        · simp only [List.head?_cons, Option.toList_some, List.map_cons, List.map_nil, List.foldl_cons, List.foldl_nil]
          rw [hgs]
          exact addMasked_all o keep rnd gs _
        · refine List.rel_append hold ?_
          simp only [List.head?_cons, Option.map_some, Option.toList_some]
          exact List.Forall₂.cons ⟨hcd.nodes, hcd.rows, hcd.weights, hcd.ends, rfl, hhead d rfl⟩ List.Forall₂.nil

theorem instPass_inv (env : PyEnv) (o : DataOpts) (keep : PygData → Bool) (rnd : Nat → Nat → List Nat) (files : List (Py (List MSeq)))
    (st : Builder × List MaskedData) (h : instPass env o keep rnd files (⟨Tables.empty, [], []⟩, []) = .ok st) : PassInv env o keep rnd files st := by
  have := foldlM_inv (instFile env o keep rnd) (fun pre st => PassInv env o keep rnd pre st)
    (fun pre a s s' hs ha => instFile_inv env o keep rnd pre s s' a hs ha) files [] (⟨Tables.empty, [], []⟩, []) st
    ⟨⟨tinv_empty env, rfl⟩, rfl, [], rfl, List.Forall₂.nil⟩ h
  rwa [List.nil_append] at this

end NGC
