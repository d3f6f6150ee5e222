import Verif.PipelineProps
import Verif.ExtraProps

/-! Properties C148, C149 (continued): when processing succeeds, and what it yields. -/

namespace NGC

open Spec

/-! ### No KeyError from building -/

theorem foldlM_ne {α σ : Type} (f : σ → α → Py σ) (e : Err) (h : ∀ s a, f s a ≠ .error e) (l : List α) (s : σ) : l.foldlM f s ≠ .error e := by
  induction l generalizing s with
  | nil => intro hc; cases hc
  | cons a l ih =>
    rw [List.foldlM_cons]
    cases hf : f s a with
    | error e' =>
      intro hc
      have : e' = e := by cases hc; rfl
      exact h s a (by rw [hf, this])
    | ok s' => exact ih s'

theorem computeData_no_key (env : PyEnv) (s : MSeq) (tol : ℚ) (fs auto : Bool) : computeData env s tol fs auto ≠ .error .key := by
  have hstep : ∀ t : ℚ, ∀ st n, groupStep env t auto st n ≠ .error .key := by
    intro t st n
    unfold groupStep
    intro hc
    by_cases h1 : eligible n = true
    · rw [if_pos h1] at hc
      by_cases h2 : n.start < 0
      · rw [if_pos h2] at hc; cases hc
      · rw [if_neg h2] at hc
        by_cases h3 : adjTime t auto n.start < 0
        · rw [if_pos h3] at hc; cases hc
        · rw [if_neg h3] at hc; cases hc
    · rw [if_neg h1] at hc; cases hc
  unfold computeData
  dsimp only
  generalize (if auto = true then computeTolerance s else tol) = t
  intro hc
  cases hf : s.notes.foldlM (groupStep env t auto) ([], 0) with
  | error e =>
    rw [hf] at hc
    have : e = .key := by cases hc; rfl
    exact foldlM_ne _ _ (hstep t) _ _ (by rw [hf, this])
  | ok r => rw [hf] at hc; cases hc

theorem createTensor_no_key (ty : AttrType) (ps : List Int) (vel : Option (List ℚ)) (size classes : Nat) : createTensor ty ps vel size classes ≠ .error .key := by
  unfold createTensor
  intro hc
  cases ty with
  | tensor =>
    cases vel with
    | none => cases hc
    | some v =>
      simp only [] at hc
      split at hc
      · cases hc
      split at hc
      · cases hc
      split at hc <;> cases hc
  | oneHot =>
    simp only [] at hc
    unfold oneHot at hc
    split at hc
    · cases vel with
      | none => cases hc
      | some v =>
        simp only [bind, Except.bind] at hc
        split at hc <;> cases hc
    · cases hc

theorem chordStep_no_key (env : PyEnv) (o : BuildOpts) (ns : List Note) (st : BState) (c : Finset Int) : chordStep env o ns st c ≠ .error .key := by
  unfold chordStep
  have hr : ∀ vs : List ℚ, rescaleVelocities vs ≠ .error .key := by
    intro vs hc
    match vs with
    | [] => cases hc
    | [v] => cases hc
    | v :: w :: rest => cases hc
  intro hc
  by_cases hv : o.velocity = true
  · rw [if_pos hv] at hc
    cases h1 : rescaleVelocities (groupVelocities env ns c) with
    | error e =>
      rw [h1] at hc
      have : e = .key := by cases hc; rfl
      exact hr _ (by rw [h1, this])
    | ok v =>
      rw [h1] at hc
      simp only [Except.map, bind, Except.bind] at hc
      cases h2 : createTensor o.ty (env.iter c) (some v) o.size.toNat 127 with
      | error e =>
        rw [h2] at hc
        have : e = .key := by cases hc; rfl
        exact createTensor_no_key _ _ _ _ _ (by rw [h2, this])
      | ok x => rw [h2] at hc; cases hc
  · rw [if_neg hv] at hc
    simp only [bind, Except.bind] at hc
    cases h2 : createTensor o.ty (env.iter c) none o.size.toNat 127 with
    | error e =>
      rw [h2] at hc
      have : e = .key := by cases hc; rfl
      exact createTensor_no_key _ _ _ _ _ (by rw [h2, this])
    | ok x => rw [h2] at hc; cases hc

theorem buildSequence_no_key (env : PyEnv) (t : Tables) (s : MSeq) (o : BuildOpts) (g : Option MGraph) : buildSequence env t s o g ≠ .error .key := by
  have hloop : ∀ gs st, buildLoop env o gs st ≠ .error .key := by
    intro gs st
    rw [buildLoop_flat]
    exact foldlM_ne _ _ (fun (s : BState) (p : List Note × Finset Int) => chordStep_no_key env o p.1 s p.2) _ _
  unfold buildSequence
  intro hc
  split at hc
  · cases hc
  cases hd : computeData env s o.tol o.filterSingle true with
  | error e =>
    rw [hd] at hc
    have : e = .key := by cases hc; rfl
    exact computeData_no_key _ _ _ _ _ (by rw [hd, this])
  | ok r =>
    obtain ⟨data, m⟩ := r
    rw [hd] at hc
    simp only [bind, Except.bind] at hc
    split at hc
    · cases hc
    cases g with
    | none =>
      simp only [] at hc
      cases hb : buildLoop env o (orderedGroups data) ⟨t, (none : Option MGraph).getD DiGraph.empty, none⟩ with
      | error e =>
        rw [hb] at hc
        have : e = .key := by cases hc; rfl
        exact hloop _ _ (by rw [hb, this])
      | ok r => rw [hb] at hc; cases hc
    | some g0 =>
      simp only [] at hc
      cases hl : (dkeys g0.nodes).getLast? with
      | none => rw [hl] at hc; cases hc
      | some l =>
        rw [hl] at hc
        simp only [] at hc
        cases hb : buildLoop env o (orderedGroups data) ⟨t, (some g0).getD DiGraph.empty, some l⟩ with
        | error e =>
          rw [hb] at hc
          have : e = .key := by cases hc; rfl
          exact hloop _ _ (by rw [hb, this])
        | ok r => rw [hb] at hc; cases hc

theorem fromNetworkx_no_key (g : MGraph) : fromNetworkx g ≠ .error .key := by
  intro hc
  by_cases h : ∀ p ∈ g.nodes, p.2.nodeHash ≠ none ∧ p.2.attr ≠ none
  · obtain ⟨d, hd⟩ := (C116_conversion g).1 h
    rw [hd] at hc; cases hc
  · rw [(C116_conversion g).2 h] at hc; cases hc

/-- `build` never raises KeyError. -/
theorem build_no_key (env : PyEnv) (b : Builder) (tracks : List MSeq) (o : BuildOpts) (p : Bool) : build env b tracks o p ≠ .error .key := by
  have htrack : ∀ st s, buildTrack env o p st s ≠ .error .key := by
    intro st s
    unfold buildTrack
    intro hc
    split at hc
    · cases hc
    split at hc
    · cases hc
    cases hb : buildSequence env st.1.tables s o (if p then none else st.2) with
    | error e =>
      rw [hb] at hc
      have : e = .key := by cases hc; rfl
      exact buildSequence_no_key _ _ _ _ _ (by rw [hb, this])
    | ok r =>
      rw [hb] at hc
      simp only [bind, Except.bind] at hc
      split at hc
      · cases hc
      split at hc
      · cases hc
      split at hc
      · cases hf : fromNetworkx r.2 with
        | error e =>
          rw [hf] at hc
          have : e = .key := by cases hc; rfl
          exact fromNetworkx_no_key _ (by rw [hf, this])
        | ok d => rw [hf] at hc; cases hc
      · cases hc
  unfold build
  intro hc
  cases hf : tracks.foldlM (buildTrack env o p) (b, none) with
  | error e =>
    rw [hf] at hc
    have : e = .key := by cases hc; rfl
    exact foldlM_ne _ _ htrack _ _ (by rw [hf, this])
  | ok r =>
    obtain ⟨b1, large⟩ := r
    rw [hf] at hc
    simp only [bind, Except.bind] at hc
    cases large with
    | none => cases hc
    | some g =>
      simp only [] at hc
      split at hc
      · cases hc
      cases hf : fromNetworkx g with
      | error e =>
        rw [hf] at hc
        have : e = .key := by cases hc; rfl
        exact fromNetworkx_no_key _ (by rw [hf, this])
      | ok d => rw [hf] at hc; cases hc

/-- `graphs` after any history of per-instrument builds never raises KeyError. -/
theorem graphs_no_key {env : PyEnv} {b : Builder} (inv : BuilderInv env b) (skip : Bool) : graphs b skip ≠ .error .key := by
  intro hc
  have hlab : ∀ g ∈ b.pyg, ∃ y, labelGraph b.tables skip g = .ok y := by
    intro g hg
    have : ∀ l : List Int, (∀ h ∈ l, ∃ i, dget b.tables.hashToIndex h = some i) → ∃ r, l.mapM (fun h => match dget b.tables.hashToIndex h with
        | some i => (.ok i : Py Nat)
        | none => .error .key) = .ok r := by
      intro l
      induction l with
      | nil => intro _; exact ⟨[], rfl⟩
      | cons a l ih =>
        intro h
        obtain ⟨i, hi⟩ := h a List.mem_cons_self
        obtain ⟨r, hr⟩ := ih (fun x hx => h x (List.mem_cons_of_mem _ hx))
        refine ⟨i :: r, ?_⟩
        rw [List.mapM_cons, hi, hr]
        rfl
    obtain ⟨r, hr⟩ := this g.nodeHash (inv.known g hg)
    exact ⟨_, congrArg (fun r : Py (List Nat) => Except.bind r (fun idx : List Nat =>
      (Except.ok { g with label := if skip then none else some idx, y := some idx } : Py PygData))) hr⟩
  unfold graphs at hc
  split at hc
  · cases hc
  cases hp : b.pyg with
  | nil => rw [hp] at hc; cases hc
  | cons g rest =>
    obtain ⟨y, hy⟩ := hlab g (by rw [hp]; exact List.mem_cons_self)
    have : ∀ fuel, graphsLoop b.tables skip fuel (0 + 1) [] = .ok ([], []) := by
      intro fuel; cases fuel <;> rfl
    rw [hp] at hc
    simp [graphsLoop, bind, Except.bind, hy, this] at hc

/-! ### Success -/

namespace Spec

/-- A track that can be built: what sounds has a start from 0 and a MIDI pitch. -/
def CanBuild (s : MSeq) : Prop := ∀ n ∈ s.notes, sounding n = true → 0 ≤ n.start ∧ 0 ≤ n.pitch

end Spec

theorem group_notes (env : PyEnv) (s : MSeq) (tol : ℚ) (fs auto : Bool) (d : List (Int × List Note)) (m : Nat)
    (h : computeData env s tol fs auto = .ok (d, m)) : ∀ ns ∈ orderedGroups d, ns ≠ [] ∧ ∀ n ∈ ns, n ∈ s.notes ∧ sounding n = true := by
  have hbase : ∃ d0, computeData env s tol false auto = .ok (d0, m) ∧ ∀ p ∈ d, p ∈ d0 := by
    cases fs with
    | false => exact ⟨d, h, fun p hp => hp⟩
    | true =>
      cases hc : computeData env s tol false auto with
      | error e =>
        exfalso
        have h1 := (C45_raises env s tol true auto)
        have h2 := (C45_raises env s tol false auto)
        have h3 : raises (computeData env s tol true auto) := h1.2 (h2.1 ⟨e, hc⟩)
        obtain ⟨e', he'⟩ := h3
        rw [h] at he'; cases he'
      | ok r =>
        obtain ⟨d0, m0⟩ := r
        have := C45_filter_single env s tol auto d0 m0 hc
        rw [h] at this
        cases this
        exact ⟨d0, rfl, fun p hp => (List.mem_filter.1 hp).1⟩
  obtain ⟨d0, hd0, hsub⟩ := hbase
  obtain ⟨_, hp, _⟩ := C45_partition env s tol auto d0 m hd0
  intro ns hns
  unfold orderedGroups at hns
  obtain ⟨⟨k, ns'⟩, hm, rfl⟩ := List.mem_map.1 hns
  have hmd := (sortByKey_perm _ d).mem_iff.1 hm
  obtain ⟨h1, h2⟩ := hp k ns' (hsub _ hmd)
  refine ⟨h1, ?_⟩
  intro n hn
  simp only [] at hn
  rw [h2] at hn
  exact List.mem_filter.1 (List.mem_filter.1 hn).1

theorem chordStep_total (env : PyEnv) (henv : env.IterOk) (o : BuildOpts) (hs : 0 < o.size) (hty : o.ty = .tensor) (ns : List Note) (hne : ns ≠ [])
    (hp : ∀ n ∈ ns, 0 ≤ n.pitch) (c : Finset Int) (hc : c ∈ subGroups env o.size.toNat ns) (st : BState) : ∃ st', chordStep env o ns st c = .ok st' := by
  obtain ⟨h1, _, h3, _⟩ := C54_split env henv o.size.toNat (by omega) ns hne
  obtain ⟨hcn, hcc⟩ := h1 c hc
  have hlen : (env.iter c).length = c.card := by
    obtain ⟨hnd, hmem⟩ := henv c
    rw [← List.toFinset_card_of_nodup hnd]
    congr 1
    ext x
    rw [List.mem_toFinset]
    exact hmem x
  unfold chordStep
  rw [hty]
  by_cases hv : o.velocity = true
  · rw [if_pos hv]
    have hgl : (groupVelocities env ns c).length = c.card := by
      unfold groupVelocities; rw [List.length_map, hlen]
    have hgne : groupVelocities env ns c ≠ [] := by
      intro h0
      rw [h0] at hgl
      have := Finset.card_pos.2 hcn
      simp at hgl
      omega
    obtain ⟨f, hf, _, hf2⟩ := (C46_rescale (groupVelocities env ns c) 32 127 (by norm_num) (by norm_num) (by norm_num)).2 hgne
    have hf' : rescaleVelocities (groupVelocities env ns c) = .ok ((groupVelocities env ns c).map f) := by
      have : rescaleVelocities (groupVelocities env ns c) = rescaleVelocities (groupVelocities env ns c) ((32 : Int) : ℚ) ((127 : Int) : ℚ) := by norm_num
      rw [this]; exact hf
    have hten := C51_velocity_rows (env.iter c) ((groupVelocities env ns c).map f) o.size.toNat 127
      (by
        intro p hp'
        obtain ⟨n, hn, rfl⟩ := (h3 p).1 ⟨c, hc, ((henv c).2 p).1 hp'⟩
        exact hp n hn)
      (by
        intro v hv'
        obtain ⟨a, _, rfl⟩ := List.mem_map.1 hv'
        exact (hf2 a).1)
      (by rw [List.length_map, hgl, hlen]) (by rw [hlen]; exact hcc)
    rw [hf']
    simp only [Except.map, bind, Except.bind]
    rw [hten]
    exact ⟨_, rfl⟩
  · rw [if_neg hv]
    obtain ⟨l, hl, _⟩ := C51_pitch_vector (env.iter c) o.size.toNat 127
    simp only [bind, Except.bind]
    rw [hl]
    exact ⟨_, rfl⟩

/-- A graph that can be continued and converted, with chords of `ks` only. -/
structure FullGraph (ks : List Int) (g : MGraph) : Prop where
  nodup : (dkeys g.nodes).Nodup
  attrs : ∀ k a, dget g.nodes k = some a → a.attr ≠ none ∧ a.nodeHash = some k
  ends : ∀ u v, dget g.edges (u, v) ≠ none → u ∈ dkeys g.nodes ∧ v ∈ dkeys g.nodes
  known : ∀ k ∈ dkeys g.nodes, k ∈ ks

theorem fullGraph_empty (ks : List Int) : FullGraph ks DiGraph.empty :=
  ⟨by simp [DiGraph.empty, dkeys], (by intro k a h; cases h), (by intro u v h; exact absurd rfl h), by simp [DiGraph.empty, dkeys]⟩

theorem FullGraph.mono {ks ks' : List Int} {g : MGraph} (h : FullGraph ks g) (hk : ∀ k ∈ ks, k ∈ ks') : FullGraph ks' g :=
  ⟨h.nodup, h.attrs, h.ends, fun k hm => hk k (h.known k hm)⟩

theorem addLink_full (ks : List Int) (g : MGraph) (l h : Int) (a : NodeAttr) (hg : FullGraph ks g) (hl : l = h ∨ l ∈ dkeys g.nodes)
    (ha : a.attr ≠ none ∧ a.nodeHash = some h) (hks : h ∈ ks) :
    FullGraph ks ((g.addNode h a).addEdge .none l h 1) ∧ h ∈ dkeys ((g.addNode h a).addEdge .none l h 1).nodes := by
  have hm : h ∈ dkeys (g.addNode h a).nodes := by
    unfold DiGraph.addNode; simp only []; rw [mem_dkeys_dset]; exact Or.inl rfl
  have hlm : l ∈ dkeys (g.addNode h a).nodes := by
    unfold DiGraph.addNode; simp only []; rw [mem_dkeys_dset]; exact hl
  rw [addEdge_of_mem _ _ _ _ _ hlm hm]
  refine ⟨⟨?_, ?_, ?_, ?_⟩, hm⟩
  · exact dset_nodup _ _ _ hg.nodup
  · intro k b hb
    unfold DiGraph.addNode at hb
    simp only [] at hb
    rw [dget_dset] at hb
    split at hb
    · rename_i he
      cases hb; subst he; exact ha
    · exact hg.attrs k b hb
  · intro u v huv
    simp only [] at huv
    rw [dget_dset] at huv
    by_cases he : (l, h) = (u, v)
    · cases he; exact ⟨hlm, hm⟩
    · rw [if_neg he] at huv
      have := hg.ends u v huv
      unfold DiGraph.addNode
      simp only []
      rw [mem_dkeys_dset, mem_dkeys_dset]
      exact ⟨Or.inr this.1, Or.inr this.2⟩
  · intro k hk
    unfold DiGraph.addNode at hk
    simp only [] at hk
    rw [mem_dkeys_dset] at hk
    rcases hk with rfl | hk
    · exact hks
    · exact hg.known k hk

theorem bump_full (ks : List Int) (g : MGraph) (e : Int × Int) (w w' : ℚ) (hg : FullGraph ks g) (he : dget g.edges e = some w) :
    FullGraph ks { g with edges := dset g.edges e w' } := by
  refine ⟨hg.nodup, hg.attrs, ?_, hg.known⟩
  intro u v huv
  simp only [] at huv
  rw [dget_dset] at huv
  by_cases h : e = (u, v)
  · subst h
    exact hg.ends u v (by rw [he]; simp)
  · rw [if_neg h] at huv
    exact hg.ends u v huv

theorem linkChord_full (ks : List Int) (g : MGraph) (last : Option Int) (h : Int) (x : Tens) (names : Finset String) (hg : FullGraph ks g)
    (hl : ∀ l, last = some l → l ∈ dkeys g.nodes) (hks : h ∈ ks) :
    FullGraph ks (linkChord g last h x names) ∧ h ∈ dkeys (linkChord g last h x names).nodes := by
  unfold linkChord
  cases last with
  | none => exact addLink_full ks g h h _ hg (Or.inl rfl) ⟨by simp, by simp⟩ hks
  | some l =>
    simp only []
    cases h1 : dget g.edges (h, l) with
    | some w => exact ⟨bump_full ks g (h, l) w _ hg h1, (hg.ends h l (by rw [h1]; simp)).1⟩
    | none =>
      simp only []
      cases h2 : dget g.edges (l, h) with
      | some w => exact ⟨bump_full ks g (l, h) w _ hg h2, (hg.ends l h (by rw [h2]; simp)).2⟩
      | none => exact addLink_full ks g l h _ hg (Or.inr (hl l rfl)) ⟨by simp, by simp⟩ hks

theorem nodes_ne_of_mem {g : MGraph} {k : Int} (h : k ∈ dkeys g.nodes) : g.nodes ≠ [] := by
  intro h0; rw [h0] at h; cases h

theorem buildLoop_total (env : PyEnv) (henv : env.IterOk) (o : BuildOpts) (hs : 0 < o.size) (hty : o.ty = .tensor) (ks : List Int)
    (ps : List (List Note × Finset Int)) (hps : ∀ p ∈ ps, p.1 ≠ [] ∧ (∀ n ∈ p.1, 0 ≤ n.pitch) ∧ p.2 ∈ subGroups env o.size.toNat p.1 ∧ env.hashSet p.2 ∈ ks)
    (st : BState) (hg : FullGraph ks st.graph) (hl : ∀ l, st.last = some l → l ∈ dkeys st.graph.nodes) :
    ∃ st', ps.foldlM (fun st p => chordStep env o p.1 st p.2) st = .ok st' ∧ FullGraph ks st'.graph ∧
      (st.graph.nodes ≠ [] ∨ ps ≠ [] → st'.graph.nodes ≠ []) := by
  induction ps generalizing st with
  | nil => exact ⟨st, rfl, hg, fun h => by simpa using h⟩
  | cons p ps ih =>
    obtain ⟨h1, h2, h3, h4⟩ := hps p List.mem_cons_self
    obtain ⟨st1, hst⟩ := chordStep_total env henv o hs hty p.1 h1 h2 p.2 h3 st
    obtain ⟨vel, x, _, _, _, rfl⟩ := chordStep_ok env o p.1 st st1 p.2 hst
    have hlf := linkChord_full ks st.graph st.last (env.hashSet p.2) x ((p.1.map (fun n => env.noteName n.pitch)).toFinset) hg hl h4
    generalize hG : linkChord st.graph st.last (env.hashSet p.2) x ((p.1.map (fun n => env.noteName n.pitch)).toFinset) = G at hlf hst
    rw [List.foldlM_cons, hst]
    obtain ⟨st', e1, e2, e3⟩ := ih (fun q hq => hps q (List.mem_cons_of_mem _ hq)) ⟨st.tables.register env p.2, G, some (env.hashSet p.2)⟩
      hlf.1 (by intro l hll; rw [← Option.some.inj hll]; exact hlf.2)
    exact ⟨st', e1, e2, fun _ => e3 (Or.inl (nodes_ne_of_mem hlf.2))⟩

theorem buildSequence_total (env : PyEnv) (henv : env.IterOk) (o : BuildOpts) (ho : o.ok = true) (hty : o.ty = .tensor) (s : MSeq) (hp : CanBuild s)
    (t : Tables) (g : Option MGraph) (hg : ∀ g0, g = some g0 → FullGraph (dkeys t.hashToNotes) g0 ∧ g0.nodes ≠ []) :
    ∃ t' g', buildSequence env t s o g = .ok (t', g') ∧ FullGraph (dkeys t'.hashToNotes) g' ∧
      (g ≠ none ∨ chordsOf env o s ≠ [] → g'.nodes ≠ []) := by
  have hsize : 0 < o.size := by
    simp only [BuildOpts.ok, Bool.and_eq_true, decide_eq_true_eq] at ho
    exact ho.1.1.1.1
  cases hd : computeData env s o.tol o.filterSingle true with
  | error e =>
    obtain ⟨n, hn, hs, hlt⟩ := (C45_raises env s o.tol o.filterSingle true).1 ⟨e, hd⟩
    exact absurd (hp n hn hs).1 (by linarith)
  | ok r =>
    obtain ⟨data, m⟩ := r
    have hgn := group_notes env s o.tol o.filterSingle true data m hd
    have hco : chordsOf env o s = visited env o.size.toNat data := by unfold chordsOf; rw [hd]
    have hks : ∀ k, k ∈ (chordsOf env o s).foldl addSeen (dkeys t.hashToNotes) ↔ k ∈ chordsOf env o s ∨ k ∈ dkeys t.hashToNotes := by
      intro k
      generalize dkeys t.hashToNotes = acc
      generalize chordsOf env o s = l
      induction l generalizing acc with
      | nil => simp
      | cons a l ih =>
        rw [List.foldl_cons, ih]
        unfold addSeen
        split
        · rename_i hm
          constructor
          · rintro (h | h)
            · exact Or.inl (List.mem_cons_of_mem _ h)
            · exact Or.inr h
          · rintro (h | h)
            · rcases List.mem_cons.1 h with rfl | h
              · exact Or.inr hm
              · exact Or.inl h
            · exact Or.inr h
        · simp only [List.mem_cons, List.mem_append, List.not_mem_nil, or_false]
          tauto
    have hfull : ∀ g0, FullGraph (dkeys t.hashToNotes) g0 → FullGraph ((chordsOf env o s).foldl addSeen (dkeys t.hashToNotes)) g0 :=
      fun g0 h => h.mono (fun k hk => (hks k).2 (Or.inr hk))
    have hps : ∀ p ∈ (orderedGroups data).flatMap (fun ns => (subGroups env o.size.toNat ns).map (fun c => (ns, c))),
        p.1 ≠ [] ∧ (∀ n ∈ p.1, 0 ≤ n.pitch) ∧ p.2 ∈ subGroups env o.size.toNat p.1 ∧ env.hashSet p.2 ∈ (chordsOf env o s).foldl addSeen (dkeys t.hashToNotes) := by
      intro p hpm
      obtain ⟨ns, hns, hpn⟩ := List.mem_flatMap.1 hpm
      obtain ⟨c, hc, rfl⟩ := List.mem_map.1 hpn
      obtain ⟨h1, h2⟩ := hgn ns hns
      refine ⟨h1, fun n hn => (hp n (h2 n hn).1 (h2 n hn).2).2, hc, (hks _).2 (Or.inl ?_)⟩
      rw [hco, ← flat_hashes]
      exact List.mem_map.2 ⟨(ns, c), hpm, rfl⟩
    have hpsne : chordsOf env o s ≠ [] → (orderedGroups data).flatMap (fun ns => (subGroups env o.size.toNat ns).map (fun c => (ns, c))) ≠ [] := by
      intro h h0
      rw [hco, ← flat_hashes, h0] at h
      exact h rfl
    have main : ∃ t' g', buildSequence env t s o g = .ok (t', g') ∧ FullGraph ((chordsOf env o s).foldl addSeen (dkeys t.hashToNotes)) g' ∧
        (g ≠ none ∨ chordsOf env o s ≠ [] → g'.nodes ≠ []) := by
      unfold buildSequence
      rw [ho, hd]
      simp only [Bool.not_true, Bool.false_eq_true, if_false, bind, Except.bind]
      by_cases hn : data = []
      · rw [if_pos hn]
        have hcn : chordsOf env o s = [] := by rw [hco, hn]; rfl
        cases g with
        | none => exact ⟨t, _, rfl, fullGraph_empty _, by rw [hcn]; simp⟩
        | some g0 => exact ⟨t, _, rfl, hfull g0 (hg g0 rfl).1, fun _ => (hg g0 rfl).2⟩
      · rw [if_neg hn]
        cases g with
        | none =>
          simp only [Option.getD_none]
          obtain ⟨st', h1, h2, h3⟩ := buildLoop_total env henv o hsize hty _ _ hps ⟨t, DiGraph.empty, none⟩ (fullGraph_empty _) (by intro l hl; cases hl)
          rw [← buildLoop_flat] at h1
          rw [h1]
          refine ⟨_, _, rfl, h2, ?_⟩
          rintro (h | h)
          · exact absurd rfl h
          · exact h3 (Or.inr (hpsne h))
        | some g0 =>
          obtain ⟨hf, hne⟩ := hg g0 rfl
          cases hl : (dkeys g0.nodes).getLast? with
          | none =>
            rw [List.getLast?_eq_none_iff] at hl
            unfold dkeys at hl
            exact absurd (List.map_eq_nil_iff.1 hl) hne
          | some l =>
            simp only [Option.getD_some, hl]
            obtain ⟨st', h1, h2, h3⟩ := buildLoop_total env henv o hsize hty _ _ hps ⟨t, g0, some l⟩ (hfull g0 hf) (by intro l' hl'; cases hl'; exact mem_of_getLast hl)
            rw [← buildLoop_flat] at h1
            rw [h1]
            exact ⟨_, _, rfl, h2, fun _ => h3 (Or.inl hne)⟩
    obtain ⟨t', g', hb, hf, hne⟩ := main
    refine ⟨t', g', hb, ?_, hne⟩
    rw [buildSequence_registers env t s o g t' g' hb, registers_keys, chordSets_hash]
    exact hf

theorem mapM_nodeHash (l : List (Int × NodeAttr)) (h : ∀ p ∈ l, p.2.nodeHash = some p.1) :
    l.mapM (fun p => needAttr p.2.nodeHash) = .ok (dkeys l) := by
  induction l with
  | nil => rfl
  | cons p l ih =>
    rw [List.mapM_cons, ih (fun q hq => h q (List.mem_cons_of_mem _ hq)), h p List.mem_cons_self]
    rfl

theorem fullGraph_convert (ks : List Int) (g : MGraph) (hg : FullGraph ks g) :
    (g.nodes.any (fun p => p.2.attr.isNone || p.2.nodeHash.isNone)) = false ∧ ∃ d, fromNetworkx g = .ok d ∧ d.nodeHash = dkeys g.nodes := by
  have h0 : ∀ p ∈ g.nodes, p.2.attr ≠ none ∧ p.2.nodeHash = some p.1 := by
    rintro ⟨k, a⟩ hp
    exact hg.attrs k a (dget_of_mem _ hg.nodup k a hp)
  have h : ∀ p ∈ g.nodes, p.2.nodeHash ≠ none ∧ p.2.attr ≠ none := fun p hp => ⟨by rw [(h0 p hp).2]; simp, (h0 p hp).1⟩
  constructor
  · rw [Bool.eq_false_iff]
    intro hc
    obtain ⟨p, hp, hpp⟩ := List.any_eq_true.1 hc
    have := h p hp
    rw [Bool.or_eq_true, Option.isNone_iff_eq_none, Option.isNone_iff_eq_none] at hpp
    rcases hpp with h1 | h1
    · exact this.2 h1
    · exact this.1 h1
  · obtain ⟨d, hd⟩ := (C116_conversion g).1 h
    refine ⟨d, hd, ?_⟩
    unfold fromNetworkx at hd
    rw [mapM_nodeHash g.nodes (fun p hp => (h0 p hp).2)] at hd
    cases h2 : g.nodes.mapM (fun p => needAttr p.2.attr) with
    | error e => rw [h2] at hd; cases hd
    | ok xs => rw [h2] at hd; cases hd; rfl

/-- What holds between the tracks of a song. -/
structure SongInv (o : BuildOpts) (b : Builder) (st : Builder × Option MGraph) : Prop where
  large : ∀ g0, st.2 = some g0 → FullGraph (dkeys st.1.tables.hashToNotes) g0 ∧ g0.nodes ≠ []
  keys : ∀ k ∈ dkeys b.tables.hashToNotes, k ∈ dkeys st.1.tables.hashToNotes

theorem buildTrack_total (env : PyEnv) (henv : env.IterOk) (o : BuildOpts) (ho : o.ok = true) (hty : o.ty = .tensor) (p : Bool) (s : MSeq)
    (hp : usable s = true → CanBuild s) (b : Builder) (st : Builder × Option MGraph) (hg : SongInv o b st) :
    ∃ r, buildTrack env o p st s = .ok r ∧ SongInv o b r ∧ (st.2 ≠ none → r.2 ≠ none) ∧
      (p = false → r.1.pyg = st.1.pyg ∧ (songChords env o [s] ≠ [] → r.2 ≠ none)) := by
  have hgrow : ∀ r, buildTrack env o p st s = .ok r → ∀ k ∈ dkeys st.1.tables.hashToNotes, k ∈ dkeys r.1.tables.hashToNotes := by
    intro r hr k hk
    rw [buildTrack_registers env o p st r s hr, registers_keys]
    obtain ⟨q, hq⟩ := foldl_addSeen_prefix ((usedSets env o s).map env.hashSet) (dkeys st.1.tables.hashToNotes)
    rw [hq]
    exact List.mem_append_left _ hk
  have huse : usable s ≠ true → songChords env o [s] = [] := by
    intro h; unfold songChords; rw [List.filter_cons_of_neg h]; rfl
  have main : ∃ r, buildTrack env o p st s = .ok r ∧ (∀ g0, r.2 = some g0 → FullGraph (dkeys r.1.tables.hashToNotes) g0 ∧ g0.nodes ≠ []) ∧
      (st.2 ≠ none → r.2 ≠ none) ∧ (p = false → r.1.pyg = st.1.pyg ∧ (songChords env o [s] ≠ [] → r.2 ≠ none)) := by
    by_cases hd : s.instr.isDrum = true
    · refine ⟨st, by unfold buildTrack; rw [if_pos hd], hg.large, id, fun _ => ⟨rfl, fun h => absurd (huse (by simp [usable, hd])) h⟩⟩
    by_cases h1 : s.notes.length = 1
    · refine ⟨st, by unfold buildTrack; rw [if_neg hd, if_pos h1], hg.large, id, fun _ => ⟨rfl, fun h => absurd (huse (by simp [usable, h1])) h⟩⟩
    have hu : usable s = true := by unfold usable; simp [hd, h1]
    obtain ⟨t, g, hb, hf, hne⟩ := buildSequence_total env henv o ho hty s (hp hu) st.1.tables (if p then none else st.2) (by
      intro g0 h0
      cases p with
      | true => cases h0
      | false => exact hg.large g0 h0)
    have hkt : ∀ k ∈ dkeys st.1.tables.hashToNotes, k ∈ dkeys t.hashToNotes := by
      intro k hk
      rw [buildSequence_registers env _ s o _ t g hb, registers_keys]
      obtain ⟨q, hq⟩ := foldl_addSeen_prefix ((chordSets env o s).map env.hashSet) (dkeys st.1.tables.hashToNotes)
      rw [hq]
      exact List.mem_append_left _ hk
    have hlarge : ∀ g0, st.2 = some g0 → FullGraph (dkeys t.hashToNotes) g0 ∧ g0.nodes ≠ [] :=
      fun g0 h0 => ⟨(hg.large g0 h0).1.mono hkt, (hg.large g0 h0).2⟩
    have hsc : songChords env o [s] ≠ [] → chordsOf env o s ≠ [] := by
      intro h h0
      apply h
      unfold songChords
      rw [List.filter_cons_of_pos hu, List.filter_nil, List.map_cons, List.map_nil, List.filter_cons_of_neg (by simpa using h0), List.filter_nil]
    unfold buildTrack
    rw [if_neg hd, if_neg h1, hb]
    simp only [bind, Except.bind]
    by_cases hn : g.nodes = []
    · rw [if_pos hn]
      refine ⟨_, rfl, hlarge, id, fun hpf => ⟨rfl, fun h => ?_⟩⟩
      exact absurd hn (hne (Or.inr (hsc h)))
    rw [if_neg hn]
    obtain ⟨ha, d, hdd, _⟩ := fullGraph_convert _ g hf
    rw [ha]
    simp only [Bool.false_eq_true, if_false]
    cases p with
    | true =>
      simp only [if_true]
      rw [hdd]
      exact ⟨_, rfl, hlarge, id, fun h => by cases h⟩
    | false =>
      simp only [Bool.false_eq_true, if_false]
      refine ⟨_, rfl, ?_, fun _ => by simp, fun _ => ⟨rfl, fun _ => by simp⟩⟩
      intro g0 h0; cases h0; exact ⟨hf, hn⟩
  obtain ⟨r, hr, h1, h2, h3⟩ := main
  exact ⟨r, hr, ⟨h1, fun k hk => hgrow r hr k (hg.keys k hk)⟩, h2, h3⟩

/-- Building a song of playable tracks always succeeds; as one graph it adds a graph of known chords if there are any. -/
theorem build_total (env : PyEnv) (henv : env.IterOk) (o : BuildOpts) (ho : o.ok = true) (hty : o.ty = .tensor) (p : Bool) (b : Builder) (tracks : List MSeq)
    (hp : ∀ s ∈ tracks, usable s = true → CanBuild s) : ∃ b', build env b tracks o p = .ok b' ∧
      (p = false → ∃ new, b'.pyg = b.pyg ++ new ∧ (songChords env o tracks ≠ [] → new ≠ []) ∧
        ∀ d ∈ new, ∀ h ∈ d.nodeHash, h ∈ dkeys b'.tables.hashToNotes) := by
  have key : ∀ (l : List MSeq), (∀ s ∈ l, usable s = true → CanBuild s) → ∀ st : Builder × Option MGraph, SongInv o b st →
      ∃ r, l.foldlM (buildTrack env o p) st = .ok r ∧ SongInv o b r ∧ (st.2 ≠ none → r.2 ≠ none) ∧
        (p = false → r.1.pyg = st.1.pyg ∧ (songChords env o l ≠ [] → r.2 ≠ none)) := by
    intro l
    induction l with
    | nil => intro _ st hst; exact ⟨st, rfl, hst, id, fun _ => ⟨rfl, fun h => absurd rfl h⟩⟩
    | cons s l ih =>
      intro hl st hst
      obtain ⟨r, hr, hr2, hr3, hr4⟩ := buildTrack_total env henv o ho hty p s (hl s List.mem_cons_self) b st hst
      obtain ⟨q, hq, hq2, hq3, hq4⟩ := ih (fun x hx => hl x (List.mem_cons_of_mem _ hx)) r hr2
      refine ⟨q, ?_, hq2, fun h => hq3 (hr3 h), ?_⟩
      · rw [List.foldlM_cons, hr]; exact hq
      · intro hpf
        refine ⟨(hq4 hpf).1.trans (hr4 hpf).1, ?_⟩
        have : s :: l = [s] ++ l := rfl
        rw [this, songChords_append]
        intro hne
        by_cases h1 : songChords env o [s] = []
        · rw [h1, List.nil_append] at hne
          exact (hq4 hpf).2 hne
        · exact hq3 ((hr4 hpf).2 h1)
  obtain ⟨⟨b1, large⟩, hr, hl, _, h4⟩ := key tracks hp (b, none) ⟨(by intro g0 h0; cases h0), fun k hk => hk⟩
  unfold build
  rw [hr]
  simp only [bind, Except.bind]
  cases large with
  | none =>
    refine ⟨_, rfl, fun hpf => ⟨[], by rw [List.append_nil]; exact (h4 hpf).1, ?_, by simp⟩⟩
    intro h; exact absurd rfl ((h4 hpf).2 h)
  | some g =>
    simp only []
    cases p with
    | true => exact ⟨_, rfl, fun h => by cases h⟩
    | false =>
      obtain ⟨_, d, hd, hdn⟩ := fullGraph_convert _ g (hl.large g rfl).1
      rw [hd]
      refine ⟨_, rfl, fun _ => ⟨[d], ?_, fun _ => by simp, ?_⟩⟩
      · have : b1.pyg = b.pyg := (h4 rfl).1
        simp only [this]
      · intro d' hd' h hh
        rw [List.mem_singleton] at hd'
        subst hd'
        rw [hdn] at hh
        exact (hl.large g rfl).1.known h hh

end NGC
