import Verif.PlotScript
import Verif.PipelineProps2
import Verif.FeatureProps

/-! Property theorems C198 (labels of nodes) and C199 (the plot script). -/

namespace NGC

namespace Spec

/-- `names` are the names of all notes of some group of notes of a track that start together, and the chord with hash `k` is
among the pitches of that group. -/
def NamesOfGroup (env : PyEnv) (tracks : List MSeq) (k : Int) (names : Finset String) : Prop :=
  ∃ s ∈ tracks, ∃ ns : List Note, ns ≠ [] ∧ (∀ n ∈ ns, n ∈ s.notes) ∧ (∀ x, x ∈ names ↔ ∃ n ∈ ns, env.noteName n.pitch = x) ∧
    ∃ c : Finset Int, env.hashSet c = k ∧ ∀ p ∈ c, ∃ n ∈ ns, n.pitch = p

/-- An edge into `k` from another node. -/
def Entered (g : MGraph) (k : Int) : Prop := ∃ l, l ≠ k ∧ g.hasEdge l k = true

end Spec

/-- What is known of the labels of a graph. -/
structure LabelInv (P : Int → Finset String → Prop) (g : MGraph) : Prop where
  node : ∀ k a, dget g.nodes k = some a →
    (a.label = some (.hash k) ∧ (dkeys g.nodes).head? = some k ∧ ¬ Spec.Entered g k) ∨
    (∃ S, a.label = some (.names S) ∧ P k S ∧ Spec.Entered g k)
  loop : ∀ k, (dkeys g.nodes).head? = some k → g.hasEdge k k = true
  ends : ∀ u v, g.hasEdge u v = true → u ∈ dkeys g.nodes ∧ v ∈ dkeys g.nodes
  nodup : (dkeys g.nodes).Nodup

theorem hasEdge_dset (g : MGraph) (u v u' v' : Int) (w : ℚ) :
    ({ g with edges := dset g.edges (u, v) w } : MGraph).hasEdge u' v' = true ↔ (u', v') = (u, v) ∨ g.hasEdge u' v' = true := by
  unfold DiGraph.hasEdge dhas
  simp only [dget_dset]
  by_cases h : (u, v) = (u', v')
  · simp [h]
  · rw [if_neg h]
    constructor
    · intro h1; exact Or.inr h1
    · rintro (h1 | h1)
      · exact absurd h1.symm h
      · exact h1

theorem labelInv_same (P : Int → Finset String → Prop) (g : MGraph) (u v : Int) (w w' : ℚ) (hi : LabelInv P g)
    (h : dget g.edges (u, v) = some w) : LabelInv P { g with edges := dset g.edges (u, v) w' } := by
  have he : ∀ a b, ({ g with edges := dset g.edges (u, v) w' } : MGraph).hasEdge a b = true ↔ g.hasEdge a b = true := by
    intro a b
    rw [hasEdge_dset]
    constructor
    · rintro (h1 | h1)
      · cases h1
        unfold DiGraph.hasEdge dhas
        rw [h]; rfl
      · exact h1
    · exact Or.inr
  have hent : ∀ k, Spec.Entered { g with edges := dset g.edges (u, v) w' } k ↔ Spec.Entered g k := by
    intro k
    unfold Spec.Entered
    simp only [he]
  refine ⟨?_, fun k hk => (he k k).2 (hi.loop k hk), fun a b hab => hi.ends a b ((he a b).1 hab), hi.nodup⟩
  intro k a hk
  rw [hent]
  exact hi.node k a hk

theorem labelInv_link (P : Int → Finset String → Prop) (g : MGraph) (last : Option Int) (h : Int) (attr : Tens) (names : Finset String)
    (hi : LabelInv P g) (hl : ∀ l, last = some l → l ∈ dkeys g.nodes) (h0 : last = none → g = DiGraph.empty) (hP : P h names) :
    LabelInv P (linkChord g last h attr names) ∧ h ∈ dkeys (linkChord g last h attr names).nodes := by
  cases last with
  | none =>
    rw [h0 rfl]
    have e : linkChord DiGraph.empty none h attr names = ⟨[(h, ⟨some attr, some (.hash h), some h⟩)], [((h, h), 1)]⟩ := by
      simp [linkChord, DiGraph.empty, DiGraph.addNode, DiGraph.addEdge, DiGraph.touch, dset, dhas, dget]
    rw [e]
    refine ⟨⟨?_, ?_, ?_, by simp [dkeys]⟩, by simp [dkeys]⟩
    · intro k a hk
      simp only [dget] at hk
      split at hk
      · rename_i hkk
        cases hk
        refine Or.inl ⟨by rw [← hkk], by simp [dkeys, ← hkk], ?_⟩
        rintro ⟨l, hne, hed⟩
        unfold DiGraph.hasEdge at hed
        rw [dhas_iff] at hed
        simp [dkeys] at hed
        exact hne (by rw [hed.1, ← hkk])
      · cases hk
    · intro k hk
      simp [dkeys] at hk
      subst hk
      simp [DiGraph.hasEdge, dhas, dget]
    · intro u v huv
      unfold DiGraph.hasEdge at huv
      rw [dhas_iff] at huv
      simp [dkeys] at huv
      simp [dkeys, huv]
  | some l =>
    have hlm := hl l rfl
    have he0 : ∀ u v w, dget g.edges (u, v) = some w → g.hasEdge u v = true := by
      intro u v w hw
      unfold DiGraph.hasEdge dhas
      rw [hw]; rfl
    simp only [linkChord]
    cases h1 : dget g.edges (h, l) with
    | some w => exact ⟨labelInv_same P g h l w _ hi h1, (hi.ends h l (he0 _ _ _ h1)).1⟩
    | none =>
      simp only []
      cases h2 : dget g.edges (l, h) with
      | some w => exact ⟨labelInv_same P g l h w _ hi h2, (hi.ends l h (he0 _ _ _ h2)).2⟩
      | none =>
        simp only []
        have hk1 : ∀ x, x ∈ dkeys (g.addNode h ⟨some attr, some (.names names), some h⟩).nodes ↔ x = h ∨ x ∈ dkeys g.nodes := by
          intro x
          unfold DiGraph.addNode
          exact mem_dkeys_dset _ _ _ _
        rw [addEdge_of_mem _ _ _ _ _ ((hk1 l).2 (Or.inr hlm)) ((hk1 h).2 (Or.inl rfl))]
        have hne : g.hasEdge l h ≠ true := by
          unfold DiGraph.hasEdge dhas
          rw [h2]; simp
        have hhead : (dkeys (dset g.nodes h ⟨some attr, some (.names names), some h⟩)).head? = (dkeys g.nodes).head? := by
          rw [dkeys_dset]
          split
          · rfl
          · cases hd : dkeys g.nodes with
            | nil => rw [hd] at hlm; cases hlm
            | cons a t => rfl
        -- the edges afterwards
        have hE : ∀ a b, ({ (g.addNode h ⟨some attr, some (.names names), some h⟩) with
            edges := dset (g.addNode h ⟨some attr, some (.names names), some h⟩).edges (l, h) 1 } : MGraph).hasEdge a b = true ↔
            (a, b) = (l, h) ∨ g.hasEdge a b = true := by
          intro a b
          rw [hasEdge_dset]
          rfl
        refine ⟨⟨?_, ?_, ?_, dset_nodup _ _ _ hi.nodup⟩, (hk1 h).2 (Or.inl rfl)⟩
        · intro k a hk
          have hk' : dget (dset g.nodes h ⟨some attr, some (.names names), some h⟩) k = some a := hk
          rw [dget_dset] at hk'
          by_cases hhk : h = k
          · rw [if_pos hhk] at hk'
            cases hk'
            subst hhk
            refine Or.inr ⟨names, rfl, hP, ?_⟩
            by_cases hlh : l = h
            · subst hlh
              cases hx : dget g.nodes l with
              | none => exact absurd hlm ((dget_eq_none _ _).1 hx)
              | some b =>
                rcases hi.node l b hx with ⟨_, hhd, _⟩ | ⟨_, _, _, l', hl', hed⟩
                · exact absurd (hi.loop l hhd) hne
                · exact ⟨l', hl', (hE _ _).2 (Or.inr hed)⟩
            · exact ⟨l, hlh, (hE _ _).2 (Or.inl rfl)⟩
          · rw [if_neg hhk] at hk'
            rcases hi.node k a hk' with ⟨e1, e2, e3⟩ | ⟨S, e1, e2, l', hl', hed⟩
            · refine Or.inl ⟨e1, hhead.trans e2, ?_⟩
              rintro ⟨l', hl', hed⟩
              rcases (hE _ _).1 hed with h3 | h3
              · cases h3; exact hhk rfl
              · exact e3 ⟨l', hl', h3⟩
            · exact Or.inr ⟨S, e1, e2, l', hl', (hE _ _).2 (Or.inr hed)⟩
        · intro k hk
          rw [hE]
          exact Or.inr (hi.loop k (hhead ▸ hk))
        · intro a b hab
          rcases (hE _ _).1 hab with h3 | h3
          · cases h3
            exact ⟨(hk1 l).2 (Or.inr hlm), (hk1 h).2 (Or.inl rfl)⟩
          · have := hi.ends a b h3
            exact ⟨(hk1 a).2 (Or.inr this.1), (hk1 b).2 (Or.inr this.2)⟩

theorem subGroup_subset (env : PyEnv) (henv : env.IterOk) (size : Nat) (hs : 0 < size) (notes : List Note) (c : Finset Int)
    (hc : c ∈ subGroups env size notes) : ∀ p ∈ c, ∃ n ∈ notes, n.pitch = p := by
  intro p hp
  unfold subGroups at hc
  have hmem : ∀ q, q ∈ (notes.map Note.pitch).toFinset → ∃ n ∈ notes, n.pitch = q := by
    intro q hq
    rw [List.mem_toFinset] at hq
    exact List.mem_map.1 hq
  simp only [] at hc
  split at hc
  · obtain ⟨ch, hch, rfl⟩ := List.mem_map.1 hc
    have hf := (chunksGo_spec size hs _ (env.iter (notes.map Note.pitch).toFinset) (le_refl _)).1
    apply hmem
    rw [← (henv _).2, ← hf]
    exact List.mem_flatten.2 ⟨ch, hch, List.mem_toFinset.1 hp⟩
  · rw [List.mem_singleton] at hc
    subst hc
    exact hmem p hp

/-- One track, continuing a graph or not. -/
theorem buildSequence_labels (env : PyEnv) (henv : env.IterOk) (tracks : List MSeq) (t : Tables) (s : MSeq) (hs : s ∈ tracks) (o : BuildOpts)
    (g : Option MGraph) (hg : ∀ x, g = some x → LabelInv (Spec.NamesOfGroup env tracks) x ∧ x.nodes ≠ []) (t' : Tables) (g' : MGraph)
    (h : buildSequence env t s o g = .ok (t', g')) : LabelInv (Spec.NamesOfGroup env tracks) g' := by
  have hempty : LabelInv (Spec.NamesOfGroup env tracks) DiGraph.empty :=
    ⟨(by intro k a hk; cases hk), (by intro k hk; cases hk), (by intro u v huv; cases huv), List.nodup_nil⟩
  unfold buildSequence at h
  by_cases ho : o.ok = true
  swap
  · rw [Bool.not_eq_true] at ho
    rw [ho] at h
    cases h
  rw [ho] at h
  simp only [Bool.not_true, Bool.false_eq_true, if_false] at h
  have hsize : 0 < o.size.toNat := by
    unfold BuildOpts.ok at ho
    simp only [Bool.and_eq_true, decide_eq_true_eq] at ho
    omega
  cases hd : computeData env s o.tol o.filterSingle true with
  | error e => rw [hd] at h; cases h
  | ok r =>
    obtain ⟨data, m⟩ := r
    rw [hd] at h
    simp only [bind, Except.bind] at h
    have hgn := group_notes env s o.tol o.filterSingle true data m hd
    have loop : ∀ (g0 : MGraph) (last : Option Int) (st : BState), LabelInv (Spec.NamesOfGroup env tracks) g0 →
        (∀ l, last = some l → l ∈ dkeys g0.nodes) → (last = none → g0 = DiGraph.empty) →
        buildLoop env o (orderedGroups data) ⟨t, g0, last⟩ = .ok st → LabelInv (Spec.NamesOfGroup env tracks) st.graph := by
      intro g0 last st i1 i2 i3 hb
      rw [buildLoop_flat] at hb
      have key : ∀ (ps : List (List Note × Finset Int)),
          (∀ p ∈ ps, p.1 ∈ orderedGroups data ∧ p.2 ∈ subGroups env o.size.toNat p.1) → ∀ st0 : BState,
          LabelInv (Spec.NamesOfGroup env tracks) st0.graph → (∀ l, st0.last = some l → l ∈ dkeys st0.graph.nodes) →
          (st0.last = none → st0.graph = DiGraph.empty) →
          ps.foldlM (fun st p => chordStep env o p.1 st p.2) st0 = .ok st → LabelInv (Spec.NamesOfGroup env tracks) st.graph := by
        intro ps
        induction ps with
        | nil => intro _ st0 j1 _ _ hst; cases hst; exact j1
        | cons p ps ih =>
          intro hps st0 j1 j2 j3 hst
          rw [List.foldlM_cons] at hst
          cases hc : chordStep env o p.1 st0 p.2 with
          | error e => rw [hc] at hst; cases hst
          | ok st1 =>
            rw [hc] at hst
            obtain ⟨vel, x, _, _, _, rfl⟩ := chordStep_ok env o p.1 st0 st1 p.2 hc
            obtain ⟨q1, q2⟩ := hps p List.mem_cons_self
            obtain ⟨n1, n2⟩ := hgn p.1 q1
            have hP : Spec.NamesOfGroup env tracks (env.hashSet p.2) ((p.1.map (fun n => env.noteName n.pitch)).toFinset) := by
              refine ⟨s, hs, p.1, n1, fun n hn => (n2 n hn).1, ?_, p.2, rfl, subGroup_subset env henv _ hsize p.1 p.2 q2⟩
              intro y
              rw [List.mem_toFinset, List.mem_map]
            have := labelInv_link _ st0.graph st0.last (env.hashSet p.2) x _ j1 j2 j3 hP
            refine ih (fun q hq => hps q (List.mem_cons_of_mem _ hq)) _ this.1 ?_ (by intro hn; cases hn) hst
            intro l hl
            cases hl
            exact this.2
      refine key _ ?_ _ i1 i2 i3 hb
      intro p hp
      obtain ⟨ns, hns, hp'⟩ := List.mem_flatMap.1 hp
      obtain ⟨c, hc, rfl⟩ := List.mem_map.1 hp'
      exact ⟨hns, hc⟩
    split at h
    · cases h
      cases g with
      | none => exact hempty
      | some x => exact (hg x rfl).1
    · cases g with
      | none =>
        simp only [Option.getD_none] at h
        cases hb : buildLoop env o (orderedGroups data) ⟨t, DiGraph.empty, none⟩ with
        | error e => rw [hb] at h; cases h
        | ok st =>
          rw [hb] at h
          cases h
          exact loop _ _ _ hempty (by intro l hl; cases hl) (fun _ => rfl) hb
      | some x =>
        obtain ⟨hx1, hx2⟩ := hg x rfl
        simp only [Option.getD_some] at h
        cases hlast : (dkeys x.nodes).getLast? with
        | none => rw [hlast] at h; cases h
        | some l =>
          rw [hlast] at h
          simp only [] at h
          cases hb : buildLoop env o (orderedGroups data) ⟨t, x, some l⟩ with
          | error e => rw [hb] at h; cases h
          | ok st =>
            rw [hb] at h
            cases h
            refine loop _ _ _ hx1 ?_ (by intro hn; cases hn) hb
            intro l' hl'
            cases hl'
            exact mem_of_getLast hlast

theorem build_labels (env : PyEnv) (henv : env.IterOk) (b b' : Builder) (tracks : List MSeq) (o : BuildOpts) (p : Bool)
    (h : build env b tracks o p = .ok b') :
    ∃ new, b'.sub = b.sub ++ new ∧ (p = false → new.length ≤ 1) ∧ ∀ g ∈ new, LabelInv (Spec.NamesOfGroup env tracks) g ∧ g.nodes ≠ [] := by
  have loop : ∀ (l : List MSeq), (∀ s ∈ l, s ∈ tracks) → ∀ st st' : Builder × Option MGraph,
      (∀ x, st.2 = some x → LabelInv (Spec.NamesOfGroup env tracks) x ∧ x.nodes ≠ []) →
      l.foldlM (buildTrack env o p) st = .ok st' →
      (∀ x, st'.2 = some x → LabelInv (Spec.NamesOfGroup env tracks) x ∧ x.nodes ≠ []) ∧
      ∃ new, st'.1.sub = st.1.sub ++ new ∧ (p = false → new = []) ∧ ∀ g ∈ new, LabelInv (Spec.NamesOfGroup env tracks) g ∧ g.nodes ≠ [] := by
    intro l
    induction l with
    | nil => intro _ st st' i hst; cases hst; exact ⟨i, [], by simp, fun _ => rfl, by simp⟩
    | cons s l ih =>
      intro hl st st' i hst
      rw [List.foldlM_cons] at hst
      cases hc : buildTrack env o p st s with
      | error e => rw [hc] at hst; cases hst
      | ok st1 =>
        rw [hc] at hst
        have one : (∀ x, st1.2 = some x → LabelInv (Spec.NamesOfGroup env tracks) x ∧ x.nodes ≠ []) ∧
            ∃ new, st1.1.sub = st.1.sub ++ new ∧ (p = false → new = []) ∧ ∀ g ∈ new, LabelInv (Spec.NamesOfGroup env tracks) g ∧ g.nodes ≠ [] := by
          unfold buildTrack at hc
          split at hc
          · cases hc; exact ⟨i, [], by simp, fun _ => rfl, by simp⟩
          split at hc
          · cases hc; exact ⟨i, [], by simp, fun _ => rfl, by simp⟩
          cases hb : buildSequence env st.1.tables s o (if p then none else st.2) with
          | error e => rw [hb] at hc; cases hc
          | ok tg =>
            obtain ⟨t, g⟩ := tg
            rw [hb] at hc
            simp only [bind, Except.bind] at hc
            have hg := buildSequence_labels env henv tracks st.1.tables s (hl s List.mem_cons_self) o _ (by
              intro x hx
              cases p with
              | true => cases hx
              | false => exact i x hx) t g hb
            split at hc
            · cases hc; exact ⟨i, [], by simp, fun _ => rfl, by simp⟩
            rename_i hne
            split at hc
            · cases hc
            cases p with
            | true =>
              simp only [if_true] at hc
              cases hf : fromNetworkx g with
              | error e => rw [hf] at hc; cases hc
              | ok d =>
                rw [hf] at hc
                cases hc
                exact ⟨i, [g], rfl, (by simp), by
                  intro g' hg'
                  rw [List.mem_singleton] at hg'
                  subst hg'
                  exact ⟨hg, hne⟩⟩
            | false =>
              simp only [Bool.false_eq_true, if_false] at hc
              cases hc
              exact ⟨by intro x hx; cases hx; exact ⟨hg, hne⟩, [], by simp, fun _ => rfl, by simp⟩
        obtain ⟨j1, n1, j2, j3, j4⟩ := one
        obtain ⟨k1, n2, k2, k3, k4⟩ := ih (fun q hq => hl q (List.mem_cons_of_mem _ hq)) st1 st' j1 hst
        refine ⟨k1, n1 ++ n2, by rw [k2, j2, List.append_assoc], fun hp => by rw [j3 hp, k3 hp]; rfl, ?_⟩
        intro g hg
        rcases List.mem_append.1 hg with h1 | h1
        · exact j4 g h1
        · exact k4 g h1
  unfold build at h
  cases hf : tracks.foldlM (buildTrack env o p) (b, none) with
  | error e => rw [hf] at h; cases h
  | ok r =>
    obtain ⟨b1, large⟩ := r
    rw [hf] at h
    simp only [bind, Except.bind] at h
    obtain ⟨j1, n1, j2, j3, j4⟩ := loop tracks (fun s hs => hs) (b, none) (b1, large) (by intro x hx; cases hx) hf
    cases large with
    | none => cases h; exact ⟨n1, j2, fun hp => by rw [j3 hp]; simp, j4⟩
    | some g =>
      simp only [] at h
      split at h
      · rename_i hp
        cases h
        exact ⟨n1, j2, fun hq => (by rw [hp] at hq; cases hq), j4⟩
      · rename_i hp
        cases hfn : fromNetworkx g with
        | error e => rw [hfn] at h; cases h
        | ok d =>
          rw [hfn] at h
          cases h
          refine ⟨n1 ++ [g], by (have j2' : b1.sub = b.sub ++ n1 := j2); (show b1.sub ++ [g] = _); rw [j2', List.append_assoc], fun hq => by rw [j3 hq]; simp, ?_⟩
          intro g' hg'
          rcases List.mem_append.1 hg' with h1 | h1
          · exact j4 g' h1
          · rw [List.mem_singleton] at h1
            subst h1
            exact j1 g' rfl

/-- **C198, labels.** Every node of every graph `build` adds has a label. It is the node's own hash exactly if no edge from another node enters the node,
and then the node is the first of the graph. Otherwise it is the set of names of all notes of a group of notes of a track that start
together, and the node's chord is part of that group. -/
theorem C198_labels (env : PyEnv) (henv : env.IterOk) (b b' : Builder) (tracks : List MSeq) (o : BuildOpts) (p : Bool)
    (h : build env b tracks o p = .ok b') :
    ∃ new, b'.sub = b.sub ++ new ∧ ∀ g ∈ new, ∀ k a, dget g.nodes k = some a →
      (a.label = some (.hash k) ↔ ¬ Spec.Entered g k) ∧ (¬ Spec.Entered g k → (dkeys g.nodes).head? = some k) ∧
      (Spec.Entered g k → ∃ S, a.label = some (.names S) ∧ Spec.NamesOfGroup env tracks k S) := by
  obtain ⟨new, h1, _, h2⟩ := build_labels env henv b b' tracks o p h
  refine ⟨new, h1, ?_⟩
  intro g hg k a hk
  rcases (h2 g hg).1.node k a hk with ⟨e1, e2, e3⟩ | ⟨S, e1, e2, e3⟩
  · exact ⟨⟨fun _ => e3, fun _ => e1⟩, fun _ => e2, fun hc => absurd hc e3⟩
  · refine ⟨⟨fun hc => ?_, fun hc => absurd e3 hc⟩, fun hc => absurd e3 hc, fun _ => ⟨S, e1, e2⟩⟩
    rw [e1] at hc
    cases hc

/-- Non-vacuity of C198: notes 0 1 2 0 enter the first node again, notes 0 1 0 do not, because the edge from 0 to 1 counts the way back. -/
def exReturn (ps : List Int) : MSeq := MSeq.mk' ((List.range ps.length).map (fun i =>
  { exNote with pitch := ps.getD i 0, start := i, stop := i + 1 })) { num := 0, name := "Piano", isDrum := false }

example : (build exEnv ⟨Tables.empty, [], []⟩ [exReturn [0, 1, 2, 0]] {} true).map (fun b => b.sub.map (fun g => g.nodes.map (fun p => (p.1, p.2.label)))) =
    .ok [[(1, some (.names {"C4"})), (2, some (.names {"C4"})), (4, some (.names {"C4"}))]] := by decide +kernel

example : (build exEnv ⟨Tables.empty, [], []⟩ [exReturn [0, 1, 0]] {} false).map (fun b => b.sub.map (fun g => g.nodes.map (fun p => (p.1, p.2.label)))) =
    .ok [[(1, some (.hash 1)), (2, some (.names {"C4"}))]] := by decide +kernel

/-! ### C199 -/

/-- **C199, defect: the plot script never gets a graph.** `create_graph_from_file` raises ValueError for every path, whatever files there are and whatever
the reader reads, because it calls `from_file` with a keyword that function does not have; so `main` ends with ValueError for
every path. -/
theorem C199_never (env : PyEnv) (srt : List Note → List Note) (isFile exists_ : List Char → Bool) (read : List Char → Py (Tracks MSeq))
    (order : Finset String → List String) (path : List Char) :
    createGraphFromFile env srt isFile read path = .error .value ∧ plotMain env srt isFile exists_ read order path = .error .value := by
  have hc : createGraphFromFile env srt isFile read path = .error .value := by
    unfold createGraphFromFile
    split
    · rfl
    · have : callWith ["file_path", "feature_size", "is_include_velocity"] ["file_path", "per_instrument"]
          (GBuilder.fromFile srt isFile read path) = .error .type := by
        unfold callWith
        rw [if_neg (by decide)]
      rw [this]
      rfl
  refine ⟨hc, ?_⟩
  unfold plotMain
  rw [hc]
  split
  · rfl
  · split <;> rfl

/-- **C199, what the script would do with a graph (defect).** Given a graph that `build` added, naming its nodes raises TypeError if nothing but its own loop
enters the first node; otherwise each node gets the name of a note of a group its chord is part of. -/
theorem C199_names (env : PyEnv) (henv : env.IterOk) (b b' : Builder) (tracks : List MSeq) (o : BuildOpts) (p : Bool)
    (h : build env b tracks o p = .ok b') (order : Finset String → List String) (ho : ∀ S x, x ∈ order S ↔ x ∈ S) :
    ∃ new, b'.sub = b.sub ++ new ∧ ∀ g ∈ new, ∃ first, (dkeys g.nodes).head? = some first ∧
      (¬ Spec.Entered g first → noteNamesOf order g = .error .type) ∧
      (Spec.Entered g first → ∃ l, noteNamesOf order g = .ok l ∧ l.map (·.1) = dkeys g.nodes ∧
        ∀ q ∈ l, ∃ s ∈ tracks, ∃ n ∈ s.notes, env.noteName n.pitch = q.2) := by
  obtain ⟨new, h1, _, h2⟩ := build_labels env henv b b' tracks o p h
  refine ⟨new, h1, ?_⟩
  intro g hg
  obtain ⟨inv, hne⟩ := h2 g hg
  cases hn : g.nodes with
  | nil => exact absurd hn hne
  | cons q rest =>
    refine ⟨q.1, by simp [dkeys], ?_, ?_⟩
    · intro hent
      have hq : dget g.nodes q.1 = some q.2 := dget_of_mem _ inv.nodup q.1 q.2 (by rw [hn]; exact List.mem_cons_self)
      rcases inv.node q.1 q.2 hq with ⟨e1, _, _⟩ | ⟨_, _, _, e3⟩
      · unfold noteNamesOf
        rw [hn, List.filterMap_cons, e1]
        rfl
      · exact absurd e3 hent
    · intro hent
      have hall : ∀ q' ∈ g.nodes, ∃ S, q'.2.label = some (.names S) ∧ Spec.NamesOfGroup env tracks q'.1 S := by
        intro q' hq'
        have hq := dget_of_mem _ inv.nodup q'.1 q'.2 hq'
        rcases inv.node q'.1 q'.2 hq with ⟨_, e2, e3⟩ | ⟨S, e1, e2, _⟩
        · rw [hn] at e2
          simp [dkeys] at e2
          rw [e2] at hent
          exact absurd hent e3
        · exact ⟨S, e1, e2⟩
      have gen : ∀ l : List (Int × NodeAttr), (∀ q' ∈ l, ∃ S, q'.2.label = some (.names S) ∧ Spec.NamesOfGroup env tracks q'.1 S) →
          ∃ r, (l.filterMap (fun p => p.2.label.map (fun l => (p.1, l)))).mapM (fun p => (do
            let x ← firstName order p.2
            .ok (p.1, x) : Py (Int × String))) = .ok r ∧ r.map (·.1) = l.map (·.1) ∧
            ∀ q ∈ r, ∃ s ∈ tracks, ∃ n ∈ s.notes, env.noteName n.pitch = q.2 := by
        intro l
        induction l with
        | nil => intro _; exact ⟨[], rfl, rfl, by simp⟩
        | cons q' l ih =>
          intro hl
          obtain ⟨r, hr, hr1, hr2⟩ := ih (fun x hx => hl x (List.mem_cons_of_mem _ hx))
          obtain ⟨S, hS, s, hs, ns, hns, hsub, hmem, _⟩ := hl q' List.mem_cons_self
          have hfn : ∃ x, firstName order (.names S) = .ok x ∧ x ∈ S := by
            simp only [firstName]
            cases hor : order S with
            | nil =>
              obtain ⟨n, hn⟩ := List.exists_mem_of_ne_nil _ hns
              have : env.noteName n.pitch ∈ order S := (ho S _).2 ((hmem _).2 ⟨n, hn, rfl⟩)
              rw [hor] at this
              cases this
            | cons x xs => exact ⟨x, rfl, (ho S x).1 (by rw [hor]; exact List.mem_cons_self)⟩
          obtain ⟨x, hx, hxS⟩ := hfn
          refine ⟨(q'.1, x) :: r, ?_, by simp [hr1], ?_⟩
          · rw [List.filterMap_cons, hS]
            simp only [Option.map_some, List.mapM_cons]
            rw [hx, hr]
            rfl
          · intro y hy
            rcases List.mem_cons.1 hy with rfl | hy
            · obtain ⟨n, hn, hnx⟩ := (hmem x).1 hxS
              exact ⟨s, hs, n, hsub n hn, hnx⟩
            · exact hr2 y hy
      obtain ⟨r, hr, hr1, hr2⟩ := gen g.nodes hall
      refine ⟨r, hr, ?_, hr2⟩
      rw [hr1, ← hn]
      rfl

/-- Non-vacuity of C199: the two songs of C198. -/
def exFirstName (S : Finset String) : List String := if "C4" ∈ S then ["C4"] else []

example : (build exEnv ⟨Tables.empty, [], []⟩ [exReturn [0, 1, 2, 0]] {} true).toOption.map (fun b => b.sub.map (fun g =>
    (noteNamesOf exFirstName g).toOption)) = some [some [(1, "C4"), (2, "C4"), (4, "C4")]] := by decide +kernel

example : (build exEnv ⟨Tables.empty, [], []⟩ [exReturn [0, 1, 0]] {} false).toOption.map (fun b => b.sub.map (fun g =>
    (noteNamesOf exFirstName g).toOption)) = some [none] := by decide +kernel

end NGC
