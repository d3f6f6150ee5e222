import Verif.GraphExtra
import Verif.GraphProps4
import Verif.ExtraProps

/-! Property theorems C136–C138: queries, settings and the self-check of the graph builder. -/

namespace NGC
open Spec

/-! ### C136 -/

/-- **C136, following chords.** In a freshly built graph, `neighbors` of a chord that was visited lists only chords visited right after it (and the first chord itself), and
of two chords visited in succession one is among the neighbours of the other. For a chord that was not visited it raises. -/
theorem C136_neighbors (env : PyEnv) (t : Tables) (s : MSeq) (o : BuildOpts) (t' : Tables) (g' : MGraph)
    (data : List (Int × List Note)) (m : Nat) (h : buildSequence env t s o none = .ok (t', g'))
    (hd : computeData env s o.tol o.filterSingle true = .ok (data, m)) (ps : List Int) (hne : ps ≠ []) :
    (env.hashSet ps.toFinset ∈ visited env o.size.toNat data →
      ∃ l, neighborsOf env g' (.pitches ps) = .ok l ∧
        (∀ v ∈ l, (env.hashSet ps.toFinset, v) ∈ transitions (visited env o.size.toNat data) ∨
          (v = env.hashSet ps.toFinset ∧ (visited env o.size.toNat data).head? = some v)) ∧
        ∀ v, (env.hashSet ps.toFinset, v) ∈ transitions (visited env o.size.toNat data) →
          v ∈ l ∨ ∃ l', g'.neighbors v = .ok l' ∧ env.hashSet ps.toFinset ∈ l') ∧
    (env.hashSet ps.toFinset ∉ visited env o.size.toNat data → raises (neighborsOf env g' (.pitches ps))) := by
  have hunf : neighborsOf env g' (.pitches ps) = g'.neighbors (env.hashSet ps.toFinset) := by
    cases ps with
    | nil => exact absurd rfl hne
    | cons p ps => rfl
  rw [hunf]
  generalize env.hashSet ps.toFinset = c
  have hk : ∀ x, x ∈ dkeys g'.nodes ↔ x ∈ visited env o.size.toNat data := by
    intro x
    rw [C50_nodes env t s o t' g' data m h hd, mem_firstSeen]
  obtain ⟨e1, e2, _⟩ := C48_edges env t s o t' g' data m h hd
  have hlast : ∀ (hs : List Int) u v, (u, v) ∈ transitions hs → v ∈ hs := by
    intro hs u v huv
    unfold transitions at huv
    have := List.of_mem_zip huv
    exact List.mem_of_mem_tail this.2
  constructor
  · intro hc
    have hc' := (hk c).2 hc
    obtain ⟨l, hl, _⟩ := mem_neighbors g' c c hc'
    have hmem : ∀ v, v ∈ l ↔ g'.hasEdge c v = true := by
      intro v
      obtain ⟨l2, hl2, h2⟩ := mem_neighbors g' v c hc'
      rw [hl] at hl2; cases hl2
      exact h2
    refine ⟨l, hl, ?_, ?_⟩
    · intro v hv
      rcases e2 c v ((hmem v).1 hv) with h1 | ⟨h1, h2⟩
      · exact Or.inl h1
      · exact Or.inr ⟨h1.symm, h1 ▸ h2⟩
    · intro v hv
      rcases e1 c v hv with h1 | h1
      · exact Or.inl ((hmem v).2 h1)
      · right
        obtain ⟨l', hl', h2⟩ := mem_neighbors g' c v ((hk v).2 (hlast _ _ _ hv))
        exact ⟨l', hl', h2.2 h1⟩
  · intro hc
    refine ⟨.value, ?_⟩
    unfold DiGraph.neighbors
    rw [if_neg]
    rw [dhas_iff]
    exact fun hh => hc ((hk c).1 hh)

/-- **C136, only one direction.** Of two different chords each of which was visited right after the other, exactly one is listed among the neighbours of the other. -/
theorem C136_one_direction (env : PyEnv) (t : Tables) (s : MSeq) (o : BuildOpts) (t' : Tables) (g' : MGraph)
    (data : List (Int × List Note)) (m : Nat) (h : buildSequence env t s o none = .ok (t', g'))
    (hd : computeData env s o.tol o.filterSingle true = .ok (data, m)) (u v : Int) (hne : u ≠ v)
    (huv : (u, v) ∈ transitions (visited env o.size.toNat data)) :
    ∃ lu lv, g'.neighbors u = .ok lu ∧ g'.neighbors v = .ok lv ∧ (v ∈ lu ↔ u ∉ lv) := by
  have hk : ∀ x, x ∈ dkeys g'.nodes ↔ x ∈ visited env o.size.toNat data := by
    intro x
    rw [C50_nodes env t s o t' g' data m h hd, mem_firstSeen]
  have hin : u ∈ visited env o.size.toNat data ∧ v ∈ visited env o.size.toNat data := by
    unfold transitions at huv
    have := List.of_mem_zip huv
    exact ⟨this.1, List.mem_of_mem_tail this.2⟩
  obtain ⟨e1, _, e3⟩ := C48_edges env t s o t' g' data m h hd
  obtain ⟨lu, h1, h1'⟩ := mem_neighbors g' v u ((hk u).2 hin.1)
  obtain ⟨lv, h2, h2'⟩ := mem_neighbors g' u v ((hk v).2 hin.2)
  refine ⟨lu, lv, h1, h2, ?_⟩
  rw [h1', h2']
  constructor
  · intro hh
    rw [e3 u v hne hh]
    simp
  · intro hh
    rcases e1 u v huv with h3 | h3
    · exact h3
    · exact absurd h3 hh

/-- **C136, the argument.** A list of notes means its pitches; order and repetitions do not matter; the empty list asks for the node numbered 0. -/
theorem C136_argument {A E : Type} (env : PyEnv) (g : DiGraph A E) :
    (∀ l : List Note, neighborsOf env g (.notes l) = neighborsOf env g (.pitches (l.map (·.pitch)))) ∧
    (∀ a b : List Int, (∀ x, x ∈ a ↔ x ∈ b) → neighborsOf env g (.pitches a) = neighborsOf env g (.pitches b)) ∧
    neighborsOf env g (.pitches []) = g.neighbors 0 := by
  refine ⟨?_, ?_, rfl⟩
  · intro l
    cases l <;> rfl
  · intro a b hab
    have hf : a.toFinset = b.toFinset := by
      ext x
      simp [hab x]
    cases a with
    | nil =>
      cases b with
      | nil => rfl
      | cons y ys => exact absurd ((hab y).2 List.mem_cons_self) (by simp)
    | cons x xs =>
      cases b with
      | nil => exact absurd ((hab x).1 List.mem_cons_self) (by simp)
      | cons y ys =>
        show g.neighbors _ = g.neighbors _
        rw [hf]

/-- **C136, connecting instruments (defect).** On every freshly built graph of at least one chord `connect_instruments` raises KeyError: nodes have no start time. -/
theorem C136_connect (env : PyEnv) (t : Tables) (s : MSeq) (o : BuildOpts) (t' : Tables) (g' : MGraph)
    (data : List (Int × List Note)) (m : Nat) (h : buildSequence env t s o none = .ok (t', g'))
    (hd : computeData env s o.tol o.filterSingle true = .ok (data, m)) (hne : visited env o.size.toNat data ≠ []) :
    connectInstruments g' = .error .key := by
  unfold connectInstruments
  rw [if_neg]
  intro hc
  have hk := C50_nodes env t s o t' g' data m h hd
  rw [hc] at hk
  obtain ⟨x, hx⟩ := List.exists_mem_of_ne_nil _ hne
  have := (mem_firstSeen _ x).2 hx
  rw [← hk] at this
  cases this

/-! ### C137 -/

namespace Spec

/-- The settings that the constructor accepts. -/
def Accepted (s : Settings) : Prop := 0 ≤ s.tol ∧ ∀ k, s.size = some k → 1 ≤ k ∧ k ≤ 127

/-- Builders after any history of per-instrument builds. -/
inductive Made (env : PyEnv) (srt : List Note → List Note) : GBuilder → Prop
  | new (m : MidiArg) (s : Settings) (gb : GBuilder) : GBuilder.new srt m s = .ok gb → Made env srt gb
  | build (gb gb' : GBuilder) (arg : Option (Tracks MSeq)) (o : BuildOpts) : Made env srt gb → gb.build env arg o true = .ok gb' → Made env srt gb'

end Spec

/-- **C137, what is accepted.** With a song or without one, the constructor succeeds exactly for a tolerance that is not negative and a feature size between 1 and 127
(or none); otherwise ValueError. Anything else in place of a song is a TypeError. -/
theorem C137_accepted (srt : List Note → List Note) (s : Settings) (t : Tracks MSeq) :
    (Spec.Accepted s → (∃ gb, GBuilder.new srt (.seqs t) s = .ok gb) ∧ ∃ gb, GBuilder.new srt .none s = .ok gb) ∧
    (¬ Spec.Accepted s → GBuilder.new srt (.seqs t) s = .error .value ∧ GBuilder.new srt .none s = .error .value) ∧
    GBuilder.new srt .other s = .error .type := by
  refine ⟨?_, ?_, rfl⟩
  · rintro ⟨h1, h2⟩
    have h1' : ¬ s.tol < 0 := not_lt.2 h1
    cases hs : s.size with
    | none =>
      constructor <;> simp [GBuilder.new, midiOf, bind, Except.bind, h1', hs]
    | some k =>
      obtain ⟨k1, k2⟩ := h2 k hs
      have hk : 0 < k ∧ k ≤ 127 := ⟨by omega, k2⟩
      constructor <;> simp [GBuilder.new, midiOf, bind, Except.bind, h1', hs, hk.1, hk.2]
  · intro hn
    by_cases h1 : s.tol < 0
    · constructor <;> simp [GBuilder.new, midiOf, bind, Except.bind, h1]
    · cases hs : s.size with
      | none => exact absurd ⟨not_lt.1 h1, fun k hk => by rw [hs] at hk; cases hk⟩ hn
      | some k =>
        have hk : ¬ (0 < k ∧ k ≤ 127) := by
          intro hk
          refine hn ⟨not_lt.1 h1, ?_⟩
          intro k' hk'
          rw [hs] at hk'; cases hk'
          exact ⟨by omega, hk.2⟩
        constructor <;> simp only [GBuilder.new, midiOf, bind, Except.bind, h1, hs, hk, if_false]

/-- A new builder knows the song and nothing else. -/
theorem new_state {srt : List Note → List Note} {m : MidiArg} {s : Settings} {gb : GBuilder} (h : GBuilder.new srt m s = .ok gb) :
    midiOf srt m = .ok gb.midi ∧ gb.state = ⟨Tables.empty, [], []⟩ ∧ gb.settings = s := by
  unfold GBuilder.new at h
  cases hm : midiOf srt m with
  | error e => rw [hm] at h; cases h
  | ok midi =>
    rw [hm] at h
    simp only [bind, Except.bind] at h
    split at h
    · cases h
    · split at h
      · cases h; exact ⟨rfl, rfl, rfl⟩
      · split at h
        · cases h; exact ⟨rfl, rfl, rfl⟩
        · cases h

/-- **C137, settings have no effect (defect).** Two builders for the same song, created with any accepted settings, build the same: what `build` does depends on the song
and the arguments of `build` alone. -/
theorem C137_settings_ignored (env : PyEnv) (srt : List Note → List Note) (m : MidiArg) (s1 s2 : Settings) (gb1 gb2 : GBuilder)
    (h1 : GBuilder.new srt m s1 = .ok gb1) (h2 : GBuilder.new srt m s2 = .ok gb2) (arg : Option (Tracks MSeq)) (o : BuildOpts) (perInstr : Bool) :
    (gb1.build env arg o perInstr).map (·.state) = (gb2.build env arg o perInstr).map (·.state) := by
  obtain ⟨m1, st1, _⟩ := new_state h1
  obtain ⟨m2, st2, _⟩ := new_state h2
  rw [m1] at m2
  have hm : gb1.midi = gb2.midi := Except.ok.inj m2
  unfold GBuilder.build
  rw [hm, st1, st2]
  cases arg.or gb2.midi with
  | none => rfl
  | some t =>
    cases h : t.allSeqs with
    | error e => simp [h, bind, Except.bind, Except.map]
    | ok tracks =>
      cases hb : NGC.build env ⟨Tables.empty, [], []⟩ tracks o perInstr with
      | error e => simp [h, hb, bind, Except.bind, Except.map]
      | ok b => simp [h, hb, bind, Except.bind, Except.map]

/-- What holds of a builder after any history of per-instrument builds. -/
structure BuilderInv (env : PyEnv) (b : Builder) : Prop where
  built : Built env b.tables
  nonempty : ∀ d ∈ b.pyg, d.nodeHash ≠ []
  known : ∀ d ∈ b.pyg, ∀ h ∈ d.nodeHash, ∃ i, dget b.tables.hashToIndex h = some i

theorem buildTrack_inv (env : PyEnv) (o : BuildOpts) (b : Builder) (large : Option MGraph) (s : MSeq) (r : Builder × Option MGraph)
    (inv : BuilderInv env b) (h : buildTrack env o true (b, large) s = .ok r) :
    BuilderInv env r.1 ∧ r.2 = large ∧ ∃ new, r.1.pyg = b.pyg ++ new ∧
      ∀ d ∈ new, o.ty = .tensor → o.velocity = false → ∀ x ∈ d.attrs, ∃ l, x = .vec l ∧ l.length = o.size.toNat := by
  unfold buildTrack at h
  split at h
  · cases h; exact ⟨inv, rfl, [], by simp, by simp⟩
  split at h
  · cases h; exact ⟨inv, rfl, [], by simp, by simp⟩
  simp only [if_true] at h
  cases hb : buildSequence env b.tables s o none with
  | error e => rw [hb] at h; cases h
  | ok tg =>
    obtain ⟨t, g⟩ := tg
    rw [hb] at h
    simp only [bind, Except.bind] at h
    have hbt : Built env t := Built.step s o none inv.built hb
    have hst : ∀ x i, dget b.tables.hashToIndex x = some i → dget t.hashToIndex x = some i :=
      fun x i hx => C49_index_stable env b.tables t s o none g inv.built hb x i hx
    have inv1 : BuilderInv env { b with tables := t } :=
      ⟨hbt, inv.nonempty, fun d hd x hx => by obtain ⟨i, hi⟩ := inv.known d hd x hx; exact ⟨i, hst x i hi⟩⟩
    split at h
    · cases h; exact ⟨inv1, rfl, [], by simp, by simp⟩
    rename_i hgne
    split at h
    · cases h
    obtain ⟨d, hd, hnh, _, _, _, _⟩ := C89_conversion env b.tables s o t g hb
    rw [hd] at h
    cases h
    refine ⟨⟨hbt, ?_, ?_⟩, rfl, [d], rfl, ?_⟩
    · intro d' hd'
      rcases List.mem_append.1 hd' with h1 | h1
      · exact inv.nonempty d' h1
      · simp only [List.mem_cons, List.mem_nil_iff, or_false] at h1
        subst h1
        rw [hnh]
        intro hc
        apply hgne
        unfold dkeys at hc
        exact List.map_eq_nil_iff.1 hc
    · intro d' hd' x hx
      rcases List.mem_append.1 hd' with h1 | h1
      · exact inv1.known d' h1 x hx
      · simp only [List.mem_cons, List.mem_nil_iff, or_false] at h1
        subst h1
        rw [hnh] at hx
        cases ha : dget g.nodes x with
        | none => exact absurd hx ((dget_eq_none _ _).1 ha)
        | some a => exact (C50_complete env b.tables inv.built s o t g hb x a ha).2.2.1
    · intro d' hd' hty hvel x hx
      simp only [List.mem_cons, List.mem_nil_iff, or_false] at hd'
      subst hd'
      have hattrs : ∃ xs, g.nodes.mapM (fun p => needAttr p.2.attr) = .ok xs ∧ d'.attrs = xs := by
        unfold fromNetworkx at hd
        cases h1 : g.nodes.mapM (fun p => needAttr p.2.nodeHash) with
        | error e => rw [h1] at hd; cases hd
        | ok nh =>
          cases h2 : g.nodes.mapM (fun p => needAttr p.2.attr) with
          | error e => rw [h1, h2] at hd; cases hd
          | ok xs => rw [h1, h2] at hd; cases hd; exact ⟨xs, rfl, rfl⟩
      obtain ⟨xs, hxs, rfl⟩ := hattrs
      have hnd : (dkeys g.nodes).Nodup := by
        obtain ⟨_, data, m, hdd, _⟩ := buildSequence_fresh env b.tables s o t g hb
        rw [C50_nodes env b.tables s o t g data m hb hdd]
        exact firstSeen_nodup _
      have hmem : ∀ (l : List (Int × NodeAttr)) ys, l.mapM (fun p => needAttr p.2.attr) = .ok ys → ∀ y ∈ ys, ∃ p ∈ l, p.2.attr = some y := by
        intro l
        induction l with
        | nil => intro ys hys y hy; cases hys; cases hy
        | cons p l ih =>
          intro ys hys y hy
          rw [List.mapM_cons] at hys
          cases hp : p.2.attr with
          | none => rw [hp] at hys; cases hys
          | some a =>
            rw [hp] at hys
            cases hl : l.mapM (fun p => needAttr p.2.attr) with
            | error e => rw [hl] at hys; cases hys
            | ok zs =>
              rw [hl] at hys; cases hys
              rcases List.mem_cons.1 hy with rfl | hy
              · exact ⟨p, List.mem_cons_self, hp⟩
              · obtain ⟨q, hq, hq'⟩ := ih zs hl y hy
                exact ⟨q, List.mem_cons_of_mem _ hq, hq'⟩
      obtain ⟨⟨k, a⟩, hp, hpa⟩ := hmem _ _ hxs x hx
      obtain ⟨_, _, _, c, x', _, hx', hten⟩ := C50_complete env b.tables inv.built s o t g hb k a (dget_of_mem _ hnd k a hp)
      rw [hpa] at hx'; cases hx'
      have hten' := hten hvel
      rw [hty] at hten'
      obtain ⟨l, hl, hlen, _⟩ := C51_pitch_vector (env.iter c) o.size.toNat 127
      rw [hl] at hten'
      cases hten'
      exact ⟨l, rfl, hlen⟩

theorem build_builderInv (env : PyEnv) (o : BuildOpts) (b b' : Builder) (tracks : List MSeq) (inv : BuilderInv env b)
    (h : build env b tracks o true = .ok b') :
    BuilderInv env b' ∧ ∃ new, b'.pyg = b.pyg ++ new ∧
      ∀ d ∈ new, o.ty = .tensor → o.velocity = false → ∀ x ∈ d.attrs, ∃ l, x = .vec l ∧ l.length = o.size.toNat := by
  unfold build at h
  cases hf : tracks.foldlM (buildTrack env o true) (b, none) with
  | error e => rw [hf] at h; cases h
  | ok r =>
    have key := foldlM_inv (buildTrack env o true) (fun _ st => (BuilderInv env st.1 ∧ ∃ new, st.1.pyg = b.pyg ++ new ∧
        ∀ d ∈ new, o.ty = .tensor → o.velocity = false → ∀ x ∈ d.attrs, ∃ l, x = .vec l ∧ l.length = o.size.toNat) ∧ st.2 = none) (by
      rintro pre a ⟨s1, s2⟩ s' ⟨⟨hi, new, hn, hw⟩, hnone⟩ hs
      obtain ⟨i1, i2, new2, i3, i4⟩ := buildTrack_inv env o s1 s2 a s' hi hs
      refine ⟨⟨i1, new ++ new2, by rw [i3, hn, List.append_assoc], ?_⟩, i2.trans hnone⟩
      intro d hd
      rcases List.mem_append.1 hd with h1 | h1
      · exact hw d h1
      · exact i4 d h1) tracks [] (b, none) r ⟨⟨inv, [], by simp, by simp⟩, rfl⟩ hf
    obtain ⟨b1, large⟩ := r
    obtain ⟨k1, rfl⟩ := key
    rw [hf] at h
    cases h
    exact k1

theorem made_inv (env : PyEnv) (srt : List Note → List Note) (gb : GBuilder) (h : Spec.Made env srt gb) : BuilderInv env gb.state := by
  induction h with
  | new m s gb h =>
    rw [(new_state h).2.1]
    exact ⟨Built.fresh, by simp, by simp⟩
  | build gb gb' arg o _ h ih =>
    unfold GBuilder.build at h
    cases ha : arg.or gb.midi with
    | none => rw [ha] at h; cases h
    | some t =>
      rw [ha] at h
      dsimp only at h
      cases ht : t.allSeqs with
      | error e => rw [ht] at h; cases h
      | ok tracks =>
        rw [ht] at h
        dsimp only [bind, Except.bind] at h
        cases hb : NGC.build env gb.state tracks o true with
        | error e => rw [hb] at h; cases h
        | ok b =>
          rw [hb] at h
          cases h
          exact (build_builderInv env o gb.state b tracks ih hb).1

/-- **C137, defaults.** Without further arguments `build` makes one graph per instrument, with feature vectors of 12 entries
that hold pitches but no velocities, keeps chords of one note, and takes notes to begin together within 0.2 seconds. -/
theorem C137_defaults (env : PyEnv) (gb : GBuilder) (arg : Option (Tracks MSeq)) :
    gb.build env arg = gb.build env arg { size := 12, buckets := 8, ty := .tensor, filterSingle := false, tol := 1/5, velocity := false } true := rfl

/-- **C137, feature size (defect).** A builder created with any feature size and any other settings gives feature vectors of the size passed to `build`, 12 if none is passed. -/
theorem C137_feature_size (env : PyEnv) (srt : List Note → List Note) (m : MidiArg) (s : Settings) (gb gb' : GBuilder)
    (h : GBuilder.new srt m s = .ok gb) (arg : Option (Tracks MSeq)) (o : BuildOpts) (hty : o.ty = .tensor) (hv : o.velocity = false)
    (hb : gb.build env arg o true = .ok gb') :
    ∀ d ∈ gb'.state.pyg, ∀ x ∈ d.attrs, ∃ l, x = .vec l ∧ l.length = o.size.toNat := by
  have hst := (new_state h).2.1
  unfold GBuilder.build at hb
  cases ha : arg.or gb.midi with
  | none => rw [ha] at hb; cases hb
  | some t =>
    rw [ha] at hb
    dsimp only at hb
    cases ht : t.allSeqs with
    | error e => rw [ht] at hb; cases hb
    | ok tracks =>
      rw [ht] at hb
      dsimp only [bind, Except.bind] at hb
      cases hbb : NGC.build env gb.state tracks o true with
      | error e => rw [hbb] at hb; cases hb
      | ok b =>
        rw [hbb] at hb
        cases hb
        obtain ⟨_, new, hn, hw⟩ := build_builderInv env o gb.state b tracks (made_inv env srt gb (Spec.Made.new m s gb h)) hbb
        dsimp only
        rw [hn, hst]
        intro d hd
        exact hw d (by simpa using hd) hty hv

/-- **C137, factories.** `from_midi_sequence` raises ValueError for a sequence without notes; otherwise it is the constructor, with the argument named
`is_include_velocity` taken for `is_instrument_graph` and velocities never included. `from_midi_sequences` accepts nothing but a song. -/
theorem C137_factories (srt : List Note → List Note) (s : MSeq) (size : Option Int) (vel : Bool) (t : Tracks MSeq) :
    (s.notes = [] → GBuilder.fromSequence srt s size vel = .error .value) ∧
    (∀ gb, GBuilder.fromSequence srt s size vel = .ok gb → s.notes ≠ [] ∧ gb.settings.perInstr = vel ∧ gb.settings.velocity = false ∧ gb.settings.size = size ∧
      ∃ t, Tracks.ofSeqs srt [s] = .ok t ∧ gb.midi = some t) ∧
    (∃ gb, GBuilder.fromSequences srt (.seqs t) = .ok gb ∧ gb.midi = some t) ∧
    GBuilder.fromSequences srt (.seq s) = .error .type ∧ GBuilder.fromSequences srt .none = .error .type := by
  refine ⟨?_, ?_, ?_, rfl, rfl⟩
  · intro h
    simp [GBuilder.fromSequence, h]
  · intro gb h
    unfold GBuilder.fromSequence at h
    split at h
    · cases h
    · rename_i hne
      cases ht : Tracks.ofSeqs srt [s] with
      | error e => rw [ht] at h; cases h
      | ok t =>
        rw [ht] at h
        obtain ⟨h1, _, h3⟩ := new_state (show GBuilder.new srt (.seqs t) { size := size, perInstr := vel } = .ok gb from h)
        rw [h3]
        refine ⟨hne, rfl, rfl, rfl, t, rfl, ?_⟩
        exact (Except.ok.inj h1).symm
  · obtain ⟨⟨gb, h⟩, _⟩ := (C137_accepted srt {} t).1 ⟨by decide +kernel, by rintro k hk; cases hk; omega⟩
    refine ⟨gb, h, ?_⟩
    exact (Except.ok.inj (new_state h).1).symm

/-! ### C138 -/

/-- The self-check on a builder whose graphs have nodes that are all known. -/
theorem selfCheck_of_inv (env : PyEnv) (b : Builder) (inv : BuilderInv env b) :
    (b.pyg ≠ [] → graphsChecked b = .error .attribute ∧ ∃ r, graphs b = .ok r ∧ r.1.length = 1) ∧
    (b.tables.hashToNotes = [] → graphsChecked b = .error .value) := by
  obtain ⟨_, bij, _⟩ := C49_index_bijection env b.tables inv.built
  constructor
  · intro hne
    obtain ⟨g, more, hg⟩ := List.exists_cons_of_ne_nil hne
    have hgm : g ∈ b.pyg := by rw [hg]; exact List.mem_cons_self
    obtain ⟨x, xs, hx⟩ := List.exists_cons_of_ne_nil (inv.nonempty g hgm)
    obtain ⟨i, hi⟩ := inv.known g hgm x (by rw [hx]; exact List.mem_cons_self)
    have hnotes : b.tables.hashToNotes ≠ [] := by
      intro hc
      obtain ⟨c, hcc⟩ := (bij x).1 ⟨i, hi⟩
      rw [hc] at hcc
      cases hcc
    have hall : ∀ p ∈ b.tables.hashToNotes, dhas b.tables.hashToIndex p.1 = true := by
      intro p hp
      have hk : p.1 ∈ dkeys b.tables.hashToNotes := List.mem_map_of_mem hp
      obtain ⟨c, hc⟩ : ∃ c, dget b.tables.hashToNotes p.1 = some c := dget_isSome_of_mem _ _ hk
      obtain ⟨j, hj⟩ := (bij p.1).2 ⟨c, hc⟩
      rw [dhas_iff]
      by_contra hcc
      rw [(dget_eq_none _ _).2 hcc] at hj
      cases hj
    have hmap : ∀ l : List Int, (∀ h ∈ l, ∃ i, dget b.tables.hashToIndex h = some i) →
        ∃ idx, l.mapM (fun h => match dget b.tables.hashToIndex h with
          | some i => (Except.ok i : Py Nat)
          | none => .error .key) = .ok idx ∧ idx.length = l.length := by
      intro l
      induction l with
      | nil => intro _; exact ⟨[], rfl, rfl⟩
      | cons y l ih =>
        intro hl
        obtain ⟨j, hj⟩ := hl y List.mem_cons_self
        obtain ⟨idx, h1, h2⟩ := ih (fun z hz => hl z (List.mem_cons_of_mem _ hz))
        refine ⟨j :: idx, ?_, by simp [h2]⟩
        rw [List.mapM_cons, h1, hj]
        rfl
    obtain ⟨idx, hidx, hlen⟩ := hmap g.nodeHash (inv.known g hgm)
    have hlab : ∀ skip, labelGraph b.tables skip g = .ok { g with label := if skip then none else some idx, y := some idx } := by
      intro skip
      have hl : labelGraph b.tables skip g = Except.bind (g.nodeHash.mapM (fun h => match dget b.tables.hashToIndex h with
          | some i => (Except.ok i : Py Nat)
          | none => .error .key)) (fun idx => .ok { g with label := if skip then none else some idx, y := some idx }) := by
        unfold labelGraph
        rfl
      rw [hl, hidx]
      rfl
    refine ⟨?_, ?_⟩
    · unfold graphsChecked
      rw [if_neg hnotes, if_neg (not_not.2 hall), hg]
      dsimp only
      rw [hlab false]
      dsimp only [bind, Except.bind]
      rw [if_neg]
      simp only [Bool.false_eq_true, if_false, Option.some.injEq]
      intro hc
      rw [hc, hx] at hlen
      cases hlen
    · have : ∃ r, graphs b = .ok r := by
        unfold graphs
        rw [if_neg hnotes, hg]
        show ∃ r, (graphsLoop b.tables false (more.length + 1) 0 (g :: more) >>= _) = _
        have h2 : ∀ fuel i, graphsLoop b.tables false fuel i [] = .ok ([], []) := by
          intro fuel i
          cases fuel <;> simp [graphsLoop]
        have h1 : graphsLoop b.tables false (more.length + 1) 0 (g :: more) =
            .ok ([{ g with label := if false then none else some idx, y := some idx }], []) := by
          conv_lhs => unfold graphsLoop
          simp only [List.getElem?_cons_zero]
          rw [hlab false, h2]
          rfl
        rw [h1]
        exact ⟨_, rfl⟩
      obtain ⟨r, hr⟩ := this
      refine ⟨r, hr, ?_⟩
      obtain ⟨h1, _⟩ := C53_only_first_graph b false r.1 r.2 hr
      rw [h1, hg]
      simp
  · intro hc
    unfold graphsChecked
    rw [if_pos hc]

/-- **C138, the self-check of `graphs` (defect).** After any history of per-instrument builds, `graphs(is_sanity_check=True)` never yields a graph: it raises AttributeError if
there is one and ValueError if nothing was built, even though `graphs()` succeeds then. -/
theorem C138_self_check (env : PyEnv) (srt : List Note → List Note) (gb : GBuilder) (h : Spec.Made env srt gb) :
    (gb.state.pyg ≠ [] → graphsChecked gb.state = .error .attribute ∧ ∃ r, graphs gb.state = .ok r ∧ r.1.length = 1) ∧
    (gb.state.tables.hashToNotes = [] → graphsChecked gb.state = .error .value) :=
  selfCheck_of_inv env gb.state (made_inv env srt gb h)

/-! ### Examples -/

/-- A builder meant for one large graph of feature size 5, with velocities. -/
def exSettings : Settings := { perInstr := false, size := some 5, velocity := true, tol := 1 }

example : Spec.Accepted exSettings := ⟨by decide +kernel, by rintro k hk; cases hk; omega⟩

example : ((GBuilder.new id (.seq exWhole) exSettings).bind (fun gb => (gb.build exEnv none).map (fun gb =>
    (gb.state.pyg.length, gb.state.pyg.map (fun d => d.attrs.length))))) = .ok (1, [3]) := by decide +kernel

example : ((GBuilder.new id (.seq exWhole) exSettings).bind (fun gb => (gb.build exEnv none).bind (fun gb => graphsChecked gb.state))) = .error .attribute := by
  decide +kernel

example : (buildSequence exEnv Tables.empty exWhole {} none).bind (fun r => neighborsOf exEnv r.2 (.pitches [0, 0])) = .ok [1, 2, 4] := by decide +kernel

example : (buildSequence exEnv Tables.empty exWhole {} none).bind (fun r => (connectInstruments r.2).map (fun _ => ())) = .error .key := by decide +kernel

end NGC
