import Verif.PrettyMidiProps4

/-! C96: notes survive writing and reading. C97: so do key signatures, time signatures and lyrics. -/

namespace NGC

/-- The events of an unnamed instrument track. -/
def instList (tk : ℚ → Nat) (ch : Nat) (i : PInst) : List Msg :=
  [⟨0, .programChange ch i.program⟩] ++
    i.notes.flatMap (fun n => [(⟨(tk n.start : Int), .noteOn ch n.pitch n.velocity⟩ : Msg),
      ⟨(tk n.stop : Int), .noteOn ch n.pitch 0⟩]) ++
    i.bends.map (fun b => (⟨(tk b.2 : Int), .pitchwheel ch b.1⟩ : Msg)) ++
    i.controls.map (fun b => (⟨(tk b.2.2 : Int), .controlChange ch b.1 b.2.1⟩ : Msg))

theorem instEvents_eq (c : Clock) (tk : ℚ → Nat) (htk : ∀ t, c.timeToTick t = .ok (tk t : Int)) (ch : Nat)
    (i : PInst) (hn : i.name = "") : instEvents c ch i = .ok (instList tk ch i) := by
  unfold instEvents
  rw [mapM_map _ (fun n : PNote => [(⟨(tk n.start : Int), .noteOn ch n.pitch n.velocity⟩ : Msg),
      ⟨(tk n.stop : Int), .noteOn ch n.pitch 0⟩]) i.notes (fun a _ => by rw [htk, htk]; rfl),
    mapM_map _ (fun b : Int × ℚ => (⟨(tk b.2 : Int), .pitchwheel ch b.1⟩ : Msg)) i.bends
      (fun a _ => by rw [htk]; rfl),
    mapM_map _ (fun b : Nat × Nat × ℚ => (⟨(tk b.2.2 : Int), .controlChange ch b.1 b.2.1⟩ : Msg)) i.controls
      (fun a _ => by rw [htk]; rfl)]
  simp only [hn, bind, Except.bind, ne_eq, not_true_eq_false, if_false, List.nil_append, instList]
  rw [List.flatMap_def]

/-! ### Where a written note ends -/

theorem finish_eq (ch n v : Nat) (s t : Int) : ∀ (es : List Msg) (p : Nat),
    (∀ e ∈ es, ∀ c q, e.body ≠ .programChange c q) → es.Pairwise (fun a b => a.time ≤ b.time) →
    (∀ e ∈ es, Spec.closes ch n s e = true → t ≤ e.time) →
    (∃ e ∈ es, Spec.closes ch n s e = true ∧ e.time = t) →
    Spec.finish ch n v s p es = [⟨p, ch, n, v, s, t⟩] := by
  intro es
  induction es with
  | nil => intro p _ _ _ ⟨e, he, _⟩; simp at he
  | cons e es ih =>
    intro p h1 h2 h3 h4
    rw [List.pairwise_cons] at h2
    rw [Spec.finish]
    by_cases hc : Spec.closes ch n s e = true
    · rw [if_pos hc]
      have hle := h3 e (by simp) hc
      obtain ⟨f, hf, hfc, hft⟩ := h4
      rcases List.mem_cons.1 hf with rfl | hf
      · rw [hft]
      · have := h2.1 f hf
        have : e.time = t := by omega
        rw [this]
    · rw [if_neg hc, progAfter_of_not e (h1 e (by simp))]
      refine ih p (fun x hx => h1 x (by simp [hx])) h2.2 (fun x hx => h3 x (by simp [hx])) ?_
      obtain ⟨f, hf, hfc, hft⟩ := h4
      rcases List.mem_cons.1 hf with rfl | hf
      · exact absurd hfc hc
      · exact ⟨f, hf, hfc, hft⟩

theorem trackNotesGo_quiet : ∀ (l r : List Msg) (prog : Nat → Nat), (∀ e ∈ l, Spec.on? e = none) →
    (∀ e ∈ l, ∀ c q, e.body ≠ .programChange c q) →
    Spec.trackNotesGo prog (l ++ r) = Spec.trackNotesGo prog r := by
  intro l
  induction l with
  | nil => intro r prog _ _; rfl
  | cons e l ih =>
    intro r prog h1 h2
    rw [List.cons_append, Spec.trackNotesGo, h1 e (by simp)]
    have : (fun ch => Spec.progAfter ch (prog ch) e) = prog := by
      funext ch; exact progAfter_of_not e (h2 e (by simp)) ch _
    simp only [List.nil_append]
    rw [this]
    exact ih r prog (fun x hx => h1 x (by simp [hx])) (fun x hx => h2 x (by simp [hx]))

/-- The note a note-on event stands for, when `stop` gives the end of each note. -/
def noteOf (prog : Nat → Nat) (stop : Nat → Int → Int) (e : Msg) : Option Emit :=
  (Spec.on? e).map (fun k => ⟨prog k.1, k.1, k.2.1, k.2.2, e.time, stop k.2.1 e.time⟩)

theorem trackNotesGo_eq (stop : Nat → Int → Int) (prog : Nat → Nat) : ∀ (es : List Msg),
    (∀ e ∈ es, ∀ c q, e.body ≠ .programChange c q) → es.Pairwise (fun a b => a.time ≤ b.time) →
    (∀ l e r, es = l ++ e :: r → ∀ ch n v, Spec.on? e = some (ch, n, v) →
      (∀ f ∈ r, Spec.closes ch n e.time f = true → stop n e.time ≤ f.time) ∧
      (∃ f ∈ r, Spec.closes ch n e.time f = true ∧ f.time = stop n e.time)) →
    Spec.trackNotesGo prog es = es.filterMap (noteOf prog stop) := by
  intro es
  induction es with
  | nil => intro _ _ _; rfl
  | cons e es ih =>
    intro h1 h2 h3
    have h2' := List.pairwise_cons.1 h2
    have ht := ih (fun x hx => h1 x (by simp [hx])) h2'.2
      (fun l x r hl => h3 (e :: l) x r (by rw [hl]; rfl))
    have hp : (fun ch => Spec.progAfter ch (prog ch) e) = prog := by
      funext ch; exact progAfter_of_not e (h1 e (by simp)) ch _
    rw [Spec.trackNotesGo, hp, ht]
    cases ho : Spec.on? e with
    | none => rw [List.filterMap_cons_none (by simp [noteOf, ho])]; rfl
    | some k =>
      obtain ⟨ch, n, v⟩ := k
      obtain ⟨g1, g2⟩ := h3 [] e es rfl ch n v ho
      rw [List.filterMap_cons_some (b := ⟨prog ch, ch, n, v, e.time, stop n e.time⟩) (by simp [noteOf, ho])]
      simp only
      rw [finish_eq ch n v e.time (stop n e.time) es (prog ch) (fun x hx => h1 x (by simp [hx])) h2'.2 g1 g2]
      rfl

namespace Spec

/-- An instrument that a file can hold: unnamed, values in MIDI range, sounding notes that start and end
on ticks, no note starting strictly inside another, no two notes of one pitch starting together. -/
structure Playable (c : Clock) (i : PInst) : Prop where
  range : GoodInst i
  unnamed : i.name = ""
  sounding : ∀ n ∈ i.notes, 0 < n.velocity
  grid : ∀ n ∈ i.notes, ∃ s e : Nat, s < e ∧ n.start = seconds c.scales s ∧ n.stop = seconds c.scales e
  melodic : ∀ a ∈ i.notes, ∀ b ∈ i.notes, ¬ (a.start < b.start ∧ b.start < a.stop)
  distinct : i.notes.Pairwise (fun a b => a.pitch = b.pitch → a.start ≠ b.start)

end Spec

/-- A note on its ticks. -/
theorem playable_ticks (c : Clock) (h : ClockOk c) (tk : ℚ → Nat)
    (hn : ∀ t (j : Nat), |t - Spec.seconds c.scales (tk t)| ≤ |t - Spec.seconds c.scales j|) (i : PInst)
    (hi : Spec.Playable c i) : ∀ n ∈ i.notes, tk n.start < tk n.stop ∧
      n.start = Spec.seconds c.scales (tk n.start) ∧ n.stop = Spec.seconds c.scales (tk n.stop) := by
  intro n hm
  obtain ⟨s, e, h1, h2, h3⟩ := hi.grid n hm
  have e1 : tk n.start = s := by rw [h2]; exact tick_exact c h tk hn s
  have e2 : tk n.stop = e := by rw [h3]; exact tick_exact c h tk hn e
  rw [e1, e2]
  exact ⟨h1, h2, h3⟩

/-- An event of an instrument track with velocity. -/
theorem instList_noteOn (tk : ℚ → Nat) (ch : Nat) (i : PInst) (e : Msg) (he : e ∈ instList tk ch i)
    (c p v : Nat) (hb : e.body = .noteOn c p v) :
    ∃ n ∈ i.notes, c = ch ∧ p = n.pitch ∧
      ((v = n.velocity ∧ e.time = tk n.start) ∨ (v = 0 ∧ e.time = tk n.stop)) := by
  unfold instList at he
  simp only [List.mem_append, List.mem_singleton, List.mem_flatMap, List.mem_map, List.mem_cons,
    List.not_mem_nil, or_false] at he
  rcases he with ((rfl | ⟨n, hn, rfl | rfl⟩) | ⟨b, _, rfl⟩) | ⟨b, _, rfl⟩
  · cases hb
  · simp only [Body.noteOn.injEq] at hb
    exact ⟨n, hn, hb.1.symm, hb.2.1.symm, Or.inl ⟨hb.2.2.symm, rfl⟩⟩
  · simp only [Body.noteOn.injEq] at hb
    exact ⟨n, hn, hb.1.symm, hb.2.1.symm, Or.inr ⟨hb.2.2.symm, rfl⟩⟩
  · cases hb
  · cases hb

theorem instList_noteOff (tk : ℚ → Nat) (ch : Nat) (i : PInst) (e : Msg) (he : e ∈ instList tk ch i) :
    (∀ c p v, e.body ≠ .noteOff c p v) ∧ e.body ≠ .endOfTrack := by
  unfold instList at he
  simp only [List.mem_append, List.mem_singleton, List.mem_flatMap, List.mem_map, List.mem_cons,
    List.not_mem_nil, or_false] at he
  rcases he with ((rfl | ⟨n, hn, rfl | rfl⟩) | ⟨b, _, rfl⟩) | ⟨b, _, rfl⟩ <;> simp

theorem distinct_unique (l : List PNote) (h : l.Pairwise (fun a b => a.pitch = b.pitch → a.start ≠ b.start))
    (a b : PNote) (ha : a ∈ l) (hb : b ∈ l) (hp : a.pitch = b.pitch) (hs : a.start = b.start) : a = b := by
  rcases List.mem_iff_getElem.1 ha with ⟨i, hi, rfl⟩
  rcases List.mem_iff_getElem.1 hb with ⟨j, hj, rfl⟩
  rcases lt_trichotomy i j with hij | hij | hij
  · exact absurd hs (List.pairwise_iff_getElem.1 h i j hi hj hij hp)
  · subst hij; rfl
  · exact absurd hs.symm (List.pairwise_iff_getElem.1 h j i hj hi hij hp.symm)

/-- **C96, one instrument.** Writing a playable instrument gives a track in which loading finds, on the
written channel and with the instrument's program, exactly the notes of the instrument on their ticks. -/
theorem inst_track_notes (srt : List Msg → List Msg) (hsrt : IsPySort eventLt srt) (c : Clock)
    (h : ClockOk c) (tk : ℚ → Nat) (htk : ∀ t, c.timeToTick t = .ok (tk t : Int))
    (hnear : ∀ t (j : Nat), |t - Spec.seconds c.scales (tk t)| ≤ |t - Spec.seconds c.scales j|)
    (drum n : Nat) (hd : drum < 16) (i : PInst) (hi : Spec.Playable c i) :
    ∃ ch track, channelOf drum n i.isDrum = .ok ch ∧ instTrack srt c drum n i = .ok track ∧
      (∀ m ∈ track, 0 ≤ m.time) ∧ track ≠ [] ∧
      track.Pairwise (fun a b => a.time ≤ b.time) ∧ Spec.NoStack track ∧
      (Spec.trackNotes track).Perm
        (i.notes.map (fun n => ⟨i.program, ch, n.pitch, n.velocity, (tk n.start : Int), (tk n.stop : Int)⟩)) := by
  obtain ⟨ch, evs, track, t, h1, h2, h3, h4, h5, h6⟩ :=
    C59_instrument_track srt hsrt c h drum n hd i hi.range hi.unnamed
  rw [instEvents_eq c tk htk ch i hi.unnamed] at h2
  obtain rfl := Except.ok.inj h2
  have htick := playable_ticks c h tk hnear i hi
  have hmono : ∀ a b : Nat, Spec.seconds c.scales a < Spec.seconds c.scales b ↔ a < b := by
    intro a b
    refine ⟨fun hab => ?_, seconds_strictMono c.scales h.2.1⟩
    by_contra hc
    rcases Nat.lt_or_ge b a with hba | hba
    · have := seconds_strictMono c.scales h.2.1 hba; linarith
    · have : a = b := by omega
      subst this; exact lt_irrefl _ hab
  have hstart : ∀ a ∈ i.notes, ∀ b ∈ i.notes, a.pitch = b.pitch → tk a.start = tk b.start → a = b := by
    intro a ha b hb hp hs
    refine distinct_unique _ hi.distinct a b ha hb hp ?_
    rw [(htick a ha).2.1, (htick b hb).2.1, hs]
  have hmel : ∀ a ∈ i.notes, ∀ b ∈ i.notes, ¬ (tk a.start < tk b.start ∧ tk b.start < tk a.stop) := by
    intro a ha b hb ⟨g1, g2⟩
    apply hi.melodic a ha b hb
    rw [(htick a ha).2.1, (htick b hb).2.1, (htick a ha).2.2]
    exact ⟨(hmono _ _).2 g1, (hmono _ _).2 g2⟩
  have hsorted : (track ++ [(⟨t, .endOfTrack⟩ : Msg)]).Pairwise (fun a b => a.time ≤ b.time) :=
    h5.imp (fun h => h.1)
  -- ends of notes
  let stop : Nat → Int → Int := fun p s =>
    ((i.notes.find? (fun n => decide (n.pitch = p ∧ (tk n.start : Int) = s))).map
      (fun n => (tk n.stop : Int))).getD 0
  have hstop : ∀ a ∈ i.notes, stop a.pitch (tk a.start) = tk a.stop := by
    intro a ha
    show ((i.notes.find? _).map _).getD 0 = _
    cases hf : i.notes.find? (fun n => decide (n.pitch = a.pitch ∧ (tk n.start : Int) = (tk a.start : Int))) with
    | none =>
      rw [List.find?_eq_none] at hf
      have := hf a ha
      simp at this
    | some b =>
      have hb := List.find?_some hf
      have hbm := List.mem_of_find?_eq_some hf
      simp only [decide_eq_true_eq] at hb
      have := hstart b hbm a ha hb.1 (by omega)
      rw [this]; rfl
  have hon : ∀ e ∈ track, ∀ c p v, Spec.on? e = some (c, p, v) → ∃ a ∈ i.notes, c = ch ∧ p = a.pitch ∧
      v = a.velocity ∧ e.time = tk a.start := by
    intro e he c p v ho
    have hb : e.body = .noteOn c p v ∧ 0 < v := by
      unfold Spec.on? at ho
      split at ho
      · rename_i hb
        split at ho
        · simp only [Option.some.injEq, Prod.mk.injEq] at ho
          rw [hb, ← ho.1, ← ho.2.1, ← ho.2.2]
          exact ⟨rfl, by assumption⟩
        · cases ho
      · cases ho
    obtain ⟨a, ha, g1, g2, g3 | g3⟩ := instList_noteOn tk ch i e (h4.mem_iff.1 he) c p v hb.1
    · exact ⟨a, ha, g1, g2, g3.1, g3.2⟩
    · omega
  have hnostack : Spec.NoStack (track ++ [(⟨t, .endOfTrack⟩ : Msg)]) := by
    unfold Spec.NoStack
    rw [List.pairwise_append]
    refine ⟨?_, by simp, ?_⟩
    · have hbase : (instList tk ch i).Pairwise (fun a b => ∀ c n v v', Spec.on? a = some (c, n, v) →
          Spec.on? b = some (c, n, v') → a.time ≠ b.time) := by
        have hq : ∀ (l : List Msg) (r : List Msg), (∀ e ∈ r, Spec.on? e = none) →
            l.Pairwise (fun a b => ∀ c n v v', Spec.on? a = some (c, n, v) →
              Spec.on? b = some (c, n, v') → a.time ≠ b.time) →
            (l ++ r).Pairwise (fun a b => ∀ c n v v', Spec.on? a = some (c, n, v) →
              Spec.on? b = some (c, n, v') → a.time ≠ b.time) := by
          intro l r hr hl
          rw [List.pairwise_append]
          refine ⟨hl, ?_, ?_⟩
          · rw [List.pairwise_iff_forall_sublist]
            intro a b hab c n v v' ha _
            rw [hr a (hab.subset (by simp))] at ha
            cases ha
          · intro a _ b hb c n v v' _ hb'
            rw [hr b hb] at hb'
            cases hb'
        unfold instList
        refine hq _ _ (by intro e he; obtain ⟨b, _, rfl⟩ := List.mem_map.1 he; rfl) ?_
        refine hq _ _ (by intro e he; obtain ⟨b, _, rfl⟩ := List.mem_map.1 he; rfl) ?_
        rw [List.singleton_append, List.pairwise_cons]
        refine ⟨fun b _ c n v v' ha => (by cases ha), ?_⟩
        rw [List.pairwise_flatMap]
        refine ⟨?_, ?_⟩
        · intro a ha
          simp only [List.pairwise_cons, List.mem_singleton, forall_eq, List.not_mem_nil, false_implies,
            implies_true, List.Pairwise.nil, and_true]
          intro c n v v' _ hb
          simp [Spec.on?] at hb
        · refine List.Pairwise.imp_of_mem ?_ hi.distinct
          intro a b ha hb hab x hx y hy c n v v' hox hoy ht
          have hx' : x = ⟨(tk a.start : Int), .noteOn ch a.pitch a.velocity⟩ := by
            simp only [List.mem_cons, List.not_mem_nil, or_false] at hx
            rcases hx with rfl | rfl
            · rfl
            · simp [Spec.on?] at hox
          have hy' : y = ⟨(tk b.start : Int), .noteOn ch b.pitch b.velocity⟩ := by
            simp only [List.mem_cons, List.not_mem_nil, or_false] at hy
            rcases hy with rfl | rfl
            · rfl
            · simp [Spec.on?] at hoy
          subst hx'; subst hy'
          have hp : a.pitch = b.pitch := by
            simp only [Spec.on?, hi.sounding a ha, hi.sounding b hb, if_true, Option.some.injEq,
              Prod.mk.injEq] at hox hoy
            rw [hox.2.1, hoy.2.1]
          simp only at ht
          exact hab hp (by rw [(htick a ha).2.1, (htick b hb).2.1, show tk a.start = tk b.start by omega])
      refine (h4.pairwise_iff ?_).2 hbase
      intro a b hab c n v v' ha hb ht
      exact hab c n v' v hb ha ht.symm
    · intro a _ b hb c n v v' _ hb'
      simp only [List.mem_singleton] at hb
      subst hb
      cases hb'
  refine ⟨ch, track ++ [⟨t, .endOfTrack⟩], h1, h3, ?_, by simp, hsorted, hnostack, ?_⟩
  · intro m hm
    rcases List.mem_append.1 hm with hm | hm
    · exact (h6 m hm).1
    · simp only [List.mem_singleton] at hm
      subst hm
      have hpc : (⟨0, .programChange ch i.program⟩ : Msg) ∈ track := h4.mem_iff.2 (by simp [instList])
      exact le_trans (h6 _ hpc).1 (le_of_lt (h6 _ hpc).2)
  -- split at the program change
  have hpc : (⟨0, .programChange ch i.program⟩ : Msg) ∈ track := h4.mem_iff.2 (by simp [instList])
  obtain ⟨l, r, hlr⟩ := List.append_of_mem hpc
  have hrest : (l ++ r).Perm (i.notes.flatMap (fun n => [(⟨(tk n.start : Int), .noteOn ch n.pitch n.velocity⟩ : Msg),
      ⟨(tk n.stop : Int), .noteOn ch n.pitch 0⟩]) ++
    i.bends.map (fun b => (⟨(tk b.2 : Int), .pitchwheel ch b.1⟩ : Msg)) ++
    i.controls.map (fun b => (⟨(tk b.2.2 : Int), .controlChange ch b.1 b.2.1⟩ : Msg))) := by
    have := h4
    rw [hlr] at this
    have h' := (List.perm_middle (l₁ := l) (l₂ := r) (a := (⟨0, .programChange ch i.program⟩ : Msg))).symm.trans this
    unfold instList at h'
    rw [List.append_assoc, List.append_assoc, List.singleton_append] at h'
    have := List.Perm.cons_inv h'
    rwa [← List.append_assoc] at this
  have hnopc : ∀ e ∈ l ++ r, ∀ c q, e.body ≠ .programChange c q := by
    intro e he c q hb
    have := hrest.mem_iff.1 he
    simp only [List.mem_append, List.mem_flatMap, List.mem_map, List.mem_cons,
      List.not_mem_nil, or_false] at this
    rcases this with (⟨n, _, rfl | rfl⟩ | ⟨b, _, rfl⟩) | ⟨b, _, rfl⟩ <;> cases hb
  have hlon : ∀ e ∈ l, Spec.on? e = none := by
    intro e he
    have hw := h5
    unfold Spec.WellOrdered at hw
    rw [hlr, List.append_assoc, List.pairwise_append] at hw
    have := hw.2.2 e he ⟨0, .programChange ch i.program⟩ (by simp)
    have hnn := (h6 e (by rw [hlr]; simp [he])).1
    have h0 : e.time = 0 := by have := this.1; simp only at this; omega
    have hr := (this.2 h0).1
    cases ho : Spec.on? e with
    | none => rfl
    | some k =>
      obtain ⟨c, p, v⟩ := k
      unfold Spec.on? at ho
      split at ho
      · rename_i hb
        rw [hb] at hr
        simp [Spec.rank] at hr
      · cases ho
  have hgo : Spec.trackNotes (track ++ [(⟨t, .endOfTrack⟩ : Msg)]) =
      Spec.trackNotesGo (fun c => if ch = c then i.program else 0) (r ++ [⟨t, .endOfTrack⟩]) := by
    unfold Spec.trackNotes
    rw [hlr, List.append_assoc, trackNotesGo_quiet l _ _ hlon (fun e he => hnopc e (by simp [he])),
      List.cons_append, Spec.trackNotesGo]
    rfl
  have hsr : (r ++ [(⟨t, .endOfTrack⟩ : Msg)]).Pairwise (fun a b => a.time ≤ b.time) := by
    have := hsorted
    rw [hlr, List.append_assoc, List.cons_append, List.pairwise_append] at this
    exact (List.pairwise_cons.1 this.2.1).2
  rw [hgo, trackNotesGo_eq stop _ _ ?_ hsr ?_]
  · rw [List.filterMap_append, show ([(⟨t, .endOfTrack⟩ : Msg)]).filterMap
      (noteOf (fun c => if ch = c then i.program else 0) stop) = [] from rfl, List.append_nil]
    have hl0 : l.filterMap (noteOf (fun c => if ch = c then i.program else 0) stop) = [] := by
      rw [List.filterMap_eq_nil_iff]
      intro e he
      simp [noteOf, hlon e he]
    have hfull : r.filterMap (noteOf (fun c => if ch = c then i.program else 0) stop) =
        (l ++ r).filterMap (noteOf (fun c => if ch = c then i.program else 0) stop) := by
      rw [List.filterMap_append, hl0, List.nil_append]
    rw [hfull]
    refine (hrest.filterMap _).trans ?_
    rw [List.filterMap_append, List.filterMap_append, List.filterMap_flatMap]
    have hb0 : (i.bends.map (fun b => (⟨(tk b.2 : Int), .pitchwheel ch b.1⟩ : Msg))).filterMap
        (noteOf (fun c => if ch = c then i.program else 0) stop) = [] := by
      rw [List.filterMap_eq_nil_iff]
      intro e he; obtain ⟨b, _, rfl⟩ := List.mem_map.1 he; rfl
    have hc0 : (i.controls.map (fun b => (⟨(tk b.2.2 : Int), .controlChange ch b.1 b.2.1⟩ : Msg))).filterMap
        (noteOf (fun c => if ch = c then i.program else 0) stop) = [] := by
      rw [List.filterMap_eq_nil_iff]
      intro e he; obtain ⟨b, _, rfl⟩ := List.mem_map.1 he; rfl
    rw [hb0, hc0, List.append_nil, List.append_nil]
    have hmap : ∀ (ns : List PNote), (∀ a ∈ ns, a ∈ i.notes) →
        ns.flatMap (fun n => ([(⟨(tk n.start : Int), .noteOn ch n.pitch n.velocity⟩ : Msg),
          ⟨(tk n.stop : Int), .noteOn ch n.pitch 0⟩]).filterMap
            (noteOf (fun c => if ch = c then i.program else 0) stop)) =
        ns.map (fun n => (⟨i.program, ch, n.pitch, n.velocity, (tk n.start : Int), (tk n.stop : Int)⟩ : Emit)) := by
      intro ns
      induction ns with
      | nil => intro _; rfl
      | cons a ns ih =>
        intro hm
        rw [List.flatMap_cons, ih (fun x hx => hm x (by simp [hx])), List.map_cons]
        have ha := hm a (by simp)
        simp [noteOf, Spec.on?, hi.sounding a ha, hstop a ha]
    rw [hmap i.notes (fun a ha => ha)]
  · intro e he c q hb
    rcases List.mem_append.1 he with he | he
    · exact hnopc e (by simp [he]) c q hb
    · simp only [List.mem_singleton] at he
      subst he; cases hb
  · intro l' e r' heq c p v ho
    have her : e ∈ r := by
      have : e ∈ r ++ [(⟨t, .endOfTrack⟩ : Msg)] := by rw [heq]; simp
      rcases List.mem_append.1 this with h | h
      · exact h
      · simp only [List.mem_singleton] at h
        subst h; cases ho
    have het : e ∈ track := by rw [hlr]; simp [her]
    obtain ⟨a, ha, rfl, rfl, rfl, hat⟩ := hon e het c p v ho
    rw [hat, hstop a ha]
    have hafter : ∀ f ∈ r', (tk a.start : Int) ≤ f.time := by
      intro f hf
      have := hsr
      rw [heq, List.pairwise_append] at this
      rw [← hat]
      exact (List.pairwise_cons.1 this.2.1).1 f hf
    constructor
    · intro f hf hcl
      have hfm : f ∈ r ++ [(⟨t, .endOfTrack⟩ : Msg)] := by rw [heq]; simp [hf]
      rcases List.mem_append.1 hfm with hfr | hfe
      · have hft : f ∈ track := by rw [hlr]; simp [hfr]
        have hfi := h4.mem_iff.1 hft
        unfold Spec.closes at hcl
        split at hcl
        · rename_i c' p' v' hb
          obtain ⟨b, hbm, g1, g2, g3⟩ := instList_noteOn tk _ i f hfi c' p' v' hb
          split at hcl
          · rename_i hv
            simp only [decide_eq_true_eq] at hcl
            rcases g3 with g3 | g3
            · have := hmel a ha b hbm
              rw [g3.2] at hcl ⊢
              by_contra hc
              exact this ⟨by omega, by omega⟩
            · omega
          · rename_i hv
            simp only [decide_eq_true_eq] at hcl
            rcases g3 with g3 | g3
            · have := hi.sounding b hbm; omega
            · have hge := hafter f hf
              rw [g3.2] at hcl hge ⊢
              by_contra hc
              have hbt := (htick b hbm).1
              have hpb : b.pitch = a.pitch := by rw [← g2, hcl.2.1]
              rcases lt_trichotomy (tk b.start) (tk a.start) with hlt | heq' | hgt
              · exact hmel b hbm a ha ⟨hlt, by omega⟩
              · have := hstart b hbm a ha hpb heq'
                subst this; omega
              · exact hmel a ha b hbm ⟨hgt, by omega⟩
        · rename_i hb
          exact absurd hb ((instList_noteOff tk _ i f hfi).1 _ _ _)
        · rename_i hb
          exact absurd hb (instList_noteOff tk _ i f hfi).2
        · cases hcl
      · simp only [List.mem_singleton] at hfe
        subst hfe
        have hm : (⟨(tk a.stop : Int), .noteOn c a.pitch 0⟩ : Msg) ∈ track := by
          apply h4.mem_iff.2
          simp only [instList, List.mem_append, List.mem_flatMap]
          exact Or.inl (Or.inl (Or.inr ⟨a, ha, by simp⟩))
        exact le_of_lt (h6 _ hm).2
    · have hm : (⟨(tk a.stop : Int), .noteOn c a.pitch 0⟩ : Msg) ∈ l ++ r := by
        apply hrest.mem_iff.2
        simp only [List.mem_append, List.mem_flatMap]
        exact Or.inl (Or.inl ⟨a, ha, by simp⟩)
      have hlt := (htick a ha).1
      refine ⟨⟨(tk a.stop : Int), .noteOn c a.pitch 0⟩, ?_, ?_, rfl⟩
      · -- it lies after e
        have hmem : (⟨(tk a.stop : Int), .noteOn c a.pitch 0⟩ : Msg) ∈ track ++ [(⟨t, .endOfTrack⟩ : Msg)] := by
          rw [hlr]
          rcases List.mem_append.1 hm with hm | hm
          · simp [hm]
          · simp [hm]
        have hfull : track ++ [(⟨t, .endOfTrack⟩ : Msg)] =
            (l ++ ⟨0, .programChange c i.program⟩ :: l') ++ e :: r' := by
          rw [hlr, List.append_assoc, List.cons_append, heq, List.append_assoc, List.cons_append]
        rw [hfull, List.mem_append] at hmem
        rcases hmem with hmem | hmem
        · exfalso
          have := hsorted
          rw [hfull, List.pairwise_append] at this
          have := this.2.2 _ hmem e (by simp)
          simp only at this
          omega
        · rcases List.mem_cons.1 hmem with hmem | hmem
          · exfalso
            rw [← hmem] at hat
            simp only at hat
            omega
          · exact hmem
      · simp only [Spec.closes, lt_irrefl, if_false, decide_eq_true_eq, true_and]
        omega

theorem channel_drum (drum n : Nat) (isDrum : Bool) (ch : Nat) (h : channelOf drum n isDrum = .ok ch) :
    decide (ch = drum) = isDrum := by
  unfold channelOf at h
  split at h
  · cases h
  · cases isDrum with
    | true => simp only [if_true, Except.ok.injEq] at h; simp [h]
    | false =>
      simp only [Bool.false_eq_true, if_false] at h
      split at h
      · rename_i c hc
        obtain rfl := Except.ok.inj h
        have := List.mem_of_getElem? hc
        simp only [List.mem_filter, decide_eq_true_eq] at this
        simp [this.2]
      · cases h

theorem inst_tracks_notes (srt : List Msg → List Msg) (hsrt : IsPySort eventLt srt) (c : Clock)
    (h : ClockOk c) (tk : ℚ → Nat) (htk : ∀ t, c.timeToTick t = .ok (tk t : Int))
    (hnear : ∀ t (j : Nat), |t - Spec.seconds c.scales (tk t)| ≤ |t - Spec.seconds c.scales j|)
    (drum : Nat) (hd : drum < 16) : ∀ (is : List PInst) (n : Nat), (∀ i ∈ is, Spec.Playable c i) →
    ∃ tracks, instTracks srt c drum n is = .ok tracks ∧ (∀ t ∈ tracks, t ≠ [] ∧ (∀ m ∈ t, 0 ≤ m.time) ∧
        t.Pairwise (fun a b => a.time ≤ b.time) ∧ Spec.NoStack t) ∧
      ((tracks.flatMap Spec.trackNotes).map (fun e => (e.program, decide (e.channel = drum), e.velocity, e.pitch,
          e.start, e.stop))).Perm
        (is.flatMap (fun i => i.notes.map (fun n => (i.program, i.isDrum, n.velocity, n.pitch,
          (tk n.start : Int), (tk n.stop : Int))))) := by
  intro is
  induction is with
  | nil => intro n _; exact ⟨[], rfl, by simp, by simp⟩
  | cons i is ih =>
    intro n hi
    obtain ⟨ch, track, h1, h2, h3, h3', h4, h5, h6⟩ :=
      inst_track_notes srt hsrt c h tk htk hnear drum n hd i (hi i (by simp))
    obtain ⟨ts, g1, g2, g3⟩ := ih (n + 1) (fun x hx => hi x (by simp [hx]))
    refine ⟨track :: ts, by simp only [instTracks, h2, g1, bind, Except.bind], ?_, ?_⟩
    · intro t ht
      rcases List.mem_cons.1 ht with rfl | ht
      · exact ⟨h3', h3, h4, h5⟩
      · exact g2 t ht
    · rw [List.flatMap_cons, List.map_append, List.flatMap_cons]
      refine List.Perm.append ?_ g3
      refine (h6.map _).trans ?_
      rw [List.map_map]
      refine List.Perm.of_eq (List.map_congr_left ?_)
      intro a _
      simp only [Function.comp, channel_drum drum n i.isDrum ch h1]

/-- The notes of an object, with program and drum flag of their instrument. -/
def Spec.notesOf (pm : PM) : List (Nat × Bool × PNote) :=
  pm.insts.flatMap (fun i => i.notes.map (fun n => (i.program, i.isDrum, n)))

theorem timing_no_notes (l : List Msg) (h : ∀ m ∈ l, Spec.on? m = none) (prog : Nat → Nat) :
    Spec.trackNotesGo prog l = [] := by
  induction l generalizing prog with
  | nil => rfl
  | cons e l ih =>
    rw [Spec.trackNotesGo, h e (by simp)]
    simp only [List.nil_append]
    exact ih (fun m hm => h m (by simp [hm])) _

theorem timingList_quiet (tk : ℚ → Nat) (q : List (Nat × Nat)) (pm : PM) :
    ∀ m ∈ timingList tk q pm, Spec.on? m = none := by
  intro m hm
  unfold timingList at hm
  simp only [List.mem_append, List.mem_map] at hm
  rcases hm with (((hm | ⟨x, _, rfl⟩) | ⟨x, _, rfl⟩) | ⟨x, _, rfl⟩) | ⟨x, _, rfl⟩
  · split at hm
    · simp only [List.mem_singleton] at hm; subst hm; rfl
    · simp at hm
  · rfl
  · rfl
  · rfl
  · rfl

/-- What C95-C97 assume of the object that is written: a correct clock with whole tempos, a drum channel
in 0..15, playable instruments. -/
structure Spec.WritablePM (pm : PM) : Prop where
  clock : ClockOk pm.clock
  tempo : Spec.Writable pm.clock
  drum : pm.drum < 16
  insts : ∀ i ∈ pm.insts, Spec.Playable pm.clock i

/-- Everything about a file written from a writable object and read back. -/
theorem written_file (srt : List Msg → List Msg) (hsrt : IsCmpSort eventLt srt) (pm : PM)
    (h : Spec.WritablePM pm) :
    ∃ tk : ℚ → Nat, (∀ t (j : Nat), |t - Spec.seconds pm.clock.scales (tk t)| ≤ |t - Spec.seconds pm.clock.scales j|) ∧
    ∃ q t0 ts, pm.serialize srt = .ok (toDelta t0 :: ts.map toDelta) ∧
      (∃ z, t0 = srt (timingList tk q pm) ++ [⟨z, .endOfTrack⟩]) ∧
      (∀ t ∈ t0 :: ts, t ≠ [] ∧ (∀ m ∈ t, 0 ≤ m.time) ∧ t.Pairwise (fun a b => a.time ≤ b.time) ∧ Spec.NoStack t) ∧
      (∀ e ∈ t0, e.body ≠ .setTempo 0) ∧
      (∀ k, Spec.tempoInForce pm.clock.res t0 k = Spec.scaleAt pm.clock.scales k) ∧
      (((t0 :: ts).flatMap Spec.trackNotes).map (fun e => (e.program, decide (e.channel = pm.drum), e.velocity,
          e.pitch, e.start, e.stop))).Perm
        (pm.insts.flatMap (fun i => i.notes.map (fun n => (i.program, i.isDrum, n.velocity, n.pitch,
          (tk n.start : Int), (tk n.stop : Int))))) := by
  obtain ⟨q, hq, hq0⟩ := writable_list pm.clock.res pm.clock.scales h.tempo.whole
  obtain ⟨tk, htk, hnear⟩ := tick_fun pm.clock h.clock
  have hst : q.Pairwise (fun a b => a.1 < b.1) := by
    have := h.tempo.strict
    rw [hq, List.pairwise_map] at this
    exact this
  have hz : ∃ t rest, q = (0, t) :: rest := by
    obtain ⟨c, rest, hz⟩ := h.clock.2.1.zero
    rw [hq] at hz
    cases q with
    | nil => simp at hz
    | cons x q =>
      obtain ⟨a, b⟩ := x
      simp only [List.map_cons, List.cons.injEq, Prod.mk.injEq] at hz
      exact ⟨b, q, by rw [hz.1.1]⟩
  obtain ⟨z, e1, e2, e3, e4⟩ := timing_track srt hsrt pm h.clock tk htk q hq hq0 hst
  obtain ⟨ts, i1, i2, i3⟩ := inst_tracks_notes srt hsrt.isPySort pm.clock h.clock tk htk hnear pm.drum h.drum
    pm.insts 0 h.insts
  have hquiet : ∀ m ∈ srt (timingList tk q pm) ++ [(⟨z, .endOfTrack⟩ : Msg)], Spec.on? m = none := by
    intro m hm
    rcases List.mem_append.1 hm with hm | hm
    · exact timingList_quiet tk q pm m ((hsrt.perm _).mem_iff.1 hm)
    · simp only [List.mem_singleton] at hm
      subst hm; rfl
  refine ⟨tk, hnear, q, srt (timingList tk q pm) ++ [⟨z, .endOfTrack⟩], ts, ?_, ⟨z, rfl⟩, ?_, e3.tempo, ?_, ?_⟩
  · unfold PM.serialize
    simp only [e1, bind, Except.bind, e2, i1, if_neg (show ¬ 16 ≤ pm.drum from by have := h.drum; omega),
      List.map_cons]
  · intro t ht
    rcases List.mem_cons.1 ht with rfl | ht
    · refine ⟨by simp, e3.nonneg, e3.order, ?_⟩
      unfold Spec.NoStack
      rw [List.pairwise_iff_forall_sublist]
      intro a b hab c n v v' ha
      rw [hquiet a (hab.subset (by simp))] at ha
      cases ha
    · exact i2 t ht
  · intro k
    rw [tempoInForce_eq _ _ q k e4 hz]
    exact congrArg (fun l => Spec.scaleAt l k) hq.symm
  · rw [List.flatMap_cons, Spec.trackNotes, timing_no_notes _ hquiet, List.nil_append]
    exact i3

/-- Writing and reading back, with everything C96 and C97 need. -/
theorem reread (srt : List Msg → List Msg) (hsrt : IsCmpSort eventLt srt) (pm : PM)
    (h : Spec.WritablePM pm) :
    ∃ tracks, pm.serialize srt = .ok tracks ∧
      ((∀ t ∈ tracks, ∀ e ∈ toAbs t, e.time < 1000000000) →
        ∃ pm', PM.fromFile pm.clock.res tracks pm.drum = .ok pm' ∧
          (Spec.notesOf pm').Perm (Spec.notesOf pm) ∧ ClockOk pm'.clock ∧
          (∀ k, Spec.seconds pm'.clock.scales k = Spec.seconds pm.clock.scales k) ∧
          ∃ (tk : ℚ → Nat) (q : List (Nat × Nat)) (z : Int),
            (∀ t (j : Nat), |t - Spec.seconds pm.clock.scales (tk t)| ≤ |t - Spec.seconds pm.clock.scales j|) ∧
            (pm'.keySigs, pm'.timeSigs, pm'.lyrics) =
              loadMeta (fun t => pm'.clock.times.getD t.toNat 0) (srt (timingList tk q pm) ++ [⟨z, .endOfTrack⟩]) ∧
            ∀ e ∈ srt (timingList tk q pm),
              pm'.clock.times.getD e.time.toNat 0 = Spec.seconds pm.clock.scales e.time.toNat) := by
  obtain ⟨tk, hnear, q, t0, ts, s1, s2, s3, s4, s5, s6⟩ := written_file srt hsrt pm h
  refine ⟨_, s1, fun hshort => ?_⟩
  have habs : (toDelta t0 :: ts.map toDelta).map toAbs = t0 :: ts := by
    rw [List.map_cons, (C55_roundtrip t0).2, List.map_map]
    congr 1
    conv_rhs => rw [← List.map_id ts]
    exact List.map_congr_left (fun t _ => (C55_roundtrip t).2)
  have hfile : Spec.GoodFile (toDelta t0 :: ts.map toDelta) := by
    have hd : ∀ t ∈ t0 :: ts, (∀ e ∈ toDelta t, 0 ≤ e.time) ∧ toDelta t ≠ [] := by
      intro t ht
      obtain ⟨g0, g1, g2, _⟩ := s3 t ht
      refine ⟨(C55_order t).2 g1 g2, fun h0 => g0 ?_⟩
      rw [← (C55_roundtrip t).2, h0]; rfl
    have hmem : ∀ t ∈ toDelta t0 :: ts.map toDelta, ∃ u ∈ t0 :: ts, t = toDelta u := by
      intro t ht
      rcases List.mem_cons.1 ht with rfl | ht
      · exact ⟨t0, by simp, rfl⟩
      · obtain ⟨u, hu, rfl⟩ := List.mem_map.1 ht
        exact ⟨u, by simp [hu], rfl⟩
    refine ⟨by simp, ?_, ?_, ?_, hshort⟩
    · intro h0
      obtain ⟨u, hu, he⟩ := hmem [] h0
      exact (hd u hu).2 he.symm
    · intro t ht
      obtain ⟨u, hu, rfl⟩ := hmem t ht
      exact (hd u hu).1
    · intro t ht e he hb
      simp only [List.head?_cons, Option.some.injEq] at ht
      subst ht
      have hm : e.body ∈ (toDelta t0).map (fun e => e.body) := List.mem_map_of_mem he
      rw [← toAbs_body, (C55_roundtrip t0).2] at hm
      obtain ⟨x, hx, hxe⟩ := List.mem_map.1 hm
      exact s4 x hx (by rw [hxe, hb])
  obtain ⟨pm', t0', p1, p2, p3, p4, p5, p6, p7, p8, p9⟩ :=
    C56_table_covers_file pm.clock.res pm.drum h.clock.1 _ hfile
  simp only [List.head?_cons, Option.some.injEq] at p2
  subst p2
  rw [(C55_roundtrip t0).2] at p6
  rw [habs] at p8
  rw [(C55_roundtrip t0).2] at p9
  have hsc : ∀ k, Spec.scaleAt pm'.clock.scales k = Spec.scaleAt pm.clock.scales k := by
    intro k; rw [p6, s5]
  have hsec : ∀ k, Spec.seconds pm'.clock.scales k = Spec.seconds pm.clock.scales k := by
    intro k; unfold Spec.seconds; simp only [hsc]
  -- ticks of notes are in the table
  have htab : ∀ t ∈ t0 :: ts, ∀ e ∈ t, pm'.clock.times.getD e.time.toNat 0 = Spec.seconds pm.clock.scales e.time.toNat := by
    intro t ht e he
    have : toDelta t ∈ toDelta t0 :: ts.map toDelta := by
      rcases List.mem_cons.1 ht with rfl | ht
      · simp
      · simp only [List.mem_cons, List.mem_map]; exact Or.inr ⟨t, ht, rfl⟩
    have := (p7 _ this e (by rw [(C55_roundtrip t).2]; exact he)).2
    rw [this, hsec]
  obtain ⟨z, hz⟩ := s2
  refine ⟨pm', p1, ?_, p3, hsec, tk, q, z, hnear, by rw [← hz]; exact p9,
    fun e he => htab t0 (by simp) e (by rw [hz]; simp [he])⟩
  obtain ⟨insts, k1, k2⟩ := C58_exact_no_stack pm.drum (fun t => pm'.clock.times.getD t.toNat 0) (t0 :: ts)
    (fun t ht => (s3 t ht).2.2.1) (fun t ht => (s3 t ht).2.2.2)
  rw [p8] at k1
  obtain rfl := Except.ok.inj k1
  unfold Spec.notesOf
  refine k2.trans ?_
  let F : Nat × Bool × Nat × Nat × Int × Int → Nat × Bool × PNote := fun x =>
    (x.1, x.2.1, ⟨x.2.2.1, x.2.2.2.1, Spec.seconds pm.clock.scales x.2.2.2.2.1.toNat,
      Spec.seconds pm.clock.scales x.2.2.2.2.2.toNat⟩)
  have hF := s6.map F
  rw [List.map_map] at hF
  have hleft : ((t0 :: ts).flatMap Spec.trackNotes).map (showEmit pm.drum (fun t => pm'.clock.times.getD t.toNat 0)) =
      ((t0 :: ts).flatMap Spec.trackNotes).map (F ∘ (fun e => (e.program, decide (e.channel = pm.drum), e.velocity,
          e.pitch, e.start, e.stop))) := by
    apply List.map_congr_left
    intro e he
    obtain ⟨t, ht, het⟩ := List.mem_flatMap.1 he
    obtain ⟨l, x, r, hx, _, hxs, f, hf, hfs, _⟩ := trackNotesGo_mem t (fun _ => 0) e het
    have hxm : x ∈ t := by rw [hx]; simp
    have hfm : f ∈ t := by rw [hx]; simp [hf]
    have a1 := htab t ht x hxm
    have a2 := htab t ht f hfm
    rw [hxs] at a1
    rw [hfs] at a2
    simp only [showEmit, Function.comp, F, a1, a2]
  rw [hleft]
  refine hF.trans (List.Perm.of_eq ?_)
  rw [List.map_flatMap]
  have hcong : ∀ (is : List PInst), (∀ i ∈ is, i ∈ pm.insts) →
      is.flatMap (fun i => (i.notes.map (fun n => (i.program, i.isDrum, n.velocity, n.pitch,
        (tk n.start : Int), (tk n.stop : Int)))).map F) =
      is.flatMap (fun i => i.notes.map (fun n => (i.program, i.isDrum, n))) := by
    intro is
    induction is with
    | nil => intro _; rfl
    | cons i is ih =>
      intro hm
      rw [List.flatMap_cons, List.flatMap_cons, ih (fun x hx => hm x (by simp [hx])), List.map_map]
      congr 1
      apply List.map_congr_left
      intro n hn
      have := playable_ticks pm.clock h.clock tk hnear i (h.insts i (hm i (by simp))) n hn
      simp only [Function.comp, F, Int.toNat_natCast, ← this.2.1, ← this.2.2]
  exact hcong pm.insts (fun i hi => hi)

theorem filterMap_nil_of {α β : Type} (f : α → Option β) (l : List α) (h : ∀ e ∈ l, f e = none) :
    l.filterMap f = [] := List.filterMap_eq_nil_iff.2 h

theorem filterMap_back {α β : Type} (f : α → Option β) (g : β → α) : ∀ (l : List β),
    (∀ b ∈ l, f (g b) = some b) → (l.map g).filterMap f = l := by
  intro l
  induction l with
  | nil => intro _; rfl
  | cons b l ih =>
    intro h
    rw [List.map_cons, List.filterMap_cons_some (h b (by simp)), ih (fun x hx => h x (by simp [hx]))]

/-- **C96, notes survive writing and reading.** Write an object with a correct clock, whole tempos, a drum
channel in 0..15 and playable instruments; if the file is shorter than 1000000000 ticks, reading it back
with the same drum channel gives exactly the same notes (velocity, pitch, start and end in seconds), each
in an instrument with the same program and drum flag; and the same time for every tick. -/
theorem C96_note_roundtrip (srt : List Msg → List Msg) (hsrt : IsCmpSort eventLt srt) (pm : PM)
    (h : Spec.WritablePM pm) :
    ∃ tracks, pm.serialize srt = .ok tracks ∧
      ((∀ t ∈ tracks, ∀ e ∈ toAbs t, e.time < 1000000000) →
        ∃ pm', PM.fromFile pm.clock.res tracks pm.drum = .ok pm' ∧
          (Spec.notesOf pm').Perm (Spec.notesOf pm) ∧ ClockOk pm'.clock ∧
          ∀ k, Spec.seconds pm'.clock.scales k = Spec.seconds pm.clock.scales k) := by
  obtain ⟨tracks, h1, h2⟩ := reread srt hsrt pm h
  refine ⟨tracks, h1, fun hs => ?_⟩
  obtain ⟨pm', g1, g2, g3, g4, _⟩ := h2 hs
  exact ⟨pm', g1, g2, g3, g4⟩

/-- The metadata read back from a written timing track. -/
theorem meta_back (srt : List Msg → List Msg) (hsrt : IsCmpSort eventLt srt) (pm pm' : PM) (hclock : ClockOk pm.clock)
    (hk : ∀ k ∈ pm.keySigs, ∃ j, k.2 = Spec.seconds pm.clock.scales j)
    (ht : ∀ k ∈ pm.timeSigs, ∃ j, k.2.2 = Spec.seconds pm.clock.scales j)
    (hl : ∀ k ∈ pm.lyrics, ∃ j, k.2 = Spec.seconds pm.clock.scales j)
    (tk : ℚ → Nat) (q : List (Nat × Nat)) (z : Int)
    (hnear : ∀ t (j : Nat), |t - Spec.seconds pm.clock.scales (tk t)| ≤ |t - Spec.seconds pm.clock.scales j|)
    (hmeta : (pm'.keySigs, pm'.timeSigs, pm'.lyrics) =
      loadMeta (fun t => pm'.clock.times.getD t.toNat 0) (srt (timingList tk q pm) ++ [⟨z, .endOfTrack⟩]))
    (htab : ∀ e ∈ srt (timingList tk q pm),
      pm'.clock.times.getD e.time.toNat 0 = Spec.seconds pm.clock.scales e.time.toNat) :
    pm'.keySigs.Perm pm.keySigs ∧ pm'.lyrics.Perm pm.lyrics ∧
      ((∃ k ∈ pm.timeSigs, k.2.2 ≤ 0) → pm'.timeSigs.Perm pm.timeSigs) ∧
      ((∀ k ∈ pm.timeSigs, 0 < k.2.2) → pm'.timeSigs.Perm ((4, 4, 0) :: pm.timeSigs)) := by
  have hp := hsrt.perm (timingList tk q pm)
  have hex : ∀ j, Spec.seconds pm.clock.scales (tk (Spec.seconds pm.clock.scales j)) = Spec.seconds pm.clock.scales j :=
    fun j => by rw [tick_exact pm.clock hclock tk hnear j]
  have htab' : ∀ e ∈ timingList tk q pm,
      pm'.clock.times.getD e.time.toNat 0 = Spec.seconds pm.clock.scales e.time.toNat :=
    fun e he => htab e (hp.mem_iff.2 he)
  unfold loadMeta at hmeta
  simp only [Prod.mk.injEq, List.filterMap_append] at hmeta
  obtain ⟨m1, m2, m3⟩ := hmeta
  refine ⟨?_, ?_, ?_⟩
  · rw [m1]
    rw [show ([(⟨z, .endOfTrack⟩ : Msg)]).filterMap _ = [] from rfl, List.append_nil]
    refine (hp.filterMap _).trans ?_
    unfold timingList
    simp only [List.filterMap_append]
    rw [filterMap_nil_of _ (ite _ _ _) (by
        intro e he; split at he
        · simp only [List.mem_singleton] at he; subst he; rfl
        · simp at he),
      filterMap_nil_of _ (List.map _ q) (by intro e he; obtain ⟨b, _, rfl⟩ := List.mem_map.1 he; rfl),
      filterMap_nil_of _ (List.map _ pm.timeSigs) (by intro e he; obtain ⟨b, _, rfl⟩ := List.mem_map.1 he; rfl),
      filterMap_nil_of _ (List.map _ pm.lyrics) (by intro e he; obtain ⟨b, _, rfl⟩ := List.mem_map.1 he; rfl)]
    simp only [List.nil_append, List.append_nil]
    refine List.Perm.of_eq (filterMap_back _ _ _ ?_)
    intro k hk'
    obtain ⟨j, hj⟩ := hk k hk'
    have := htab' ⟨(tk k.2 : Int), .keySig k.1⟩ (by
      unfold timingList; simp only [List.mem_append, List.mem_map]; exact Or.inl (Or.inr ⟨k, hk', rfl⟩))
    simp only [Int.toNat_natCast] at this ⊢
    rw [this, hj, hex, ← hj]
  · rw [m3]
    rw [show ([(⟨z, .endOfTrack⟩ : Msg)]).filterMap _ = [] from rfl, List.append_nil]
    refine (hp.filterMap _).trans ?_
    unfold timingList
    simp only [List.filterMap_append]
    rw [filterMap_nil_of _ (ite _ _ _) (by
        intro e he; split at he
        · simp only [List.mem_singleton] at he; subst he; rfl
        · simp at he),
      filterMap_nil_of _ (List.map _ q) (by intro e he; obtain ⟨b, _, rfl⟩ := List.mem_map.1 he; rfl),
      filterMap_nil_of _ (List.map _ pm.timeSigs) (by intro e he; obtain ⟨b, _, rfl⟩ := List.mem_map.1 he; rfl),
      filterMap_nil_of _ (List.map _ pm.keySigs) (by intro e he; obtain ⟨b, _, rfl⟩ := List.mem_map.1 he; rfl)]
    simp only [List.nil_append]
    refine List.Perm.of_eq (filterMap_back _ _ _ ?_)
    intro k hk'
    obtain ⟨j, hj⟩ := hl k hk'
    have := htab' ⟨(tk k.2 : Int), .lyrics k.1⟩ (by
      unfold timingList; simp only [List.mem_append, List.mem_map]; exact Or.inr ⟨k, hk', rfl⟩)
    simp only [Int.toNat_natCast] at this ⊢
    rw [this, hj, hex, ← hj]
  · have hts : (pm'.timeSigs).Perm
        ((if pm.timeSigs = [] ∨ ∀ t ∈ pm.timeSigs, 0 < t.2.2 then [(4, 4, 0)] else []) ++ pm.timeSigs) := by
      rw [m2]
      rw [show ([(⟨z, .endOfTrack⟩ : Msg)]).filterMap _ = [] from rfl, List.append_nil]
      refine (hp.filterMap _).trans ?_
      have h0 := htab'
      unfold timingList at h0 ⊢
      simp only [List.filterMap_append]
      rw [filterMap_nil_of _ (List.map _ q) (by intro e he; obtain ⟨b, _, rfl⟩ := List.mem_map.1 he; rfl),
        filterMap_nil_of _ (List.map _ pm.lyrics) (by intro e he; obtain ⟨b, _, rfl⟩ := List.mem_map.1 he; rfl),
        filterMap_nil_of _ (List.map _ pm.keySigs) (by intro e he; obtain ⟨b, _, rfl⟩ := List.mem_map.1 he; rfl)]
      simp only [List.append_nil]
      refine List.Perm.append (List.Perm.of_eq ?_) (List.Perm.of_eq (filterMap_back _ _ _ ?_))
      · split
        · rename_i hc
          have := h0 ⟨0, .timeSig 4 4⟩ (by rw [if_pos hc]; simp)
          simp only [Int.toNat_zero] at this
          simp only [List.filterMap_cons, List.filterMap_nil, Int.toNat_zero, this, seconds_zero]
        · rfl
      · intro k hk'
        obtain ⟨j, hj⟩ := ht k hk'
        have := htab' ⟨(tk k.2.2 : Int), .timeSig k.1 k.2.1⟩ (by
          unfold timingList; simp only [List.mem_append, List.mem_map]
          exact Or.inl (Or.inl (Or.inr ⟨k, hk', rfl⟩)))
        simp only [Int.toNat_natCast] at this ⊢
        rw [this, hj, hex, ← hj]
    constructor
    · rintro ⟨k, hk1, hk2⟩
      rw [if_neg] at hts
      · exact hts
      · rintro (h0 | h0)
        · rw [h0] at hk1; simp at hk1
        · have := h0 k hk1; linarith
    · intro hall
      rw [if_pos (Or.inr hall)] at hts
      exact hts

/-- **C97, key signatures, time signatures and lyrics survive writing and reading.** Same hypotheses as
C96. If their times are times of ticks, the loaded key signatures and lyrics are those of the object, and
so are the time signatures, except that 4/4 at time 0 is added when no time signature stands at (or
before) time 0. -/
theorem C97_metadata_roundtrip (srt : List Msg → List Msg) (hsrt : IsCmpSort eventLt srt) (pm : PM)
    (h : Spec.WritablePM pm)
    (hk : ∀ k ∈ pm.keySigs, ∃ j, k.2 = Spec.seconds pm.clock.scales j)
    (ht : ∀ k ∈ pm.timeSigs, ∃ j, k.2.2 = Spec.seconds pm.clock.scales j)
    (hl : ∀ k ∈ pm.lyrics, ∃ j, k.2 = Spec.seconds pm.clock.scales j) :
    ∃ tracks, pm.serialize srt = .ok tracks ∧
      ((∀ t ∈ tracks, ∀ e ∈ toAbs t, e.time < 1000000000) →
        ∃ pm', PM.fromFile pm.clock.res tracks pm.drum = .ok pm' ∧
          pm'.keySigs.Perm pm.keySigs ∧ pm'.lyrics.Perm pm.lyrics ∧
          ((∃ k ∈ pm.timeSigs, k.2.2 ≤ 0) → pm'.timeSigs.Perm pm.timeSigs) ∧
          ((∀ k ∈ pm.timeSigs, 0 < k.2.2) → pm'.timeSigs.Perm ((4, 4, 0) :: pm.timeSigs))) := by
  obtain ⟨tracks, h1, h2⟩ := reread srt hsrt pm h
  refine ⟨tracks, h1, fun hs => ?_⟩
  obtain ⟨pm', g1, _, _, _, tk, q, z, hnear, hmeta, htab⟩ := h2 hs
  exact ⟨pm', g1, meta_back srt hsrt pm pm' h.clock hk ht hl tk q z hnear hmeta htab⟩

/-- A concrete object meeting the hypotheses: two instruments, a tempo change at tick 4, a chord and two
notes following each other. -/
def exWritable : PM :=
  { clock := ⟨2, [(0, 1/4), (4, 1/2)], [0, 1/4, 1/2, 3/4, 1]⟩
    drum := 9, timeSigs := [(3, 4, 0)], keySigs := [(5, 1/2)], lyrics := []
    insts := [⟨3, false, "", [⟨64, 60, 0, 1/2⟩, ⟨70, 64, 0, 3/4⟩, ⟨50, 62, 1, 2⟩], [(100, 1/4)], []⟩,
              ⟨0, true, "", [⟨90, 35, 1/4, 1⟩], [], [(64, 127, 0)]⟩] }

example : Spec.WritablePM exWritable where
  clock := by
    refine ⟨by decide, ⟨⟨1/4, [(4, 1/2)], rfl⟩, by decide, by decide +kernel⟩, 4, by decide, by decide +kernel⟩
  tempo := by
    refine ⟨?_, by decide⟩
    intro p hp
    simp only [exWritable, List.mem_cons, List.not_mem_nil, or_false] at hp
    rcases hp with rfl | rfl
    · exact ⟨500000, by decide, by decide +kernel⟩
    · exact ⟨1000000, by decide, by decide +kernel⟩
  drum := by decide
  insts := by
    intro i hi
    simp only [exWritable, List.mem_cons, List.not_mem_nil, or_false] at hi
    rcases hi with rfl | rfl
    · refine ⟨⟨by decide, by decide, by decide⟩, rfl, by decide, ?_, by decide +kernel, by decide +kernel⟩
      intro n hn
      simp only [List.mem_cons, List.not_mem_nil, or_false] at hn
      rcases hn with rfl | rfl | rfl
      · exact ⟨0, 2, by decide, by decide +kernel, by decide +kernel⟩
      · exact ⟨0, 3, by decide, by decide +kernel, by decide +kernel⟩
      · exact ⟨4, 6, by decide, by decide +kernel, by decide +kernel⟩
    · refine ⟨⟨by decide, by decide, by decide⟩, rfl, by decide, ?_, by decide +kernel, by decide +kernel⟩
      intro n hn
      simp only [List.mem_cons, List.not_mem_nil, or_false] at hn
      rcases hn with rfl
      exact ⟨1, 4, by decide, by decide +kernel, by decide +kernel⟩

end NGC
