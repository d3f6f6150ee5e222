import Verif.ReaderProps
import Verif.PrettyMidiProps6

/-! Properties C61, C62, C99 and following: reading a loaded MIDI object. -/

namespace NGC

theorem addSig_ok {S : Type} [Sig S] (l : List S) (v : S) (h : l ≠ []) :
    ∃ l', addSig l v = .ok l' ∧ l' ≠ [] ∧ ∀ x ∈ l', x ∈ l ∨ ∃ m, x = Sig.setSeq v m := by
  cases l with
  | nil => exact absurd rfl h
  | cons first rest =>
    have hl : (first :: rest).getLast? = some ((first :: rest).getLast (by simp)) := List.getLast?_eq_some_getLast _
    unfold addSig
    rw [hl]
    simp only
    split
    · exact ⟨_, rfl, by simp, fun x hx => by
        rcases List.mem_cons.1 hx with h | h
        · exact Or.inr ⟨_, h⟩
        · exact Or.inl (List.mem_cons_of_mem _ h)⟩
    · refine ⟨_, rfl, ?_, fun x hx => ?_⟩
      · intro hc
        have := (insortLeft_perm Sig.lt (first :: rest) (Sig.setSeq v (Sig.seq ((first :: rest).getLast (by simp)) + 1))).length_eq
        rw [hc] at this
        simp at this
      · have := (insortLeft_perm Sig.lt (first :: rest) _).mem_iff.1 hx
        rcases List.mem_cons.1 this with h | h
        · exact Or.inr ⟨_, h⟩
        · exact Or.inl h

theorem readTime_ok (l : List TimeSig) (hl : l ≠ []) (ht : TimesOk l) (p : Int × Int × ℚ)
    (hp : 0 < p.1 ∧ denomOk p.2.1 = true) : ∃ l', readTime l p = .ok l' ∧ l' ≠ [] ∧ TimesOk l' := by
  have hd : 0 < p.2.1 := by
    have := hp.2; unfold denomOk at this; simp at this; exact this.1
  have hm : TimeSig.mk? p.2.2 p.1 p.2.1 = .ok { time := p.2.2, numer := p.1, denom := p.2.1 } := by
    unfold TimeSig.mk?
    rw [if_neg (by omega), if_neg (by simp [hp.2])]
  obtain ⟨l', h1, h2, h3⟩ := addSig_ok l { time := p.2.2, numer := p.1, denom := p.2.1 } hl
  refine ⟨l', ?_, h2, ?_⟩
  · unfold readTime
    simp only [hm, bind, Except.bind, h1]
  · intro x hx
    rcases h3 x hx with h | ⟨m, h⟩
    · exact ht x h
    · rw [h]; exact hp

theorem readTimes_ok : ∀ (ps : List (Int × Int × ℚ)) (l : List TimeSig), l ≠ [] → TimesOk l →
    (∀ p ∈ ps, 0 < p.1 ∧ denomOk p.2.1 = true) → ∃ l', ps.foldlM readTime l = .ok l' ∧ l' ≠ [] ∧ TimesOk l' := by
  intro ps
  induction ps with
  | nil => intro l h1 h2 _; exact ⟨l, rfl, h1, h2⟩
  | cons p ps ih =>
    intro l h1 h2 h3
    obtain ⟨l', e, g1, g2⟩ := readTime_ok l h1 h2 p (h3 p (by simp))
    rw [List.foldlM_cons]
    simp only [e, bind, Except.bind]
    exact ih l' g1 g2 (fun q hq => h3 q (by simp [hq]))

theorem readKeys_ok : ∀ (ps : List (Nat × ℚ)) (l : List KeySig), l ≠ [] → (∀ p ∈ ps, p.1 < 24) →
    ∃ l', ps.foldlM readKey l = .ok l' ∧ l' ≠ [] := by
  intro ps
  induction ps with
  | nil => intro l h1 _; exact ⟨l, rfl, h1⟩
  | cons p ps ih =>
    intro l h1 h3
    have hp := h3 p (by simp)
    have : ∃ s, KeySig.mk? p.2 ((p.1 % 12 : Nat) : Int) ((p.1 / 12 : Nat) : Int) = .ok s := by
      unfold KeySig.mk?
      by_cases h : p.1 < 12
      · exact ⟨_, if_pos (by omega)⟩
      · refine ⟨⟨p.2, ((p.1 % 12 : Nat) : Int), .minor, 0⟩, ?_⟩
        rw [if_neg (by omega), if_pos (by omega)]
    obtain ⟨s, hs⟩ := this
    obtain ⟨l', e, g1, _⟩ := addSig_ok l s h1
    rw [List.foldlM_cons]
    have : readKey l p = .ok l' := by
      unfold readKey; simp only [hs, bind, Except.bind, e]
    simp only [this, bind, Except.bind]
    exact ih l' g1 (fun q hq => h3 q (by simp [hq]))

theorem readTempos_ok (res : Nat) (hr : 0 < res) : ∀ (ps : List (ℚ × ℚ)) (l : List TempoSig), l ≠ [] →
    (∀ p ∈ ps, 0 < p.2) → ∃ l', ps.foldlM (readTempo res) l = .ok l' ∧ l' ≠ [] := by
  intro ps
  induction ps with
  | nil => intro l h1 _; exact ⟨l, rfl, h1⟩
  | cons p ps ih =>
    intro l h1 h3
    have hp := h3 p (by simp)
    have hs : TempoSig.mk? (some p.1) (some p.2) (some (res : Int)) = .ok ⟨p.1, p.2, res, 0⟩ := by
      unfold TempoSig.mk?
      simp only
      rw [if_neg (by simpa using hp), if_neg (by omega)]
      rfl
    obtain ⟨l', e, g1, _⟩ := addSig_ok l (⟨p.1, p.2, res, 0⟩ : TempoSig) h1
    rw [List.foldlM_cons]
    have : readTempo res l p = .ok l' := by
      unfold readTempo; simp only [hs, bind, Except.bind, e]
    simp only [this, bind, Except.bind]
    exact ih l' g1 (fun q hq => h3 q (by simp [hq]))

theorem tempoChangesGo_eq : ∀ (l : List (Nat × ℚ)) (c : Clock), ClockOk c →
    (∀ p ∈ l, p.1 < 1000000000 ∧ 0 < p.2) →
    ∃ c', tempoChangesGo c l
      = .ok (l.map (fun p => (Spec.seconds c.scales p.1, 60 / (p.2 * (c.res : ℚ)))), c') ∧ c'.res = c.res := by
  intro l
  induction l with
  | nil => intro c _ _; exact ⟨c, rfl, rfl⟩
  | cons p l ih =>
    intro c hc hl
    obtain ⟨tick, s⟩ := p
    obtain ⟨hp1, hp2⟩ := hl (tick, s) (by simp)
    obtain ⟨d, e1, e2, e3, e4, _⟩ := (C56_tick_to_time c hc tick).1 hp1
    obtain ⟨c', e5, e6⟩ := ih d e2 (fun q hq => hl q (by simp [hq]))
    have hr : (0 : ℚ) < c.res := by exact_mod_cast hc.1
    have hne : ¬ (s * (d.res : ℚ) = 0) := by
      rw [e4]; exact ne_of_gt (mul_pos hp2 hr)
    refine ⟨c', ?_, by rw [e6, e4]⟩
    unfold tempoChangesGo
    simp only [e1, bind, Except.bind, e5, if_neg hne]
    rw [e3, e6, e4]
    rfl

/-- **C99.** On every object with a tempo map, `get_tempo_changes()` returns for each entry of the map
the time in seconds of its tick and its tempo in quarter notes per minute. -/
theorem C99_tempo_changes (c : Clock) (h : ClockOk c) (hs : ∀ p ∈ c.scales, p.1 < 1000000000) :
    ∃ c', c.tempoChanges = .ok (c.scales.map (fun p => (Spec.seconds c.scales p.1, 60 / (p.2 * (c.res : ℚ)))), c') := by
  obtain ⟨c', h1, _⟩ := tempoChangesGo_eq c.scales c h (fun p hp => ⟨hs p hp, h.2.1.pos p hp⟩)
  exact ⟨c', h1⟩

/-! ### The whole of `read` -/

namespace Spec

/-- What a song can be read from: key numbers of the 24 keys, time signatures with a positive
numerator and a power of two as denominator, a tempo map, at most 128 instruments, each with good
notes, and no pitch bend of -8192 after the last note. -/
structure Readable (pm : PM) : Prop where
  keys : ∀ p ∈ pm.keySigs, p.1 < 24
  times : ∀ p ∈ pm.timeSigs, 0 < p.1 ∧ denomOk p.2.1 = true
  clock : ClockOk pm.clock
  ticks : ∀ p ∈ pm.clock.scales, p.1 < 1000000000
  count : pm.insts.length ≤ 128
  notes : ∀ i ∈ pm.insts, GoodNotes i
  bends : ∀ i ∈ pm.insts, ∀ b ∈ i.bends,
    GoodBend b ∨ ∃ j ∈ pm.insts, ∃ n ∈ j.notes, solid n = true ∧ b.2 < n.stop

end Spec

/-- What `read` leaves in the track of instrument number `k`. -/
structure TrackOf (times : List TimeSig) (res : Int) (songTotal : ℚ) (i : PInst) (k : Nat) (t : MSeq) : Prop where
  notes : t.notes = (Spec.records (i.notes.filter Spec.solid)).map (fileNote times i)
  num : t.instr.num = i.program
  drum : t.instr.isDrum = i.isDrum
  name : i.name ≠ "" → t.instr.name = i.name
  total : Spec.LastEnd (i.notes.filter Spec.solid) t.total
  resolution : t.resolution = res
  bends : t.bends = (i.bends.filter (fun b => Spec.afterNotes songTotal b.2)).map (fileBend i k)
  ccs : t.ccs = (i.controls.filter (fun b => Spec.afterNotes songTotal b.2.2)).map (fileControl i k)

/-- The result of `read`, in full. -/
theorem readSong_eq (pm : PM) (h : Spec.Readable pm) :
    ∃ keys tempos times us tot,
      pm.keySigs.foldlM readKey [⟨0, 0, .major, 0⟩] = .ok keys ∧
      (pm.clock.scales.map (fun p => (Spec.seconds pm.clock.scales p.1, 60 / (p.2 * (pm.clock.res : ℚ))))).foldlM
        (readTempo pm.clock.res) [⟨0, 120, 480, 0⟩] = .ok tempos ∧
      pm.timeSigs.foldlM readTime [⟨0, 4, 4, 0⟩] = .ok times ∧
      readSong pm = .ok ⟨enumTracks us, tot, keys, tempos, times, pm.clock.res⟩ ∧
      us.length = pm.insts.length ∧
      Spec.LastEnd ((pm.insts.flatMap (fun i => i.notes)).filter Spec.solid) tot ∧
      ∀ (k : Nat) i t, pm.insts[k]? = some i → us[k]? = some t → TrackOf times pm.clock.res tot i k t := by
  obtain ⟨keys, hk, _⟩ := readKeys_ok pm.keySigs [⟨0, 0, .major, 0⟩] (by simp) h.keys
  obtain ⟨c', hc, _⟩ := tempoChangesGo_eq pm.clock.scales pm.clock h.clock
    (fun p hp => ⟨h.ticks p hp, h.clock.2.1.pos p hp⟩)
  have hr := h.clock.1
  have hrq : (0 : ℚ) < pm.clock.res := by exact_mod_cast hr
  obtain ⟨tempos, htm, _⟩ := readTempos_ok pm.clock.res hr
    (pm.clock.scales.map (fun p => (Spec.seconds pm.clock.scales p.1, 60 / (p.2 * (pm.clock.res : ℚ)))))
    [⟨0, 120, 480, 0⟩] (by simp) (by
      intro p hp
      obtain ⟨q, hq, rfl⟩ := List.mem_map.1 hp
      exact div_pos (by norm_num) (mul_pos (h.clock.2.1.pos q hq) hrq))
  obtain ⟨times, hti, _, hok⟩ := readTimes_ok pm.timeSigs [⟨0, 4, 4, 0⟩] (by simp)
    (by intro s hs; rw [List.mem_singleton] at hs; rw [hs]; exact ⟨by norm_num, by decide⟩) h.times
  set s0 : Song := ⟨enumTracks [], 0, keys, tempos, times, pm.clock.res⟩ with hs0
  obtain ⟨us, tot, e1, f1, f2⟩ := readInsts_pass pm.insts s0 [] [] h.notes (by simpa using h.count) rfl hok
    ⟨by simp, Or.inl ⟨rfl, rfl⟩⟩ (by simp)
  simp only [List.nil_append, List.length_nil] at e1 f2
  have hlen : pm.insts.length = us.length := f1.length_eq
  set s1 : Song := { s0 with total := tot } with hs1
  have hafter : ∀ i ∈ pm.insts, i.program < 128 ∧
      ∀ b ∈ i.bends, Spec.afterNotes s1.total b.2 = true → Spec.GoodBend b := by
    intro i hi
    refine ⟨(h.notes i hi).program, fun b hb ha => ?_⟩
    rcases h.bends i hi b hb with hg | ⟨j, hj, n, hn, hsol, hlt⟩
    · exact hg
    · exfalso
      have hmem : n ∈ (pm.insts.flatMap (fun i => i.notes)).filter Spec.solid :=
        List.mem_filter.2 ⟨List.mem_flatMap.2 ⟨j, hj, hn⟩, hsol⟩
      have h1 := f2.1 n hmem
      have h2 := (h.notes j hj).order n hn
      have h3 := solid_lt n hsol h2.2
      unfold Spec.afterNotes at ha
      rw [decide_eq_true_eq] at ha
      have hts : s1.total = tot := rfl
      rw [hts] at ha
      rcases ha with ha | ha <;> linarith
  have e2 := inst_pass Song.readBends (fun i k t => { t with bends := t.bends ++
      (i.bends.filter (fun b => Spec.afterNotes s1.total b.2)).map (fileBend i k) }) s1
    (fun i => i.program < 128 ∧ ∀ b ∈ i.bends, Spec.afterNotes s1.total b.2 = true → Spec.GoodBend b)
    (fun ts t i k hi hk128 hk => readBends_eq s1 ts t i k hi hk128 hk)
    pm.insts [] us hafter hlen (by have := h.count; simp; omega)
  simp only [List.nil_append, List.length_nil] at e2
  set vs := (pm.insts.zipIdx.zip us).map (fun p => ({ p.2 with bends := p.2.bends ++
      (p.1.1.bends.filter (fun b => Spec.afterNotes s1.total b.2)).map (fileBend p.1.1 p.1.2) } : MSeq)) with hvs
  have hvl : pm.insts.length = vs.length := by rw [hvs]; simp [hlen]
  have e3 := inst_pass Song.readControls (fun i k t => { t with ccs := t.ccs ++
      (i.controls.filter (fun b => Spec.afterNotes s1.total b.2.2)).map (fileControl i k) }) s1
    (fun i => i.program < 128)
    (fun ts t i k hi hk128 hk => readControls_eq s1 ts t i k hi hk128 hk)
    pm.insts [] vs (fun i hi => (h.notes i hi).program) hvl (by have := h.count; simp; omega)
  simp only [List.nil_append, List.length_nil] at e3
  set ws := (pm.insts.zipIdx.zip vs).map (fun p => ({ p.2 with ccs := p.2.ccs ++
      (p.1.1.controls.filter (fun b => Spec.afterNotes s1.total b.2.2)).map (fileControl p.1.1 p.1.2) } : MSeq)) with hws
  have hwl : ws.length = pm.insts.length := by rw [hws]; simp [hvl]
  refine ⟨keys, tempos, times, ws, tot, hk, htm, hti, ?_, hwl, f2, ?_⟩
  · unfold readSong
    have hnew : Song.new (pm.clock.res : Int)
        = ⟨enumTracks [], 0, [⟨0, 0, .major, 0⟩], [⟨0, 120, 480, 0⟩], [⟨0, 4, 4, 0⟩], pm.clock.res⟩ := rfl
    have htc : pm.clock.tempoChanges = _ := hc
    simp only [hnew, hk, htc, htm, hti, bind, Except.bind]
    have e1' : List.foldlM Song.readInst s0 pm.insts.zipIdx = .ok { s1 with tracks := enumTracks us } := e1
    rw [← hs0]
    simp only [e1', e2]
    exact e3
  · intro k i t hi ht
    have hzi : pm.insts.zipIdx[k]? = some (i, k) := by
      rw [List.getElem?_zipIdx, hi]; simp
    have hku : k < us.length := by
      have := (List.getElem?_eq_some_iff.1 hi).1; omega
    obtain ⟨u, hu⟩ : ∃ u, us[k]? = some u := ⟨us[k], List.getElem?_eq_getElem hku⟩
    have hT : TrackFor times pm.clock.res i u := by
      have := (List.forall₂_iff_get.1 f1).2 k (by have := (List.getElem?_eq_some_iff.1 hi).1; omega) hku
      rw [List.getElem?_eq_some_iff] at hi hu
      obtain ⟨hi1, hi2⟩ := hi
      obtain ⟨hu1, hu2⟩ := hu
      simp only [List.get_eq_getElem, hi2, hu2] at this
      exact this
    have hv : vs[k]? = some { u with bends := u.bends ++
        (i.bends.filter (fun b => Spec.afterNotes s1.total b.2)).map (fileBend i k) } := by
      have hz : (pm.insts.zipIdx.zip us)[k]? = some ((i, k), u) := List.getElem?_zip_eq_some.2 ⟨hzi, hu⟩
      rw [hvs, List.getElem?_map, hz]
      rfl
    have hw : ws[k]? = some { u with
        bends := u.bends ++ (i.bends.filter (fun b => Spec.afterNotes s1.total b.2)).map (fileBend i k)
        ccs := u.ccs ++ (i.controls.filter (fun b => Spec.afterNotes s1.total b.2.2)).map (fileControl i k) } := by
      have hz : (pm.insts.zipIdx.zip vs)[k]? = some ((i, k), _) := List.getElem?_zip_eq_some.2 ⟨hzi, hv⟩
      rw [hws, List.getElem?_map, hz]
      rfl
    rw [hw] at ht
    injection ht with ht
    subst ht
    exact ⟨hT.notes, hT.num, hT.drum, hT.name, hT.total, hT.resolution, by
      show u.bends ++ _ = _
      rw [hT.bends]; rfl, by
      show u.ccs ++ _ = _
      rw [hT.ccs]; rfl⟩

end NGC
