import Verif.Save
import Verif.PrettyMidiProps10
import Verif.ReaderProps4

/-! C145: saving a sequence and reading it back. -/

namespace NGC

/-! ### What is in a written file -/

theorem swapGo_mem (x : Msg) : ∀ (ps : List (Msg × Msg)) (i : Nat) (l : List Msg),
    x ∈ swapGo i ps l → x ∈ l ∨ ∃ p ∈ ps, x = p.1 ∨ x = p.2 := by
  intro ps
  induction ps with
  | nil => intro i l h; exact Or.inl h
  | cons p ps ih =>
    intro i l h
    obtain ⟨a, b⟩ := p
    rw [swapGo] at h
    rcases ih _ _ h with h | ⟨q, hq, h⟩
    · split at h
      · rcases List.mem_or_eq_of_mem_set h with h | h
        · rcases List.mem_or_eq_of_mem_set h with h | h
          · exact Or.inl h
          · exact Or.inr ⟨(a, b), List.mem_cons_self, Or.inr h⟩
        · exact Or.inr ⟨(a, b), List.mem_cons_self, Or.inl h⟩
      · exact Or.inl h
    · exact Or.inr ⟨q, List.mem_cons_of_mem _ hq, h⟩

theorem swapOffs_mem (x : Msg) (l : List Msg) (h : x ∈ swapOffs l) : x ∈ l := by
  rcases swapGo_mem x _ _ _ h with h | ⟨p, hp, h⟩
  · exact h
  · obtain ⟨h1, h2⟩ := List.of_mem_zip hp
    rcases h with rfl | rfl
    · exact h1
    · exact List.mem_of_mem_tail h2

theorem addEnd_mem (l t : List Msg) (h : addEnd l = .ok t) :
    ∀ e ∈ t, e ∈ l ∨ (e.body = .endOfTrack ∧ ∃ m ∈ l, e.time = m.time + 1) := by
  unfold addEnd at h
  cases hl : l.getLast? with
  | none => rw [hl] at h; cases h
  | some m =>
    rw [hl] at h
    have h := Except.ok.inj h
    subst h
    intro e he
    rcases List.mem_append.1 he with he | he
    · exact Or.inl he
    · simp only [List.mem_singleton] at he
      subst he
      exact Or.inr ⟨rfl, m, List.mem_of_getLast? hl, rfl⟩

/-- The events a track is made from. -/
def TrackSource (pm : PM) (evs : List Msg) : Prop :=
  timingEvents pm = .ok evs ∨ ∃ i ∈ pm.insts, ∃ ch, instEvents pm.clock ch i = .ok evs

theorem instTracks_mem (srt : List Msg → List Msg) (hp : ∀ l, (srt l).Perm l) (c : Clock) (drum : Nat) :
    ∀ (is : List PInst) (n : Nat) (ts : List (List Msg)), instTracks srt c drum n is = .ok ts → ∀ t ∈ ts,
      ∃ evs, (∃ i ∈ is, ∃ ch, instEvents c ch i = .ok evs) ∧
        ∀ e ∈ t, e ∈ evs ∨ (e.body = .endOfTrack ∧ ∃ m ∈ evs, e.time = m.time + 1) := by
  intro is
  induction is with
  | nil =>
    intro n ts h t ht
    rw [instTracks] at h
    rw [← Except.ok.inj h] at ht
    cases ht
  | cons i is ih =>
    intro n ts h t ht
    rw [instTracks] at h
    cases h1 : instTrack srt c drum n i with
    | error e => rw [h1] at h; cases h
    | ok t1 =>
      rw [h1] at h
      cases h2 : instTracks srt c drum (n + 1) is with
      | error e => simp only [h2, bind, Except.bind] at h; cases h
      | ok ts1 =>
        simp only [h2, bind, Except.bind] at h
        rw [← Except.ok.inj h] at ht
        rcases List.mem_cons.1 ht with rfl | ht
        · unfold instTrack at h1
          cases h3 : channelOf drum n i.isDrum with
          | error e => simp only [h3, bind, Except.bind] at h1; cases h1
          | ok ch =>
            cases h4 : instEvents c ch i with
            | error e => simp only [h3, h4, bind, Except.bind] at h1; cases h1
            | ok evs =>
              simp only [h3, h4, bind, Except.bind] at h1
              refine ⟨evs, ⟨i, List.mem_cons_self, ch, h4⟩, ?_⟩
              have hm : ∀ m ∈ swapOffs (srt evs), m ∈ evs := fun m hm => (hp _).mem_iff.1 (swapOffs_mem m _ hm)
              intro e he
              rcases addEnd_mem _ _ h1 e he with h5 | ⟨h5, m, h6, h7⟩
              · exact Or.inl (hm e h5)
              · exact Or.inr ⟨h5, m, hm m h6, h7⟩
        · obtain ⟨evs, ⟨j, hj, hc⟩, he⟩ := ih (n + 1) ts1 h2 t ht
          exact ⟨evs, ⟨j, List.mem_cons_of_mem _ hj, hc⟩, he⟩

/-- Every track of a written file holds, in absolute ticks, messages made from the object and an end one tick after one of them. -/
theorem serialize_mem (srt : List Msg → List Msg) (hp : ∀ l, (srt l).Perm l) (pm : PM) (tracks : List (List Msg))
    (h : pm.serialize srt = .ok tracks) : ∀ t ∈ tracks, ∃ evs, TrackSource pm evs ∧
      ∀ e ∈ toAbs t, e ∈ evs ∨ (e.body = .endOfTrack ∧ ∃ m ∈ evs, e.time = m.time + 1) := by
  unfold PM.serialize at h
  cases h1 : timingEvents pm with
  | error e => rw [h1] at h; cases h
  | ok evs =>
    cases h2 : addEnd (srt evs) with
    | error e => simp only [h1, h2, bind, Except.bind] at h; cases h
    | ok t0 =>
      by_cases hd : 16 ≤ pm.drum
      · simp only [h1, h2, bind, Except.bind, if_pos hd] at h; cases h
      · cases h3 : instTracks srt pm.clock pm.drum 0 pm.insts with
        | error e => simp only [h1, h2, h3, bind, Except.bind, if_neg hd] at h; cases h
        | ok ts =>
          simp only [h1, h2, h3, bind, Except.bind, if_neg hd] at h
          rw [← Except.ok.inj h]
          intro t ht
          obtain ⟨u, hu, rfl⟩ := List.mem_map.1 ht
          rw [(C55_roundtrip u).2]
          rcases List.mem_cons.1 hu with rfl | hu
          · refine ⟨evs, Or.inl h1, ?_⟩
            intro e he
            rcases addEnd_mem _ _ h2 e he with h5 | ⟨h5, m, h6, h7⟩
            · exact Or.inl ((hp _).mem_iff.1 h5)
            · exact Or.inr ⟨h5, m, (hp _).mem_iff.1 h6, h7⟩
          · obtain ⟨evs, hi, he⟩ := instTracks_mem srt hp pm.clock pm.drum pm.insts 0 ts h3 u hu
            exact ⟨evs, Or.inr hi, he⟩

namespace Spec

/-- What `MidiReader` asks of an object beyond being writable: channel 9 for drums, MIDI programs, the 24 keys, time signatures with a positive numerator and a power of two
as denominator, no pitch bend of -8192, at most 128 instruments. -/
structure ReadableBack (pm : PM) : Prop extends WritablePM (Unnamed pm) where
  drum9 : pm.drum = 9
  programs : ∀ i ∈ pm.insts, i.program ≤ 127
  keys : ∀ k ∈ pm.keySigs, k.1 < 24
  times : ∀ k ∈ pm.timeSigs, 0 < k.1 ∧ denomOk k.2.1 = true
  bends : ∀ i ∈ pm.insts, ∀ b ∈ i.bends, b.1 ≠ -8192
  count : pm.insts.length ≤ 128

end Spec

/-- The bodies of the messages of a written file. -/
theorem source_bodies (pm : PM) (h : Spec.ReadableBack pm) (evs : List Msg) (hs : TrackSource pm evs) :
    ∀ m ∈ evs, Spec.MidiRange m ∧ (∀ ch p, m.body = .pitchwheel ch p → -8191 ≤ p ∧ p ≤ 8191) ∧ (∀ k, m.body = .keySig k → k < 24) ∧
      (∀ n d, m.body = .timeSig n d → 0 < n ∧ denomOk d = true) := by
  obtain ⟨tk, htk, _⟩ := tick_fun pm.clock h.clock
  rcases hs with hs | ⟨i, hi, ch, hs⟩
  · obtain ⟨q, hq, hq0⟩ := writable_list pm.clock.res pm.clock.scales h.tempo.whole
    rw [timingEvents_eq pm h.clock tk htk q hq hq0] at hs
    have hs := Except.ok.inj hs
    subst hs
    intro m hm
    unfold timingList at hm
    simp only [List.mem_append, List.mem_map] at hm
    rcases hm with (((hm | ⟨x, _, rfl⟩) | ⟨x, hx, rfl⟩) | ⟨x, hx, rfl⟩) | ⟨x, _, rfl⟩
    · split at hm
      · simp only [List.mem_singleton] at hm
        subst hm
        refine ⟨trivial, by simp, by simp, ?_⟩
        intro n d hb
        simp only [Body.timeSig.injEq] at hb
        rw [← hb.1, ← hb.2]
        decide
      · cases hm
    · exact ⟨trivial, by simp, by simp, by simp⟩
    · refine ⟨trivial, by simp, by simp, ?_⟩
      intro n d hb
      simp only [Body.timeSig.injEq] at hb
      rw [← hb.1, ← hb.2]
      exact h.times x hx
    · refine ⟨trivial, by simp, ?_, by simp⟩
      intro k hb
      simp only [Body.keySig.injEq] at hb
      rw [← hb]
      exact h.keys x hx
    · exact ⟨trivial, by simp, by simp, by simp⟩
  · rw [instEvents_named pm.clock tk htk] at hs
    have hs := Except.ok.inj hs
    subst hs
    have hp := h.insts { i with name := "" } (List.mem_map.2 ⟨i, hi, rfl⟩)
    intro m hm
    unfold instList at hm
    simp only [List.mem_append, List.mem_flatMap, List.mem_map, List.mem_singleton] at hm
    rcases hm with hm | (((rfl | ⟨n, hn, hm⟩) | ⟨x, hx, rfl⟩) | ⟨x, _, rfl⟩)
    · split at hm
      · simp only [List.mem_singleton] at hm
        subst hm
        exact ⟨trivial, by simp, by simp, by simp⟩
      · cases hm
    · exact ⟨h.programs i hi, by simp, by simp, by simp⟩
    · have hr := hp.range.notes n hn
      simp only [List.mem_cons, List.not_mem_nil, or_false] at hm
      rcases hm with rfl | rfl
      · exact ⟨hr, by simp, by simp, by simp⟩
      · exact ⟨⟨hr.1, by omega⟩, by simp, by simp, by simp⟩
    · refine ⟨trivial, ?_, by simp, by simp⟩
      intro c p hb
      simp only [Body.pitchwheel.injEq] at hb
      have h1 := hp.range.bends x hx
      have h2 := h.bends i hi x hx
      rw [← hb.2]
      omega
    · exact ⟨trivial, by simp, by simp, by simp⟩

/-- A written file is one `MidiReader` reads. -/
theorem written_midiFile (srt : List Msg → List Msg) (hp : ∀ l, (srt l).Perm l) (pm : PM) (h : Spec.ReadableBack pm) (tracks : List (List Msg))
    (hs : pm.serialize srt = .ok tracks) (hg : Spec.GoodFile tracks) : Spec.MidiFile tracks := by
  have all : ∀ t ∈ tracks, ∀ e ∈ t, Spec.MidiRange e ∧ (∀ ch p, e.body = .pitchwheel ch p → -8191 ≤ p ∧ p ≤ 8191) ∧ (∀ k, e.body = .keySig k → k < 24) ∧
      (∀ n d, e.body = .timeSig n d → 0 < n ∧ denomOk d = true) := by
    intro t ht e he
    obtain ⟨evs, h1, h2⟩ := serialize_mem srt hp pm tracks hs t ht
    have hm : e.body ∈ t.map (fun e => e.body) := List.mem_map_of_mem he
    rw [← toAbs_body] at hm
    obtain ⟨x, hx, hxe⟩ := List.mem_map.1 hm
    rcases h2 x hx with h3 | ⟨h3, _⟩
    · have := source_bodies pm h evs h1 x h3
      rw [hxe] at this
      exact ⟨MidiRange_body hxe this.1, this.2⟩
    · rw [hxe] at h3
      unfold Spec.MidiRange
      rw [h3]
      exact ⟨trivial, by simp, by simp, by simp⟩
  exact ⟨hg, fun t ht e he => (all t ht e he).1, fun t ht e he => (all t ht e he).2.1, fun t ht e he => (all t (List.mem_of_mem_head? ht) e he).2.2.1,
    fun t ht e he => (all t (List.mem_of_mem_head? ht) e he).2.2.2⟩

/-- **C145, reading a written object.** Write any object `MidiReader` can read back; if the file is shorter than 1000000000 ticks, reading it gives one track for every instrument that has a note,
in their order, with its program, drum flag and name; the notes of the track are those of the instrument (except notes `math.isclose` to empty) in the order of their ends, and its total time
is the last end. -/
theorem C145_written_object (srt : List Msg → List Msg) (hsrt : IsTrackSort srt) (pm : PM) (h : Spec.ReadableBack pm) :
    ∃ tracks, pm.serialize srt = .ok tracks ∧
      ((∀ t ∈ tracks, ∀ e ∈ toAbs t, e.time < 1000000000) →
        ∃ song, readFile pm.clock.res tracks = .ok song ∧
          song.tracks.seqs.keys = (List.range (pm.insts.filter (fun i => !i.notes.isEmpty)).length).map Int.ofNat ∧
          ∀ (k : Nat) i, (pm.insts.filter (fun i => !i.notes.isEmpty))[k]? = some i → ∃ t, Spec.TrackAt song k t ∧
            (t.notes.map Spec.trackData).Perm ((i.notes.filter Spec.solid).map Spec.noteData) ∧
            t.notes.Pairwise (fun a b => a.stop ≤ b.stop) ∧
            (∀ n ∈ t.notes, n.program = i.program ∧ n.isDrum = i.isDrum) ∧
            t.instr.num = i.program ∧ t.instr.isDrum = i.isDrum ∧ (i.name ≠ "" → t.instr.name = i.name) ∧
            Spec.LastEnd (i.notes.filter Spec.solid) t.total) := by
  obtain ⟨tracks, h1, h2⟩ := reread_named srt hsrt pm h.toWritablePM
  refine ⟨tracks, h1, fun hshort => ?_⟩
  obtain ⟨pm', g1, g0, _, _, tk, _, _, _, g5, _⟩ := h2 hshort
  obtain ⟨pm2, k1, k2, k3⟩ := loaded_readable pm.clock.res h.clock.1 tracks (written_midiFile srt hsrt.cmp.perm pm h tracks h1 g0)
  rw [h.drum9, k1] at g1
  have g1 := Except.ok.inj g1
  subst g1
  have hlen : pm2.insts.length = (pm.insts.filter (fun i => !i.notes.isEmpty)).length := g5.length_eq.symm
  have hcount : pm2.insts.length ≤ 128 := by
    rw [hlen]
    exact le_trans (List.length_filter_le _ _) h.count
  have hread := k3 hcount
  obtain ⟨keys, tempos, times, us, tot, _, _, _, r4, r5, _, r7⟩ := readSong_eq pm2 hread
  refine ⟨⟨enumTracks us, tot, keys, tempos, times, pm2.clock.res⟩, ?_, ?_, ?_⟩
  · unfold readFile
    rw [k1]
    exact r4
  · show (List.range us.length).map Int.ofNat = _
    rw [r5, hlen]
  · intro k i hi
    have hk := (List.getElem?_eq_some_iff.1 hi).1
    have hk2 : k < pm2.insts.length := by omega
    have hj : pm2.insts[k]? = some pm2.insts[k] := List.getElem?_eq_getElem hk2
    have hu : us[k]? = some us[k] := List.getElem?_eq_getElem (by omega)
    have S : Spec.SameInst pm.clock.scales tk i pm2.insts[k] := by
      have := List.forall₂_iff_get.1 g5
      have hh := this.2 k hk hk2
      rw [List.get_eq_getElem, List.get_eq_getElem] at hh
      rw [(List.getElem?_eq_some_iff.1 hi).2] at hh
      exact hh
    have T := r7 k _ _ hj hu
    have hE := k2 _ (List.getElem_mem hk2)
    have hE' : Spec.EndsInOrder ((pm2.insts[k]).notes.filter Spec.solid) := hE.sublist List.filter_sublist
    refine ⟨us[k], TrackOf.trackAt (by omega) hu _ rfl, ?_, ?_, ?_, ?_, ?_, ?_, ?_⟩
    · rw [T.notes, records_all _ hE', List.map_map]
      exact (S.notes.filter _).map _
    · rw [T.notes, records_all _ hE', List.pairwise_map]
      exact hE'
    · intro n hn
      rw [T.notes] at hn
      obtain ⟨m, _, rfl⟩ := List.mem_map.1 hn
      exact ⟨congrArg Int.ofNat S.program, S.isDrum⟩
    · rw [T.num, S.program]
    · rw [T.drum, S.isDrum]
    · rw [← S.name]
      exact T.name
    · have hl := T.total
      have hp := S.notes.filter Spec.solid
      refine ⟨fun m hm => hl.1 m (hp.mem_iff.2 hm), ?_⟩
      rcases hl.2 with ⟨h0, hq⟩ | ⟨m, hm, hq⟩
      · left
        rw [h0] at hp
        exact ⟨List.nil_perm.1 hp, hq⟩
      · exact Or.inr ⟨m, hp.mem_iff.1 hm, hq⟩

/-! ### Saving a sequence -/

namespace Spec

/-- `k` is a tick nearest to the time `t`, in a file with 440 ticks to the second. -/
def Nearest440 (t : ℚ) (k : Nat) : Prop := ∀ j : Nat, |t - k / 440| ≤ |t - j / 440|

/-- A sequence that can be saved without loss, when its times are moved to the ticks `tk`: it has notes, a MIDI program, MIDI pitches and velocities, no velocity 0; no note is shorter than a tick,
starts inside another or together with another of its pitch; all ends are below 999999999 ticks (26 days). -/
structure Savable (tk : ℚ → Nat) (s : MSeq) : Prop where
  nonempty : s.notes ≠ []
  program : 0 ≤ s.instr.num ∧ s.instr.num ≤ 127
  range : ∀ n ∈ s.notes, 0 ≤ n.pitch ∧ n.pitch ≤ 127 ∧ 1 ≤ n.velocity ∧ n.velocity ≤ 127
  length : ∀ n ∈ s.notes, tk n.start < tk n.stop
  melodic : ∀ a ∈ s.notes, ∀ b ∈ s.notes, ¬ (tk a.start < tk b.start ∧ tk b.start < tk a.stop)
  distinct : s.notes.Pairwise (fun a b => a.pitch = b.pitch → tk a.start ≠ tk b.start)
  short : ∀ n ∈ s.notes, tk n.stop < 999999999

end Spec

/-- The clock of a saved file. -/
def saveClock : Clock := ⟨220, [(0, 1/440)], [0]⟩

theorem saveClock_fresh : Clock.fresh 220 120 = .ok saveClock := by
  unfold Clock.fresh saveClock
  norm_num

theorem saveClock_ok : ClockOk saveClock := by
  obtain ⟨c, h1, h2, _⟩ := C56_fresh 220 120 (by norm_num) (by norm_num)
  rw [saveClock_fresh] at h1
  rw [Except.ok.inj h1]
  exact h2

theorem saveClock_seconds (k : Nat) : Spec.seconds saveClock.scales k = k / 440 := by
  have h : ∀ j, Spec.scaleAt saveClock.scales j = 1/440 := by
    intro j
    simp [Spec.scaleAt, saveClock]
  unfold Spec.seconds
  simp only [h]
  rw [List.map_const', List.sum_replicate, List.length_range, nsmul_eq_mul]
  ring

/-- The instrument of the saved file. -/
def saveInst (s : MSeq) : PInst :=
  ⟨s.instr.num.toNat, s.instr.isDrum, s.instr.name,
    (sortByKey Note.start s.notes).map (fun n => ⟨n.velocity.toNat, n.pitch.toNat, n.start, n.stop⟩), [], []⟩

theorem sortByKey_nil_iff {α : Type} (key : α → ℚ) (l : List α) : sortByKey key l = [] ↔ l = [] := by
  constructor
  · intro h
    have := sortByKey_perm key l
    rw [h] at this
    exact (List.nil_perm.1 this)
  · rintro rfl
    exact List.perm_nil.1 (sortByKey_perm key [])

theorem toMidiFile_eq (srt : List Msg → List Msg) (s : MSeq) (h : s.notes ≠ []) :
    s.toMidiFile (some (saveMidi srt)) = PM.serialize srt ⟨saveClock, 9, [], [], [], [⟨0, false, "", [], [], []⟩, saveInst s]⟩ := by
  unfold MSeq.toMidiFile saveMidi saveObject
  simp only
  rw [if_neg (fun h0 => h ((sortByKey_nil_iff _ _).1 h0)), saveClock_fresh]
  rfl

/-- **C145, saving a sequence and reading it back.** There is a choice of nearest ticks `tk` such that every sequence that can be saved without loss on these ticks, saved with `to_midi_file` and
read with `MidiReader`, gives a song with exactly one track, which has the instrument number, drum flag and name of the sequence and exactly its notes, moved to their ticks, in the order of their
ends; its total time is the last end. -/
theorem C145_save_and_read (srt : List Msg → List Msg) (hsrt : IsTrackSort srt) :
    ∃ tk : ℚ → Nat, (∀ t, Spec.Nearest440 t (tk t)) ∧ ∀ s : MSeq, Spec.Savable tk s →
      ∃ tracks song t, s.toMidiFile (some (saveMidi srt)) = .ok tracks ∧ readFile 220 tracks = .ok song ∧
        song.tracks.seqs.keys = [0] ∧ Spec.TrackAt song 0 t ∧
        (t.notes.map Spec.trackData).Perm (s.notes.map (fun n => (n.velocity, n.pitch, (tk n.start : ℚ) / 440, (tk n.stop : ℚ) / 440))) ∧
        t.notes.Pairwise (fun a b => a.stop ≤ b.stop) ∧
        (∀ n ∈ t.notes, n.program = s.instr.num ∧ n.isDrum = s.instr.isDrum) ∧
        t.instr.num = s.instr.num ∧ t.instr.isDrum = s.instr.isDrum ∧ (s.instr.name ≠ "" → t.instr.name = s.instr.name) ∧
        (∀ n ∈ t.notes, n.stop ≤ t.total) ∧ ∃ n ∈ t.notes, n.stop = t.total := by
  obtain ⟨tk, htk, hnear⟩ := tick_fun saveClock saveClock_ok
  refine ⟨tk, ?_, ?_⟩
  · intro t j
    have := hnear t j
    rw [saveClock_seconds, saveClock_seconds] at this
    exact this
  intro s hs
  have hperm := sortByKey_perm Note.start s.notes
  obtain ⟨pm, hpm⟩ : ∃ pm : PM, pm = ⟨saveClock, 9, [], [], [], [⟨0, false, "", [], [], []⟩, Spec.snapInst saveClock.scales tk (saveInst s)]⟩ := ⟨_, rfl⟩
  have hser : s.toMidiFile (some (saveMidi srt)) = pm.serialize srt := by
    rw [toMidiFile_eq srt s hs.nonempty, C144_off_grid srt _ saveClock_ok tk htk, hpm]
    rfl
  have hnotes : (Spec.snapInst saveClock.scales tk (saveInst s)).notes =
      (sortByKey Note.start s.notes).map (fun n => (⟨n.velocity.toNat, n.pitch.toNat, (tk n.start : ℚ) / 440, (tk n.stop : ℚ) / 440⟩ : PNote)) := by
    unfold Spec.snapInst saveInst
    simp only [List.map_map, saveClock_seconds]
    rfl
  have hmem : ∀ n ∈ (Spec.snapInst saveClock.scales tk (saveInst s)).notes, ∃ m ∈ s.notes,
      n = ⟨m.velocity.toNat, m.pitch.toNat, (tk m.start : ℚ) / 440, (tk m.stop : ℚ) / 440⟩ := by
    intro n hn
    rw [hnotes] at hn
    obtain ⟨m, hm, rfl⟩ := List.mem_map.1 hn
    exact ⟨m, hperm.mem_iff.1 hm, rfl⟩
  have hlt : ∀ a b : Nat, (a : ℚ) / 440 < b / 440 ↔ a < b := by
    intro a b
    rw [div_lt_div_iff_of_pos_right (by norm_num)]
    exact Nat.cast_lt
  have heq : ∀ a b : Nat, (a : ℚ) / 440 = b / 440 ↔ a = b := by
    intro a b
    rw [div_left_inj' (by norm_num)]
    exact Nat.cast_inj
  have hback : Spec.ReadableBack pm := by
    subst hpm
    refine ⟨⟨saveClock_ok, ⟨?_, ?_⟩, show (9 : Nat) < 16 by decide, ?_⟩, rfl, ?_, by simp, by simp, ?_, by simp⟩
    · intro p hp
      simp only [Spec.Unnamed, saveClock, List.mem_singleton] at hp
      subst hp
      exact ⟨500000, by decide, by simp only [Spec.perTick, Spec.Unnamed, saveClock]; norm_num⟩
    · simp [Spec.Unnamed, saveClock]
    · intro i hi
      simp only [Spec.Unnamed, List.map_cons, List.map_nil, List.mem_cons, List.not_mem_nil, or_false] at hi
      rcases hi with rfl | rfl
      · exact ⟨⟨by simp, by simp, by simp⟩, rfl, by simp, by simp, by simp, by simp⟩
      · refine ⟨⟨?_, by simp [Spec.snapInst, saveInst], by simp [Spec.snapInst, saveInst]⟩, rfl, ?_, ?_, ?_, ?_⟩
        · intro n hn
          obtain ⟨m, hm, rfl⟩ := hmem n hn
          have := hs.range m hm
          simp only
          omega
        · intro n hn
          obtain ⟨m, hm, rfl⟩ := hmem n hn
          have := hs.range m hm
          simp only
          omega
        · intro n hn
          obtain ⟨m, hm, rfl⟩ := hmem n hn
          exact ⟨_, _, hs.length m hm, (saveClock_seconds _).symm, (saveClock_seconds _).symm⟩
        · intro a ha b hb
          obtain ⟨a', ha', rfl⟩ := hmem a ha
          obtain ⟨b', hb', rfl⟩ := hmem b hb
          simp only [hlt]
          exact hs.melodic a' ha' b' hb'
        · simp only
          rw [hnotes, List.pairwise_map]
          have hd : (sortByKey Note.start s.notes).Pairwise (fun a b => a.pitch = b.pitch → tk a.start ≠ tk b.start) :=
            hperm.symm.pairwise hs.distinct (fun {a b} hab h1 h2 => hab h1.symm h2.symm)
          refine hd.imp_of_mem ?_
          intro a b ha hb hab h1
          rw [Ne, heq]
          have r1 := hs.range a (hperm.mem_iff.1 ha)
          have r2 := hs.range b (hperm.mem_iff.1 hb)
          exact hab (by simp only at h1; omega)
    · intro i hi
      simp only [List.mem_cons, List.not_mem_nil, or_false] at hi
      rcases hi with rfl | rfl
      · simp
      · have := hs.program
        simp only [Spec.snapInst, saveInst]
        omega
    · intro i hi
      simp only [List.mem_cons, List.not_mem_nil, or_false] at hi
      rcases hi with rfl | rfl <;> simp [Spec.snapInst, saveInst]
  obtain ⟨tracks, h1, h2⟩ := C145_written_object srt hsrt pm hback
  have hshort : ∀ t ∈ tracks, ∀ e ∈ toAbs t, e.time < 1000000000 := by
    have hex : ∀ k : Nat, tk ((k : ℚ) / 440) = k := by
      intro k
      rw [← saveClock_seconds]
      exact tick_exact saveClock saveClock_ok tk hnear k
    have hsrc : ∀ evs, TrackSource pm evs → ∀ m ∈ evs, m.time < 999999999 := by
      intro evs hevs
      rcases hevs with hevs | ⟨i, hi, ch, hevs⟩
      · subst hpm
        rw [timingEvents_eq _ saveClock_ok tk htk [(0, 500000)] (by simp only [List.map_cons, List.map_nil, Spec.perTick, saveClock]; norm_num) (by simp)] at hevs
        rw [← Except.ok.inj hevs]
        intro m hm
        simp only [timingList, List.map_cons, List.map_nil, List.append_nil, List.mem_append, List.mem_singleton] at hm
        rcases hm with hm | hm
        · simp only [true_or, if_true, List.mem_singleton] at hm
          subst hm; norm_num
        · subst hm; norm_num
      · have hc : pm.clock = saveClock := by rw [hpm]
        rw [hc, instEvents_named _ tk htk] at hevs
        rw [← Except.ok.inj hevs]
        intro m hm
        rw [hpm] at hi
        simp only [List.mem_cons, List.not_mem_nil, or_false] at hi
        rcases List.mem_append.1 hm with hm | hm
        · split at hm
          · simp only [List.mem_singleton] at hm; subst hm; norm_num
          · cases hm
        · unfold instList at hm
          have hb : i.bends = [] ∧ i.controls = [] := by
            rcases hi with rfl | rfl
            · exact ⟨rfl, rfl⟩
            · simp [Spec.snapInst, saveInst]
          rw [hb.1, hb.2] at hm
          simp only [List.map_nil, List.append_nil, List.mem_append, List.mem_singleton, List.mem_flatMap] at hm
          rcases hm with rfl | ⟨n, hn, hm⟩
          · norm_num
          · rcases hi with rfl | rfl
            · cases hn
            · obtain ⟨a, ha, rfl⟩ := hmem n hn
              have l1 := hs.length a ha
              have l2 := hs.short a ha
              simp only [hex, List.mem_cons, List.not_mem_nil, or_false] at hm
              rcases hm with rfl | rfl
              · simp only; omega
              · simp only; omega
    intro t ht e he
    obtain ⟨evs, h3, h4⟩ := serialize_mem srt hsrt.cmp.perm pm tracks h1 t ht
    rcases h4 e he with h5 | ⟨_, m, h5, h6⟩
    · have := hsrc evs h3 e h5
      omega
    · have := hsrc evs h3 m h5
      omega
  obtain ⟨song, g1, g2, g3⟩ := h2 hshort
  have hfil : pm.insts.filter (fun i => !i.notes.isEmpty) = [Spec.snapInst saveClock.scales tk (saveInst s)] := by
    rw [hpm]
    have hne : (Spec.snapInst saveClock.scales tk (saveInst s)).notes ≠ [] := by
      rw [hnotes]
      intro h0
      exact hs.nonempty ((sortByKey_nil_iff _ _).1 (List.map_eq_nil_iff.1 h0))
    rw [List.filter_cons_of_neg (by simp), List.filter_cons_of_pos (by simp [hne]), List.filter_nil]
  rw [hfil] at g2 g3
  obtain ⟨t, t1, t2, t3, t4, t5, t6, t7, t8⟩ := g3 0 _ rfl
  have hsolid : ∀ n ∈ (Spec.snapInst saveClock.scales tk (saveInst s)).notes, Spec.solid n = true := by
    intro n hn
    obtain ⟨a, ha, rfl⟩ := hmem n hn
    have l1 := hs.length a ha
    have l2 := hs.short a ha
    have c1 : (tk a.start : ℚ) + 1 ≤ tk a.stop := by exact_mod_cast l1
    have c2 : (tk a.stop : ℚ) < 999999999 := by exact_mod_cast l2
    have c0 : (0 : ℚ) ≤ tk a.start := Nat.cast_nonneg _
    unfold Spec.solid isclose
    simp only [Bool.not_eq_true', decide_eq_false_iff_not, not_le]
    rw [max_eq_left (by positivity), abs_of_nonneg (by positivity), abs_of_nonneg (by positivity), max_eq_right (by
      apply div_le_div_of_nonneg_right _ (by norm_num)
      linarith), abs_sub_comm, abs_of_nonneg (by
      rw [← sub_div]
      apply div_nonneg _ (by norm_num)
      linarith)]
    linarith
  rw [List.filter_eq_self.2 hsolid] at t2 t8
  have hnum : (((Spec.snapInst saveClock.scales tk (saveInst s)).program : Nat) : Int) = s.instr.num := by
    have := hs.program
    simp only [Spec.snapInst, saveInst]
    omega
  have hdata : ((Spec.snapInst saveClock.scales tk (saveInst s)).notes.map Spec.noteData).Perm
      (s.notes.map (fun n => (n.velocity, n.pitch, (tk n.start : ℚ) / 440, (tk n.stop : ℚ) / 440))) := by
    rw [hnotes, List.map_map]
    refine (hperm.map _).trans (List.Perm.of_eq (List.map_congr_left ?_))
    intro n hn
    have := hs.range n hn
    simp only [Function.comp, Spec.noteData, Prod.mk.injEq, and_true, true_and]
    omega
  have hstop : ∀ q, q ∈ t.notes.map (fun n => n.stop) ↔ q ∈ (Spec.snapInst saveClock.scales tk (saveInst s)).notes.map (fun n => n.stop) := by
    intro q
    have := (t2.map (fun d : Int × Int × ℚ × ℚ => d.2.2.2)).mem_iff (a := q)
    rw [List.map_map, List.map_map] at this
    exact this
  refine ⟨tracks, song, t, hser.trans h1, ?_, ?_, t1, t2.trans hdata, t3, ?_, ?_, t6, t7, ?_, ?_⟩
  · rw [hpm] at g1
    exact g1
  · rw [g2]; rfl
  · intro n hn
    rw [← hnum]
    exact t4 n hn
  · rw [t5, hnum]
  · intro n hn
    obtain ⟨m, hm, he⟩ := List.mem_map.1 ((hstop n.stop).1 (List.mem_map_of_mem hn))
    have he : m.stop = n.stop := he
    rw [← he]
    exact t8.1 m hm
  · rcases t8.2 with ⟨h0, _⟩ | ⟨m, hm, he⟩
    · exfalso
      rw [hnotes] at h0
      exact hs.nonempty ((sortByKey_nil_iff _ _).1 (List.map_eq_nil_iff.1 h0))
    · obtain ⟨n, hn, hne⟩ := List.mem_map.1 ((hstop m.stop).2 (List.mem_map_of_mem hm))
      exact ⟨n, hn, by rw [← he]; exact hne⟩

/-- **C145, on the grid.** A sequence all of whose times are on the 440 ticks per second of the file comes back with exactly its notes. -/
theorem C145_on_grid (srt : List Msg → List Msg) (hsrt : IsTrackSort srt) (s : MSeq) (h0 : s.notes ≠ []) (hi : 0 ≤ s.instr.num ∧ s.instr.num ≤ 127)
    (hr : ∀ n ∈ s.notes, 0 ≤ n.pitch ∧ n.pitch ≤ 127 ∧ 1 ≤ n.velocity ∧ n.velocity ≤ 127)
    (hg : ∀ n ∈ s.notes, ∃ a b : Nat, n.start = a / 440 ∧ n.stop = b / 440 ∧ a < b ∧ b < 999999999)
    (hm : ∀ a ∈ s.notes, ∀ b ∈ s.notes, ¬ (a.start < b.start ∧ b.start < a.stop))
    (hd : s.notes.Pairwise (fun a b => a.pitch = b.pitch → a.start ≠ b.start)) :
    ∃ tracks song t, s.toMidiFile (some (saveMidi srt)) = .ok tracks ∧ readFile 220 tracks = .ok song ∧
      song.tracks.seqs.keys = [0] ∧ Spec.TrackAt song 0 t ∧ (t.notes.map Spec.trackData).Perm (s.notes.map Spec.trackData) ∧
      t.instr.num = s.instr.num ∧ t.instr.isDrum = s.instr.isDrum ∧ (s.instr.name ≠ "" → t.instr.name = s.instr.name) := by
  obtain ⟨tk, h1, h2⟩ := C145_save_and_read srt hsrt
  have hex : ∀ (k : Nat) (q : ℚ), q = k / 440 → tk q = k := by
    rintro k q rfl
    have := h1 (k / 440) k
    rw [sub_self, abs_zero] at this
    have h3 := abs_eq_zero.1 (le_antisymm this (abs_nonneg _))
    have h4 : (k : ℚ) = tk (k / 440) := by linarith
    exact_mod_cast h4.symm
  have hmin : ∀ n ∈ s.notes, n.start = (tk n.start : ℚ) / 440 ∧ n.stop = (tk n.stop : ℚ) / 440 ∧ tk n.start < tk n.stop ∧ tk n.stop < 999999999 := by
    intro n hn
    obtain ⟨a, b, g1, g2, g3, g4⟩ := hg n hn
    rw [hex a _ g1, hex b _ g2]
    exact ⟨g1, g2, g3, g4⟩
  have hlt : ∀ a b : Nat, a < b → (a : ℚ) / 440 < b / 440 := by
    intro a b hab
    rw [div_lt_div_iff_of_pos_right (by norm_num)]
    exact_mod_cast hab
  obtain ⟨tracks, song, t, g1, g2, g3, g4, g5, _, _, g7, g8, g9, _⟩ := h2 s {
    nonempty := h0, program := hi, range := hr
    length := fun n hn => (hmin n hn).2.2.1
    melodic := by
      rintro a ha b hb ⟨q1, q2⟩
      refine hm a ha b hb ⟨?_, ?_⟩
      · rw [(hmin a ha).1, (hmin b hb).1]; exact hlt _ _ q1
      · rw [(hmin b hb).1, (hmin a ha).2.1]; exact hlt _ _ q2
    distinct := by
      refine hd.imp_of_mem ?_
      intro a b ha hb hab hp he
      refine hab hp ?_
      rw [(hmin a ha).1, (hmin b hb).1, he]
    short := fun n hn => (hmin n hn).2.2.2 }
  refine ⟨tracks, song, t, g1, g2, g3, g4, g5.trans (List.Perm.of_eq (List.map_congr_left ?_)), g7, g8, g9⟩
  intro n hn
  unfold Spec.trackData
  rw [← (hmin n hn).1, ← (hmin n hn).2.1]

theorem channelOf_ok (drum n : Nat) (isDrum : Bool) (hd : drum < 16) : ∃ ch, channelOf drum n isDrum = .ok ch := by
  unfold channelOf
  rw [if_neg (by omega)]
  split
  · exact ⟨_, rfl⟩
  · have hlen : ((List.range 16).filter (fun c => decide (c ≠ drum))).length = 15 := by
      have : ∀ d, d < 16 → ((List.range 16).filter (fun c => decide (c ≠ d))).length = 15 := by decide
      exact this drum hd
    rw [List.getElem?_eq_getElem (by rw [hlen]; exact Nat.mod_lt _ (by decide))]
    exact ⟨_, rfl⟩

/-- **C145, errors.** Without a callback or without notes there is a ValueError; otherwise a file is made. -/
theorem C145_raises (srt : List Msg → List Msg) (hsrt : IsTrackSort srt) (s : MSeq) :
    (s.toMidiFile (α := List (List Msg)) none = .error .value) ∧
    (s.notes = [] → s.toMidiFile (some (saveMidi srt)) = .error .value) ∧
    (s.notes ≠ [] → ∃ tracks, s.toMidiFile (some (saveMidi srt)) = .ok tracks ∧ tracks.length = 3) := by
  refine ⟨rfl, ?_, ?_⟩
  · intro h
    unfold MSeq.toMidiFile saveMidi saveObject
    simp only
    rw [if_pos ((sortByKey_nil_iff _ _).2 h)]
    rfl
  · intro h
    rw [toMidiFile_eq srt s h]
    obtain ⟨tk, htk, _⟩ := tick_fun saveClock saveClock_ok
    have hte := timingEvents_eq ⟨saveClock, 9, [], [], [], [⟨0, false, "", [], [], []⟩, saveInst s]⟩ saveClock_ok tk htk [(0, 500000)]
      (by simp only [List.map_cons, List.map_nil, Spec.perTick, saveClock]; norm_num) (by simp)
    have hend : ∀ l : List Msg, l ≠ [] → ∃ t, addEnd l = .ok t := by
      intro l hl
      unfold addEnd
      obtain ⟨m, hm⟩ := Option.ne_none_iff_exists'.1 (fun h0 => hl (List.getLast?_eq_none_iff.1 h0))
      rw [hm]
      exact ⟨_, rfl⟩
    have hsne : ∀ l : List Msg, l ≠ [] → srt l ≠ [] := by
      intro l hl h0
      have := hsrt.cmp.perm l
      rw [h0] at this
      exact hl (List.nil_perm.1 this)
    obtain ⟨t0, ht0⟩ := hend (srt (timingList tk [(0, 500000)] ⟨saveClock, 9, [], [], [], [⟨0, false, "", [], [], []⟩, saveInst s]⟩)) (hsne _ (by simp [timingList]))
    have hsw : ∀ l : List Msg, l ≠ [] → swapOffs l ≠ [] := by
      intro l hl h0
      have := congrArg List.length (swapOffs_times l)
      rw [h0] at this
      simp only [List.map_nil, List.length_nil, List.length_map] at this
      exact hl (List.length_eq_zero_iff.1 this.symm)
    have hin : ∀ (n : Nat) (i : PInst), ∃ t, instTrack srt saveClock 9 n i = .ok t := by
      intro n i
      obtain ⟨ch, hch⟩ := channelOf_ok 9 n i.isDrum (by decide)
      unfold instTrack
      rw [hch]
      dsimp only [bind, Except.bind]
      rw [instEvents_named _ tk htk]
      exact hend _ (hsw _ (hsne _ (by simp [instList])))
    obtain ⟨t1, ht1⟩ := hin 0 ⟨0, false, "", [], [], []⟩
    obtain ⟨t2, ht2⟩ := hin 1 (saveInst s)
    have hser : PM.serialize srt ⟨saveClock, 9, [], [], [], [⟨0, false, "", [], [], []⟩, saveInst s]⟩ = .ok [toDelta t0, toDelta t1, toDelta t2] := by
      unfold PM.serialize
      rw [hte]
      simp only [bind, Except.bind, ht0, instTracks, ht1, ht2]
      rfl
    exact ⟨_, hser, rfl⟩

/-- **C145, what is saved.** The file depends on the instrument and the visible notes only: resolution, pitch bends, control changes and total time are not saved. -/
theorem C145_only_notes (srt : List Msg → List Msg) (s s' : MSeq) (hi : s.instr = s'.instr) (hn : s.notes = s'.notes) :
    s.toMidiFile (some (saveMidi srt)) = s'.toMidiFile (some (saveMidi srt)) := by
  unfold MSeq.toMidiFile saveMidi
  simp only [hi, hn]

/-! ### Examples -/

/-- A note of the examples. -/
def saveNote (pitch velocity : Int) (start stop : ℚ) : Note := ⟨pitch, start, stop, 5, 5, velocity, -1, -1, 0, 4, 4, false⟩

/-- A chord, a rest and a note, out of order, with a pitch bend. -/
def exSave : MSeq :=
  ⟨[saveNote 67 70 (1/2) 1, saveNote 60 90 0 (1/4), saveNote 64 80 0 (1/2)], [], ⟨5, "piano", false⟩, 1, [], [], 96, 0⟩

/-- The hypotheses of `C145_on_grid` are met, hence those of `C145_save_and_read`. -/
example : ∃ tracks song t, exSave.toMidiFile (some (saveMidi (insSort eventLt))) = .ok tracks ∧ readFile 220 tracks = .ok song ∧
    song.tracks.seqs.keys = [0] ∧ Spec.TrackAt song 0 t ∧ (t.notes.map Spec.trackData).Perm (exSave.notes.map Spec.trackData) ∧
    t.instr.num = 5 ∧ t.instr.isDrum = false ∧ (exSave.instr.name ≠ "" → t.instr.name = "piano") := by
  refine C145_on_grid (insSort eventLt) insertion_isTrackSort exSave (by decide) (by decide) (by decide) ?_ (by decide +kernel) (by decide +kernel)
  intro n hn
  have hn : n = saveNote 67 70 (1/2) 1 ∨ n = saveNote 60 90 0 (1/4) ∨ n = saveNote 64 80 0 (1/2) := by
    simpa [exSave, MSeq.notes] using hn
  rcases hn with rfl | rfl | rfl
  · exact ⟨220, 440, by simp only [saveNote]; norm_num, by simp only [saveNote]; norm_num, by decide, by decide⟩
  · exact ⟨0, 110, by simp only [saveNote]; norm_num, by simp only [saveNote]; norm_num, by decide, by decide⟩
  · exact ⟨0, 220, by simp only [saveNote]; norm_num, by simp only [saveNote]; norm_num, by decide, by decide⟩

/-- What is read back from a saved sequence (insertion sort). -/
def savedNotes (ns : List Note) : Py (List (Int × Int × ℚ × ℚ)) := do
  let tracks ← MSeq.toMidiFile (some (saveMidi (insSort eventLt))) ⟨ns, [], ⟨5, "piano", false⟩, 0, [], [], 96, 0⟩
  let song ← readFile 220 tracks
  let r ← song.tracks.allSeqs
  .ok (r.flatMap (fun t => t.notes.map Spec.trackData))

/-- **C145, defect.** A note that starts while another sounds cuts it: the first note comes back half as long. -/
theorem C145_overlap_cut : savedNotes [saveNote 60 90 0 (1/110), saveNote 64 80 (1/220) (1/88)] = .ok [(90, 60, 0, 1/220), (80, 64, 1/220, 1/88)] := by
  decide +kernel

/-- **C145, defect.** A note of velocity 0 is lost. -/
theorem C145_silent_lost : savedNotes [saveNote 60 0 0 (1/220), saveNote 64 80 0 (1/220)] = .ok [(80, 64, 0, 1/220)] := by
  decide +kernel

end NGC
