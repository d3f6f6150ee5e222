import Verif.EndToEnd
import Verif.PipelineProps3
import Verif.ReaderProps4

/-! C171: from raw MIDI files to the graphs of a dataset. -/

namespace NGC

open Spec

namespace Spec

/-- A note of a track, in seconds of the file. -/
def inSeconds (f : Nat × List (List Msg)) (e : Emit) : PNote :=
  ⟨e.velocity, e.pitch, fileSeconds f.1 ((f.2.map toAbs).headD []) e.start, fileSeconds f.1 ((f.2.map toAbs).headD []) e.stop⟩

/-- The notes of one instrument of a file: the notes of one of its tracks played on channel `ch` with program `p`, in
seconds, without those that are `math.isclose` to empty. -/
def partNotes (f : Nat × List (List Msg)) (t : List Msg) (p ch : Nat) : List PNote :=
  (((trackNotes (toAbs t)).filter (fun e => decide (e.program = p ∧ e.channel = ch))).map (inSeconds f)).filter solid

/-- A raw file as a MIDI program writes it: resolution and tracks within the value ranges, no two note-ons of one
channel and pitch at the same tick, at most 128 instruments. -/
structure RawMidi (f : Nat × List (List Msg)) : Prop where
  res : 0 < f.1
  midi : MidiFile f.2
  apart : ∀ t ∈ f.2, NoStack (toAbs t)
  few : ∀ pm, PM.fromFile f.1 f.2 = .ok pm → pm.insts.length ≤ 128

/-- The track `u` of a song is the part of track `t`, program `p`, channel `ch`: the same notes, and a drum track
exactly if the channel is 9 (channel 10 in the count from 1). -/
structure IsPart (f : Nat × List (List Msg)) (t : List Msg) (p ch : Nat) (u : MSeq) : Prop where
  notes : (u.notes.map trackData).Perm ((partNotes f t p ch).map noteData)
  drum : u.instr.isDrum = decide (ch = 9)
  num : u.instr.num = p
  drums : ∀ n ∈ u.notes, n.isDrum = decide (ch = 9)

/-- The file has a part that is not for drums with at least two notes. -/
def HasTune (f : Nat × List (List Msg)) : Prop :=
  ∃ t ∈ f.2, ∃ p ch, ch ≠ 9 ∧ 2 ≤ (partNotes f t p ch).length

end Spec

/-! ### Loading: the parts of a file -/

/-- The other direction of `loadInstruments_each`: notes of a track on a channel with a program have their instrument. -/
theorem loadInstruments_part (drum : Nat) (tt : Int → ℚ) (tracks : List (List Msg)) (insts : List PInst)
    (h : loadInstruments drum tt tracks = .ok insts) (t : List Msg) (ht : t ∈ tracks) (p ch : Nat) :
    ∃ acts, loadTrack t = .ok acts ∧
      ((actNotes acts).filter (fun e => decide (e.program = p ∧ e.channel = ch)) ≠ [] →
        ∃ i ∈ insts, i.program = p ∧ i.isDrum = decide (ch = drum) ∧
          i.notes = ((actNotes acts).filter (fun e => decide (e.program = p ∧ e.channel = ch))).map (Emit.toP tt)) := by
  unfold loadInstruments at h
  cases hl : loadTracks drum tt 0 ⟨[], [], [], []⟩ tracks with
  | error e => simp only [hl, bind, Except.bind] at h; simp at h
  | ok st =>
    simp only [hl, bind, Except.bind, Except.ok.injEq] at h
    subst h
    obtain ⟨j, hj, rfl⟩ := List.mem_iff_getElem.1 ht
    obtain ⟨acts, h1, h2⟩ := (loadTracks_notesAt drum tt p ch j tracks 0 _ st hl).2 tracks[j] (Nat.zero_le _)
      (by simp [hj])
    refine ⟨acts, h1, fun hne => ?_⟩
    have e2 : notesAt (⟨[], [], [], []⟩ : LoadSt) (p, ch, j) = [] := rfl
    rw [e2, List.nil_append] at h2
    have hinv := loadTracks_instInv drum tt tracks 0 ⟨[], [], [], []⟩ st ⟨by simp [dkeys], by simp⟩ hl
    cases hd : dget st.insts (p, ch, j) with
    | none =>
      exfalso
      simp only [notesAt, hd, Option.map_none, Option.getD_none] at h2
      exact hne (List.map_eq_nil_iff.1 h2.symm)
    | some li =>
      have hq := dget_mem _ _ _ hd
      obtain ⟨g1, g2⟩ := hinv.prog _ hq
      simp only at g1 g2
      refine ⟨li.freeze st.heap, List.mem_map.2 ⟨_, hq, rfl⟩, g1, g2, ?_⟩
      have e1 : notesAt st (p, ch, j) = li.notes := by simp [notesAt, hd]
      show li.notes = _
      rw [← e1, h2]

/-- Each note of a track is in seconds what the time table says. -/
theorem toP_inSeconds (f : Nat × List (List Msg)) (pm : PM) (t0 : List Msg)
    (h2 : f.2.head? = some t0) (h6 : ∀ k, Spec.scaleAt pm.clock.scales k = Spec.tempoInForce f.1 (toAbs t0) k)
    (h7 : ∀ t ∈ f.2, ∀ e ∈ toAbs t, e.time.toNat < pm.clock.times.length ∧
      pm.clock.times.getD e.time.toNat 0 = Spec.seconds pm.clock.scales e.time.toNat)
    (t : List Msg) (ht : t ∈ f.2) (x : Emit) (hx : x ∈ trackNotes (toAbs t)) :
    Emit.toP (fun t => pm.clock.times.getD t.toNat 0) x = inSeconds f x := by
  have hhd : (f.2.map toAbs).headD [] = toAbs t0 := by
    cases hf : f.2 with
    | nil => rw [hf] at h2; simp at h2
    | cons a b =>
      rw [hf] at h2
      simp only [List.head?_cons, Option.some.injEq] at h2
      subst h2; rfl
  obtain ⟨l, ev, r, q1, q2, q3, fe, q4, q5, q6⟩ := trackNotesGo_mem _ _ x hx
  have m1 : ev ∈ toAbs t := by rw [q1]; simp
  have m2 : fe ∈ toAbs t := by rw [q1]; simp [q4]
  have k1 := h7 t ht ev m1
  have k2 := h7 t ht fe m2
  rw [q3] at k1
  rw [q5] at k2
  unfold Emit.toP inSeconds
  dsimp only
  rw [hhd, k1.2, k2.2, scale_sum _ f.1 _ h6, scale_sum _ f.1 _ h6]

theorem enumTracks_loop (s : Song) (us : List MSeq) (h : s.tracks = enumTracks us) (hl : us.length ≤ 128) :
    s.loopTracks = .ok us := by
  unfold Song.loopTracks
  rw [h]
  have hk : (enumTracks us).iter = (List.range us.length).map Int.ofNat := rfl
  have gen : ∀ (n i : Nat) (l : List MSeq), us.length - i + 1 ≤ n →
      Tracks.loopGo s.defaultTrack (fun l v => Except.ok (l ++ [v])) n i (enumTracks us) l = (.ok (l ++ us.drop i, enumTracks us) : Py _) := by
    intro n
    induction n with
    | zero => intro i l hn; omega
    | succ n ih =>
      intro i l hn
      rw [Tracks.loopGo, hk]
      by_cases hi : i < us.length
      · have h1 : (enumTracks us).toIdx.has (Int.ofNat i) = true := by
          show (enumDict _).has _ = true
          have := enumDict_has ((List.range us.length).map Int.ofNat) i
          simp only [List.length_map, List.length_range] at this
          rw [show Int.ofNat i = (i : Int) from rfl, this]
          simpa using hi
        have h2 : (enumTracks us).toIdx.getItem (Int.ofNat i) = .ok (i : Int) := by
          show (enumDict _).getItem _ = _
          exact enumDict_getItem _ i _ (by simp [hi])
        have h3 : (enumTracks us).seqs.getItem (i : Int) = .ok us[i] := enumDict_getItem us i _ (by simp [hi])
        have e : (enumTracks us).getItem (s.defaultTrack (Int.ofNat i)) (Int.ofNat i) = .ok (us[i], enumTracks us) := by
          unfold Tracks.getItem
          rw [if_neg (by simp only [Int.ofNat_eq_natCast]; omega), h1]
          simp only [if_true, bind, Except.bind, h2, h3]
        rw [List.getElem?_map, List.getElem?_range hi]
        simp only [Option.map_some, e, bind, Except.bind]
        rw [ih (i + 1) _ (by omega), List.drop_eq_getElem_cons hi, List.append_assoc]
        rfl
      · rw [List.getElem?_eq_none_iff.2 (by rw [List.length_map, List.length_range]; omega), List.drop_eq_nil_of_le (by omega),
          List.append_nil]
  have := gen ((enumTracks us).len + 129) 0 [] (by
    show _ ≤ (enumDict us).dict.length + 129
    have : (enumDict us).dict.length = us.length := by simp [enumDict]
    omega)
  unfold Tracks.loop
  rw [this]
  rfl

/-- **C171, parts.** Every raw MIDI file within the value ranges gives the dataset one track per part: every track is
a part of the file, all parts that have a note occur, and nothing raises. -/
theorem C171_parts (f : Nat × List (List Msg)) (h : RawMidi f) :
    ∃ us, rawTracks f = .ok us ∧ (∀ u ∈ us, ∃ t ∈ f.2, ∃ p ch, IsPart f t p ch u) ∧
      ∀ t ∈ f.2, ∀ p ch, partNotes f t p ch ≠ [] → ∃ u ∈ us, IsPart f t p ch u := by
  obtain ⟨pm, e1, hE, hR⟩ := loaded_readable f.1 h.res f.2 h.midi
  have hread := hR (h.few pm e1)
  obtain ⟨keys, tempos, times, us, tot, _, _, _, e, hl, _, hT⟩ := readSong_eq pm hread
  obtain ⟨pm', t0, f1, f2, f3, f4, _, f6, f7, f8, _⟩ := C56_table_covers_file f.1 9 h.res f.2 h.midi.toGoodFile
  obtain rfl : pm' = pm := by rw [e1] at f1; exact (Except.ok.inj f1).symm
  have hsorted : ∀ t ∈ f.2, (toAbs t).Pairwise (fun a b => a.time ≤ b.time) :=
    fun t ht => ((C55_order t).1 (h.midi.nonneg t ht)).1
  -- the notes of an instrument are those of a part
  have part : ∀ t ∈ f.2, ∀ p ch acts, loadTrack (toAbs t) = .ok acts →
      (((actNotes acts).filter (fun e => decide (e.program = p ∧ e.channel = ch))).map
        (Emit.toP (fun t => pm'.clock.times.getD t.toNat 0))).Perm
      (((trackNotes (toAbs t)).filter (fun e => decide (e.program = p ∧ e.channel = ch))).map (inSeconds f)) := by
    intro t ht p ch acts ha
    obtain ⟨acts', ha', hp⟩ := loadTrack_exact (toAbs t) (hsorted t ht) (h.apart t ht)
    rw [ha, Except.ok.injEq] at ha'
    subst ha'
    refine ((hp.filter _).map _).trans (List.Perm.of_eq ?_)
    apply List.map_congr_left
    intro x hx
    exact toP_inSeconds f pm' t0 f2 f6 f7 t ht x (List.mem_filter.1 hx).1
  have track : ∀ (k : Nat) (hk : k < us.length) (i : PInst), pm'.insts[k]? = some i → ∀ t ∈ f.2, ∀ ch acts,
      loadTrack (toAbs t) = .ok acts → i.isDrum = decide (ch = 9) →
      i.notes = ((actNotes acts).filter (fun e => decide (e.program = i.program ∧ e.channel = ch))).map
        (Emit.toP (fun t => pm'.clock.times.getD t.toNat 0)) → IsPart f t i.program ch us[k] := by
    intro k hk i hi t ht ch acts ha hd hn
    have T := hT k i us[k] hi (List.getElem?_eq_getElem hk)
    have ho : Spec.EndsInOrder (i.notes.filter Spec.solid) :=
      (hE i (List.mem_of_getElem? hi)).sublist List.filter_sublist
    have hnotes := T.notes
    rw [records_all _ ho] at hnotes
    refine ⟨?_, by rw [T.drum, hd], T.num, ?_⟩
    · rw [hnotes, List.map_map]
      have : (Spec.trackData ∘ fileNote times i) = Spec.noteData := rfl
      rw [this]
      refine List.Perm.map _ ?_
      unfold partNotes
      refine List.Perm.filter _ ?_
      rw [hn]
      exact part t ht _ _ acts ha
    · intro n hn'
      rw [hnotes] at hn'
      obtain ⟨x, _, rfl⟩ := List.mem_map.1 hn'
      exact hd
  refine ⟨us, ?_, ?_, ?_⟩
  · unfold rawTracks readFile
    simp only [e1, bind, Except.bind]
    rw [e]
    exact enumTracks_loop _ us rfl (by rw [hl]; exact h.few _ e1)
  · intro u hu
    obtain ⟨k, hk, rfl⟩ := List.mem_iff_getElem.1 hu
    have hi : pm'.insts[k]? = some (pm'.insts[k]'(by omega)) := List.getElem?_eq_getElem (by omega)
    obtain ⟨ch, t, acts, h1, h2, h3, h4⟩ := loadInstruments_each 9 _ _ _ f8 _ (List.getElem_mem (by omega : k < pm'.insts.length))
    obtain ⟨t', ht', rfl⟩ := List.mem_map.1 h1
    exact ⟨t', ht', _, ch, track k hk _ hi t' ht' ch acts h2 h3 h4⟩
  · intro t ht p ch hne
    obtain ⟨acts, h1, h2⟩ := loadInstruments_part 9 _ _ _ f8 (toAbs t) (List.mem_map_of_mem ht) p ch
    have hne' : (actNotes acts).filter (fun e => decide (e.program = p ∧ e.channel = ch)) ≠ [] := by
      intro hc
      have := part t ht p ch acts h1
      rw [hc, List.map_nil] at this
      apply hne
      unfold partNotes
      rw [this.nil_eq.symm]
      rfl
    obtain ⟨i, hi, q1, q2, q3⟩ := h2 hne'
    obtain ⟨k, hk, rfl⟩ := List.mem_iff_getElem.1 hi
    subst q1
    exact ⟨us[k]'(by omega), List.getElem_mem _, track k (by omega) _ (List.getElem?_eq_getElem hk) t ht ch acts h1 q2 q3⟩

/-! ### Chords of a part -/

theorem part_note {f : Nat × List (List Msg)} {t : List Msg} {p ch : Nat} {u : MSeq} (hu : IsPart f t p ch u) (n : Note) (hn : n ∈ u.notes) :
    ∃ x ∈ partNotes f t p ch, trackData n = noteData x := by
  have : trackData n ∈ (partNotes f t p ch).map noteData := hu.notes.mem_iff.1 (List.mem_map_of_mem hn)
  obtain ⟨x, hx, hxe⟩ := List.mem_map.1 this
  exact ⟨x, hx, hxe.symm⟩

theorem part_note' {f : Nat × List (List Msg)} {t : List Msg} {p ch : Nat} {u : MSeq} (hu : IsPart f t p ch u) (x : PNote)
    (hx : x ∈ partNotes f t p ch) : ∃ n ∈ u.notes, trackData n = noteData x := by
  have : noteData x ∈ u.notes.map trackData := hu.notes.mem_iff.2 (List.mem_map_of_mem hx)
  obtain ⟨n, hn, hne⟩ := List.mem_map.1 this
  exact ⟨n, hn, hne⟩

theorem Spec.IsPart.length {f : Nat × List (List Msg)} {t : List Msg} {p ch : Nat} {u : MSeq} (hu : IsPart f t p ch u) :
    u.notes.length = (partNotes f t p ch).length := by
  have := hu.notes.length_eq
  simpa using this

/-- Notes of a file have a velocity of at least 1. -/
theorem partNotes_velocity (f : Nat × List (List Msg)) (t : List Msg) (p ch : Nat) (x : PNote) (hx : x ∈ partNotes f t p ch) :
    0 < x.velocity := by
  unfold partNotes at hx
  obtain ⟨e, he, rfl⟩ := List.mem_map.1 (List.mem_filter.1 hx).1
  obtain ⟨l, ev, r, q1, q2, _⟩ := trackNotesGo_mem _ _ e (List.mem_filter.1 he).1
  show 0 < e.velocity
  unfold on? at q2
  split at q2
  · split at q2
    · simp only [Option.some.injEq, Prod.mk.injEq] at q2
      omega
    · simp at q2
  · simp at q2

theorem part_sounding {f : Nat × List (List Msg)} {t : List Msg} {p ch : Nat} {u : MSeq} (hu : IsPart f t p ch u) (hch : ch ≠ 9)
    (n : Note) (hn : n ∈ u.notes) : sounding n = true := by
  obtain ⟨x, hx, hxe⟩ := part_note hu n hn
  have hv := partNotes_velocity f t p ch x hx
  have hd := hu.drums n hn
  unfold sounding
  simp only [trackData, noteData, Prod.mk.injEq] at hxe
  simp [hd, hch, hxe.1]
  omega

/-- Parts of raw MIDI files can be built. -/
theorem part_canBuild {f : Nat × List (List Msg)} {t : List Msg} {p ch : Nat} {u : MSeq}
    (hu : IsPart f t p ch u) : CanBuild u := by
  intro n hn _
  obtain ⟨x, hx, hxe⟩ := part_note hu n hn
  simp only [trackData, noteData, Prod.mk.injEq] at hxe
  refine ⟨?_, by rw [hxe.2.1]; omega⟩
  rw [hxe.2.2.1]
  unfold partNotes at hx
  obtain ⟨e, he, rfl⟩ := List.mem_map.1 (List.mem_filter.1 hx).1
  show 0 ≤ fileSeconds _ _ _
  unfold fileSeconds
  apply List.sum_nonneg
  intro v hv
  obtain ⟨k, _, rfl⟩ := List.mem_map.1 hv
  unfold tempoInForce
  split <;> (unfold perTick; positivity)

/-- The chords of a track that can be built, in terms of its sounding notes: each is a set of at most `size` of their
pitches, and without the single-note filter each pitch is in one. -/
theorem chordsOf_notes (env : PyEnv) (henv : env.IterOk) (o : BuildOpts) (ho : 0 < o.size) (u : MSeq) (hp : CanBuild u) :
    (∀ h ∈ chordsOf env o u, ∃ c : Finset Int, env.hashSet c = h ∧ c.Nonempty ∧ c.card ≤ o.size.toNat ∧
      ∀ x ∈ c, ∃ n ∈ u.notes, sounding n = true ∧ n.pitch = x) ∧
    (o.filterSingle = false → ∀ n ∈ u.notes, sounding n = true →
      ∃ c : Finset Int, env.hashSet c ∈ chordsOf env o u ∧ n.pitch ∈ c ∧ c.card ≤ o.size.toNat ∧
        ∀ x ∈ c, ∃ n ∈ u.notes, sounding n = true ∧ n.pitch = x) := by
  have hs : 0 < o.size.toNat := by omega
  constructor
  · intro h hh
    unfold chordsOf at hh
    cases hd : computeData env u o.tol o.filterSingle true with
    | error e => rw [hd] at hh; simp at hh
    | ok r =>
      obtain ⟨d, m⟩ := r
      rw [hd] at hh
      simp only [visited] at hh
      obtain ⟨c, hc, rfl⟩ := List.mem_map.1 hh
      obtain ⟨ns, hns, hcn⟩ := List.mem_flatMap.1 hc
      obtain ⟨g1, g2⟩ := group_notes env u _ _ _ d m hd ns hns
      obtain ⟨s1, _, s3, _⟩ := C54_split env henv o.size.toNat hs ns g1
      refine ⟨c, rfl, (s1 c hcn).1, (s1 c hcn).2, fun x hx => ?_⟩
      obtain ⟨n, hn, hnx⟩ := (s3 x).1 ⟨c, hcn, hx⟩
      exact ⟨n, (g2 n hn).1, (g2 n hn).2, hnx⟩
  · intro hf n hn hns
    cases hd : computeData env u o.tol o.filterSingle true with
    | error e =>
      exfalso
      obtain ⟨m, hm, hm1, hm2⟩ := (C45_raises env u o.tol o.filterSingle true).1 ⟨e, hd⟩
      have := (hp m hm hm1).1
      linarith
    | ok r =>
      obtain ⟨d, m⟩ := r
      have hd' := hd
      rw [hf] at hd
      obtain ⟨q1, q2, _⟩ := C45_partition env u o.tol true d m hd
      have hmem : n ∈ d.flatMap (·.2) := q1.mem_iff.2 (List.mem_filter.2 ⟨hn, hns⟩)
      obtain ⟨⟨k, ns⟩, hk, hkn⟩ := List.mem_flatMap.1 hmem
      have hord : ns ∈ orderedGroups d := by
        unfold orderedGroups
        exact List.mem_map.2 ⟨(k, ns), (sortByKey_perm _ d).mem_iff.2 hk, rfl⟩
      obtain ⟨g1, g2⟩ := group_notes env u _ _ _ d m hd ns hord
      obtain ⟨s1, _, s3, _⟩ := C54_split env henv o.size.toNat hs ns g1
      obtain ⟨c, hc, hcx⟩ := (s3 n.pitch).2 ⟨n, hkn, rfl⟩
      refine ⟨c, ?_, hcx, (s1 c hc).2, fun x hx => ?_⟩
      · unfold chordsOf
        rw [hd']
        simp only [visited]
        exact List.mem_map.2 ⟨c, List.mem_flatMap.2 ⟨ns, hord, hc⟩, rfl⟩
      · obtain ⟨n', hn', hnx⟩ := (s3 x).1 ⟨c, hc, hx⟩
        exact ⟨n', (g2 n' hn').1, (g2 n' hn').2, hnx⟩

namespace Spec

/-- The numbers `hs` are those of chords of the notes `ns`: each number is that of a non-empty set of at most `size` of
their pitches, and every note has its pitch in a set whose number is among them. -/
structure ChordNumbers (env : PyEnv) (size : Nat) (ns : List PNote) (hs : List Int) : Prop where
  sound : ∀ h ∈ hs, ∃ c : Finset Int, env.hashSet c = h ∧ c.Nonempty ∧ c.card ≤ size ∧ ∀ x ∈ c, ∃ n ∈ ns, (n.pitch : Int) = x
  complete : ∀ n ∈ ns, ∃ c : Finset Int, env.hashSet c ∈ hs ∧ (n.pitch : Int) ∈ c ∧ c.card ≤ size ∧
    ∀ x ∈ c, ∃ n ∈ ns, (n.pitch : Int) = x

end Spec

theorem part_chords (env : PyEnv) (henv : env.IterOk) (o : BuildOpts) (ho : 0 < o.size) (hf : o.filterSingle = false)
    {f : Nat × List (List Msg)} {t : List Msg} {p ch : Nat} {u : MSeq} (hu : IsPart f t p ch u) (hch : ch ≠ 9) :
    ChordNumbers env o.size.toNat (partNotes f t p ch) (firstSeen (chordsOf env o u)) := by
  obtain ⟨h1, h2⟩ := chordsOf_notes env henv o ho u (part_canBuild hu)
  have conv : ∀ c : Finset Int, (∀ x ∈ c, ∃ n ∈ u.notes, sounding n = true ∧ n.pitch = x) →
      ∀ x ∈ c, ∃ n ∈ partNotes f t p ch, (n.pitch : Int) = x := by
    intro c hc x hx
    obtain ⟨n, hn, _, hnx⟩ := hc x hx
    obtain ⟨y, hy, hye⟩ := part_note hu n hn
    simp only [trackData, noteData, Prod.mk.injEq] at hye
    exact ⟨y, hy, by rw [← hye.2.1, hnx]⟩
  constructor
  · intro h hh
    obtain ⟨c, q1, q2, q3, q4⟩ := h1 h ((mem_firstSeen _ _).1 hh)
    exact ⟨c, q1, q2, q3, conv c q4⟩
  · intro y hy
    obtain ⟨n, hn, hne⟩ := part_note' hu y hy
    obtain ⟨c, q1, q2, q3, q4⟩ := h2 hf n hn (part_sounding hu hch n hn)
    simp only [trackData, noteData, Prod.mk.injEq] at hne
    refine ⟨c, (mem_firstSeen _ _).2 q1, by rw [← hne.2.1]; exact q2, q3, conv c q4⟩

/-- Which songs have chords. -/
theorem song_chords_iff (env : PyEnv) (henv : env.IterOk) (o : BuildOpts) (ho : 0 < o.size) (hf : o.filterSingle = false)
    (f : Nat × List (List Msg)) (us : List MSeq) (h1 : ∀ u ∈ us, ∃ t ∈ f.2, ∃ p ch, IsPart f t p ch u)
    (h2 : ∀ t ∈ f.2, ∀ p ch, partNotes f t p ch ≠ [] → ∃ u ∈ us, IsPart f t p ch u) :
    (HasTune f → songChords env o us ≠ []) ∧
    ∀ cs ∈ songChords env o us, ∃ t ∈ f.2, ∃ p ch, ch ≠ 9 ∧ 2 ≤ (partNotes f t p ch).length ∧
      ChordNumbers env o.size.toNat (partNotes f t p ch) (firstSeen cs) := by
  constructor
  · rintro ⟨t, ht, p, ch, hch, hlen⟩ hc
    obtain ⟨u, hu, hpu⟩ := h2 t ht p ch (by intro h; rw [h] at hlen; simp at hlen)
    have hus : usable u = true := by
      unfold usable
      rw [hpu.drum, hpu.length]
      simp [hch]
      omega
    have hne : chordsOf env o u ≠ [] := by
      obtain ⟨y, hy⟩ := List.exists_mem_of_length_pos (by omega : 0 < (partNotes f t p ch).length)
      obtain ⟨c, q1, _⟩ := (part_chords env henv o ho hf hpu hch).complete y hy
      intro h
      rw [h] at q1
      have := (mem_firstSeen _ _).1 q1
      simp at this
    have : chordsOf env o u ∈ songChords env o us := by
      unfold songChords
      exact List.mem_filter.2 ⟨List.mem_map.2 ⟨u, List.mem_filter.2 ⟨hu, hus⟩, rfl⟩, by simpa using hne⟩
    rw [hc] at this
    simp at this
  · intro cs hcs
    unfold songChords at hcs
    obtain ⟨hcs, hne⟩ := List.mem_filter.1 hcs
    obtain ⟨u, hu, rfl⟩ := List.mem_map.1 hcs
    obtain ⟨hu, hus⟩ := List.mem_filter.1 hu
    obtain ⟨t, ht, p, ch, hpu⟩ := h1 u hu
    have hch : ch ≠ 9 := by
      intro h
      unfold usable at hus
      rw [hpu.drum, h] at hus
      simp at hus
    refine ⟨t, ht, p, ch, hch, ?_, part_chords env henv o ho hf hpu hch⟩
    have hl : (partNotes f t p ch).length ≠ 1 := by
      unfold usable at hus
      rw [← hpu.length]
      simp at hus
      exact hus.2
    have hl0 : (partNotes f t p ch).length ≠ 0 := by
      have hne := of_decide_eq_true hne
      obtain ⟨h, hh⟩ := List.exists_mem_of_ne_nil _ hne
      obtain ⟨c, _, ⟨x, hx⟩, _, q⟩ := (chordsOf_notes env henv o ho u (part_canBuild hpu)).1 h hh
      obtain ⟨n, hn, _⟩ := q x hx
      rw [← hpu.length]
      exact Nat.ne_of_gt (List.length_pos_of_mem hn)
    omega

/-! ### The dataset -/

theorem rawTracks_usable (f : Nat × List (List Msg)) (h : RawMidi f) : UsableFile (rawTracks f) := by
  obtain ⟨us, h1, h2, _⟩ := C171_parts f h
  refine Or.inr ⟨us, h1, fun u hu _ => ?_⟩
  obtain ⟨t, _, p, ch, hp⟩ := h2 u hu
  exact part_canBuild hp

open Classical in
/-- The graphs of the songs of raw files. -/
theorem songs_nodes (env : PyEnv) (henv : env.IterOk) (o : BuildOpts) (ho : 0 < o.size) (hf : o.filterSingle = false) :
    ∀ (files : List (Nat × List (List Msg))), (∀ f ∈ files, RawMidi f) →
    List.Forall₂ (fun f hs => ∃ t ∈ f.2, ∃ p ch, ch ≠ 9 ∧ 2 ≤ (partNotes f t p ch).length ∧
        ChordNumbers env o.size.toNat (partNotes f t p ch) hs)
      (files.filter (fun f => decide (HasTune f)))
      ((songsOf (files.map rawTracks)).filterMap (fun t => (songChords env o t).head?.map firstSeen)) := by
  intro files
  induction files with
  | nil => intro _; exact List.Forall₂.nil
  | cons f files ih =>
    intro hall
    have hrest := ih (fun g hg => hall g (by simp [hg]))
    obtain ⟨us, h1, h2, h3⟩ := C171_parts f (hall f (by simp))
    obtain ⟨m1, m2⟩ := song_chords_iff env henv o ho hf f us h2 h3
    have e : songsOf ((f :: files).map rawTracks) = us :: songsOf (files.map rawTracks) := by
      unfold songsOf
      rw [List.map_cons, List.filterMap_cons, h1]
    rw [e, List.filterMap_cons]
    cases hsc : songChords env o us with
    | nil =>
      have hm : ¬ HasTune f := fun hm => m1 hm hsc
      rw [List.filter_cons_of_neg (by simpa using hm)]
      exact hrest
    | cons cs rest =>
      obtain ⟨t, ht, p, ch, q1, q2, q3⟩ := m2 cs (by rw [hsc]; simp)
      have hm : HasTune f := ⟨t, ht, p, ch, q1, q2⟩
      rw [List.filter_cons_of_pos (by simpa using hm)]
      exact List.Forall₂.cons ⟨t, ht, p, ch, q1, q2, q3⟩ hrest

open Classical in
/-- **C171.** From raw MIDI files to graphs. For every list of raw MIDI files within the value ranges, with accepted
settings of the builder, tensor features, no filter of graphs and no filter of single notes:
if the FIRST file has a part that is not for drums with at least two notes, processing succeeds, and the dataset has
exactly one graph for each file that has such a part, in the order of the files; the nodes of the graph are chords of
one such part of its file, whose pitches are all pitches of notes of that part, and every note of the part is in a chord.
If the first file has no such part, processing raises ValueError, whatever the other files are. -/
theorem C171_dataset (env : PyEnv) (henv : env.IterOk) (o : DataOpts) (ho : o.build.ok = true) (hty : o.build.ty = .tensor)
    (hfs : o.build.filterSingle = false) (rnd rnd2 : Nat → Nat → List Nat)
    (first : Nat × List (List Msg)) (others : List (Nat × List (List Msg))) (h1 : RawMidi first) :
    (HasTune first → (∀ f ∈ others, RawMidi f) →
      ∃ a b, processRaw env o (fun _ => true) rnd rnd2 (first :: others) = .ok (a, b) ∧
        List.Forall₂ (fun f d => ∃ t ∈ f.2, ∃ p ch, ch ≠ 9 ∧ 2 ≤ (partNotes f t p ch).length ∧
            ChordNumbers env o.build.size.toNat (partNotes f t p ch) d.graph.nodeHash)
          ((first :: others).filter (fun f => decide (HasTune f))) a.data) ∧
    (¬ HasTune first → processRaw env o (fun _ => true) rnd rnd2 (first :: others) = .error .value) := by
  have hsz : 0 < o.build.size := by
    unfold BuildOpts.ok at ho
    simp only [Bool.and_eq_true, decide_eq_true_eq] at ho
    exact ho.1.1.1.1
  obtain ⟨us, e1, e2, e3⟩ := C171_parts first h1
  obtain ⟨m1, m2⟩ := song_chords_iff env henv o.build hsz hfs first us e2 e3
  have hcan : ∀ s ∈ us, usable s = true → CanBuild s := by
    intro s hs _
    obtain ⟨t, _, p, ch, hp⟩ := e2 s hs
    exact part_canBuild hp
  constructor
  · intro hm hall
    have hall' : ∀ f ∈ first :: others, RawMidi f := by
      intro f hf
      rcases List.mem_cons.1 hf with rfl | hf
      · exact h1
      · exact hall f hf
    have hs : songsOf ((first :: others).map rawTracks) = us :: songsOf (others.map rawTracks) := by
      unfold songsOf
      rw [List.map_cons, List.filterMap_cons, e1]
    obtain ⟨a, b, hab⟩ := C149_succeeds env henv o ho hty (fun _ => true) rnd rnd2 ((first :: others).map rawTracks)
      (by
        intro f hf
        obtain ⟨g, hg, rfl⟩ := List.mem_map.1 hf
        exact rawTracks_usable g (hall' g hg)) us _ hs (m1 hm) (fun _ _ => rfl)
    refine ⟨a, b, hab, ?_⟩
    obtain ⟨gs, g1, g2, _⟩ := C148_graphs env o (fun _ => true) rnd rnd2 _ a b hab
    rw [List.filter_true] at g1
    have key := songs_nodes env henv o.build hsz hfs (first :: others) hall'
    rw [← g2, ← g1, List.map_map, List.forall₂_map_right_iff] at key
    exact key
  · intro hm
    have hc : songChords env o.build us = [] := by
      by_contra hne
      obtain ⟨cs, hcs⟩ := List.exists_mem_of_ne_nil _ hne
      obtain ⟨t, ht, p, ch, q1, q2, _⟩ := m2 cs hcs
      exact hm ⟨t, ht, p, ch, q1, q2⟩
    have := C149_first_song env henv o ho hty (fun _ => true) rnd rnd2 0 us (others.map rawTracks) hcan hc
    unfold processRaw
    rw [List.map_cons, e1]
    exact this

/-! ### Cases -/

/-- A file with a melody of two chords and a drum. -/
def exTune : Nat × List (List Msg) :=
  (4, [[⟨0, .setTempo 500000⟩, ⟨0, .endOfTrack⟩],
    [⟨0, .programChange 0 5⟩, ⟨0, .noteOn 0 60 90⟩, ⟨0, .noteOn 0 64 90⟩, ⟨4, .noteOff 0 60 0⟩, ⟨0, .noteOff 0 64 0⟩,
     ⟨0, .noteOn 0 62 80⟩, ⟨0, .noteOn 9 36 80⟩, ⟨4, .noteOff 0 62 0⟩, ⟨0, .noteOff 9 36 0⟩, ⟨0, .endOfTrack⟩]])

theorem exTune_raw : RawMidi exTune where
  res := by decide
  midi :=
    { any := by decide
      full := by decide
      nonneg := by decide
      tempo := by intro t ht; simp [exTune] at ht; subst ht; decide
      short := by decide
      range := by
        intro t ht e he
        simp only [exTune, List.mem_cons, List.not_mem_nil, or_false] at ht
        rcases ht with rfl | rfl <;> simp only [List.mem_cons, List.not_mem_nil, or_false] at he <;>
          rcases he with rfl | rfl | rfl | rfl | rfl | rfl | rfl | rfl | rfl | rfl <;> simp [Spec.MidiRange]
      bends := by
        intro t ht e he ch p hp
        simp only [exTune, List.mem_cons, List.not_mem_nil, or_false] at ht
        rcases ht with rfl | rfl <;> simp only [List.mem_cons, List.not_mem_nil, or_false] at he <;>
          rcases he with rfl | rfl | rfl | rfl | rfl | rfl | rfl | rfl | rfl | rfl <;> simp at hp
      keys := by
        intro t ht e he k hk
        simp [exTune] at ht
        subst ht
        simp only [List.mem_cons, List.not_mem_nil, or_false] at he
        rcases he with rfl | rfl <;> simp at hk
      times := by
        intro t ht e he n d hk
        simp [exTune] at ht
        subst ht
        simp only [List.mem_cons, List.not_mem_nil, or_false] at he
        rcases he with rfl | rfl <;> simp at hk }
  apart := by
    intro t ht
    simp only [exTune, List.mem_cons, List.not_mem_nil, or_false] at ht
    rcases ht with rfl | rfl <;> simp [Spec.NoStack, toAbs, toAbsGo, Spec.on?]
    constructor <;> (intros; omega)
  few := by
    have : (match PM.fromFile exTune.1 exTune.2 with | .ok pm => decide (pm.insts.length ≤ 128) | .error _ => true) = true := by
      decide +kernel
    intro pm hpm
    rw [hpm] at this
    exact of_decide_eq_true this

theorem exTune_melodic : HasTune exTune := ⟨_, List.mem_cons_of_mem _ (List.mem_singleton.2 rfl), 5, 0, by decide, by decide +kernel⟩

/-- Non-vacuity of C171, and the run itself: one graph, with the nodes {60, 64} and {62}. -/
example : ∃ a b, processRaw exEnvAll {} (fun _ => true) (fun _ n => List.range n) (fun _ n => List.range n) [exTune, exTune] = .ok (a, b) := by
  obtain ⟨a, b, h, _⟩ := (C171_dataset exEnvAll exEnvAll_ok {} (by decide +kernel) rfl rfl (fun _ n => List.range n)
    (fun _ n => List.range n) exTune [exTune] exTune_raw).1 exTune_melodic (by simp [exTune_raw])
  exact ⟨a, b, h⟩

example : (rawTracks exTune).map (fun us => us.map (fun u => (u.instr.num, u.instr.isDrum, u.notes.map (fun n => (n.pitch, n.start))))) =
    .ok [(5, false, [(60, 0), (64, 0), (62, 1/2)]), (0, true, [(36, 1/2)])] := by decide +kernel

example : (processRaw exEnv {} (fun _ => true) (fun _ n => List.range n) (fun _ n => List.range n) [exTune]).map
    (fun r => (r.1.data.map (fun d => (d.graph.nodeHash.map some, d.graph.y)), r.1.totalClasses)) =
    .ok ([([some (exEnv.hashSet {60, 64}), some (exEnv.hashSet {62})], some [1, 2])], 2) := by decide +kernel

end NGC
