import Verif.ReaderProps2
import Verif.SigTableProps

/-! C61, C62, C100, C101: what a user sees of a song that was read. -/

namespace NGC

namespace Spec

/-- What the file and the track have in common about a note: velocity, pitch, start and end. -/
def noteData (n : PNote) : Int × Int × ℚ × ℚ := ((n.velocity : Int), (n.pitch : Int), n.start, n.stop)

/-- The same, of a note of a track. -/
def trackData (n : Note) : Int × Int × ℚ × ℚ := (n.velocity, n.pitch, n.start, n.stop)

/-- No note of the list ends before an earlier one. -/
def EndsInOrder (ns : List PNote) : Prop := ns.Pairwise (fun a b => a.stop ≤ b.stop)

/-- The track `sequence[k]` of a song. -/
def TrackAt (s : Song) (k : Nat) (t : MSeq) : Prop :=
  s.tracks.getItem (s.defaultTrack (k : Int)) (k : Int) = .ok (t, s.tracks)

end Spec

theorem recordsGo_sublist : ∀ (ns before : List PNote), (Spec.recordsGo before ns).Sublist ns := by
  intro ns
  induction ns with
  | nil => intro b; exact List.Sublist.refl _
  | cons n ns ih =>
    intro b
    unfold Spec.recordsGo
    split
    · exact (ih _).cons_cons n
    · exact (ih _).cons n

theorem recordsGo_all : ∀ (ns before : List PNote), Spec.EndsInOrder ns →
    (∀ m ∈ before, ∀ n ∈ ns, m.stop ≤ n.stop) → Spec.recordsGo before ns = ns := by
  intro ns
  induction ns with
  | nil => intro b _ _; rfl
  | cons n ns ih =>
    intro b h hb
    unfold Spec.EndsInOrder at h
    rw [List.pairwise_cons] at h
    unfold Spec.recordsGo
    rw [if_pos (by
      rw [List.all_eq_true]; intro m hm
      exact decide_eq_true (hb m hm n (by simp)))]
    rw [ih (b ++ [n]) h.2 (by
      intro m hm x hx
      rcases List.mem_append.1 hm with hm | hm
      · exact hb m hm x (by simp [hx])
      · rw [List.mem_singleton] at hm; subst hm; exact h.1 x hx)]

theorem records_all (ns : List PNote) (h : Spec.EndsInOrder ns) : Spec.records ns = ns :=
  recordsGo_all ns [] h (by simp)

theorem recordsGo_iff : ∀ (pre suf before : List PNote) (n : PNote),
    Spec.recordsGo before (pre ++ n :: suf)
      = Spec.recordsGo before pre ++
        (if (before ++ pre).all (fun m => decide (m.stop ≤ n.stop)) then
          n :: Spec.recordsGo (before ++ pre ++ [n]) suf
         else Spec.recordsGo (before ++ pre ++ [n]) suf) := by
  intro pre
  induction pre with
  | nil => intro suf b n; simp [Spec.recordsGo]
  | cons p pre ih =>
    intro suf b n
    rw [List.cons_append]
    rw [Spec.recordsGo, ih, Spec.recordsGo]
    have e : b ++ [p] ++ pre = b ++ p :: pre := by simp
    rw [e]
    by_cases h : (b.all (fun m => decide (m.stop ≤ p.stop))) = true
    · rw [if_pos h, if_pos h]; rfl
    · rw [if_neg h, if_neg h]

theorem TrackOf.trackAt {us : List MSeq} {t : MSeq} {k : Nat} (hk : k < 128) (h : us[k]? = some t)
    (s : Song) (hs : s.tracks = enumTracks us) : Spec.TrackAt s k t := by
  unfold Spec.TrackAt
  rw [hs]
  exact (enumTracks_get us _ t k hk h).1

/-- **C61.** Reading an object whose data are in the MIDI ranges succeeds; there is one track per
instrument, in order, with its program and drum flag, and the notes of the track are, in file order and
with their velocity, pitch, start and end, exactly the notes of the instrument that are not
`math.isclose` to empty and do not end before an earlier such note of the instrument. -/
theorem C61_notes_read (pm : PM) (h : Spec.Readable pm) :
    ∃ s, readSong pm = .ok s ∧ s.tracks.seqs.keys = (List.range pm.insts.length).map Int.ofNat ∧
      ∀ (k : Nat) i, pm.insts[k]? = some i → ∃ t, Spec.TrackAt s k t ∧
        t.notes.map Spec.trackData = (Spec.records (i.notes.filter Spec.solid)).map Spec.noteData ∧
        (∀ n ∈ t.notes, n.program = i.program ∧ n.isDrum = i.isDrum) ∧
        t.instr.num = i.program ∧ t.instr.isDrum = i.isDrum ∧ (i.name ≠ "" → t.instr.name = i.name) := by
  obtain ⟨keys, tempos, times, us, tot, _, _, _, e, hl, _, hT⟩ := readSong_eq pm h
  refine ⟨_, e, ?_, ?_⟩
  · show (List.range us.length).map Int.ofNat = _
    rw [hl]
  intro k i hi
  have hk := (List.getElem?_eq_some_iff.1 hi).1
  have hku : k < us.length := by omega
  have hu : us[k]? = some us[k] := List.getElem?_eq_getElem hku
  have hc := h.count
  have T := hT k i us[k] hi hu
  refine ⟨us[k], TrackOf.trackAt (by omega) hu _ rfl, ?_, ?_, T.num, T.drum, T.name⟩
  · rw [T.notes, List.map_map]
    apply List.map_congr_left
    intro n _
    rfl
  · intro n hn
    rw [T.notes] at hn
    obtain ⟨m, _, rfl⟩ := List.mem_map.1 hn
    exact ⟨rfl, rfl⟩

/-- **C61.** In particular every note that is not `math.isclose` to empty is read, in order, from an
instrument whose notes end in order. -/
theorem C61_all_notes_kept (pm : PM) (h : Spec.Readable pm) (k : Nat) (i : PInst) (hi : pm.insts[k]? = some i)
    (ho : Spec.EndsInOrder (i.notes.filter Spec.solid)) :
    ∃ s t, readSong pm = .ok s ∧ Spec.TrackAt s k t ∧
      t.notes.map Spec.trackData = (i.notes.filter Spec.solid).map Spec.noteData := by
  obtain ⟨s, e, _, hs⟩ := C61_notes_read pm h
  obtain ⟨t, h1, h2, _⟩ := hs k i hi
  exact ⟨s, t, e, h1, by rw [h2, records_all _ ho]⟩

/-- **C61.** A note is read exactly when no earlier note of its instrument ends after it: the others are
lost. -/
theorem C61_note_kept_iff (pre suf : List PNote) (n : PNote) :
    (Spec.records (pre ++ n :: suf)).length
      = (Spec.records pre).length + (if ∃ m ∈ pre, n.stop < m.stop then 0 else 1)
        + (Spec.recordsGo (pre ++ [n]) suf).length := by
  unfold Spec.records
  rw [recordsGo_iff]
  simp only [List.nil_append, List.length_append]
  by_cases h : ∃ m ∈ pre, n.stop < m.stop
  · rw [if_pos h, if_neg]
    · omega
    · intro hall
      obtain ⟨m, hm, hlt⟩ := h
      have := of_decide_eq_true (List.all_eq_true.1 hall m hm)
      linarith
  · rw [if_neg h, if_pos]
    · simp; omega
    · rw [List.all_eq_true]; intro m hm
      exact decide_eq_true (not_lt.1 (fun hc => h ⟨m, hm, hc⟩))

/-- The object of the example: one instrument with two overlapping notes, the first ending last. -/
def overlapPM : PM :=
  { clock := { res := 480, scales := [(0, 1/960)], times := [0] }, drum := 9
    timeSigs := [(3, 4, 0)], keySigs := [(14, 0)], lyrics := []
    insts := [⟨5, false, "piano", [⟨90, 60, 0, 4⟩, ⟨80, 64, 1, 2⟩, ⟨70, 67, 2, 5⟩], [(100, 1), (50, 6)], [(64, 127, 0)]⟩] }

theorem overlapPM_readable : Spec.Readable overlapPM where
  keys := by decide
  times := by decide
  clock := by
    unfold ClockOk overlapPM
    refine ⟨by norm_num, ⟨?_, ?_, ?_⟩, 0, ?_, ?_⟩ <;> first | decide +kernel | simp
  ticks := by decide
  count := by decide
  notes := by
    intro i hi
    simp only [overlapPM, List.mem_singleton] at hi
    subst hi
    exact ⟨by decide, by decide, by decide, by decide +kernel⟩
  bends := by
    intro i hi b hb
    left
    simp only [overlapPM, List.mem_singleton] at hi
    subst hi
    simp only [List.mem_cons, List.not_mem_nil, or_false] at hb
    rcases hb with rfl | rfl <;> exact ⟨by decide, by decide, by norm_num⟩

/-- **C61.** Without the order of ends a note is lost: of three notes the one that ends first is not in
the track. -/
theorem C61_note_lost : ∃ s t, readSong overlapPM = .ok s ∧ Spec.TrackAt s 0 t ∧
    t.notes.map Spec.trackData = [(90, 60, 0, 4), (70, 67, 2, 5)] := by
  obtain ⟨s, e, _, hs⟩ := C61_notes_read overlapPM overlapPM_readable
  obtain ⟨t, h1, h2, _⟩ := hs 0 _ rfl
  exact ⟨s, t, e, h1, by rw [h2]; decide +kernel⟩

/-! ### C100: pitch bends and control changes -/

/-- **C100.** If the file has a note at all, a pitch bend or control change is read exactly when it is
not before the end of the last note of the whole file; without any note all are read. Those read keep
their order, amount or number and value, and time. -/
theorem C100_events_read (pm : PM) (h : Spec.Readable pm)
    (hc : ∀ i ∈ pm.insts, ∀ c ∈ i.controls, c.1 ≤ 127 ∧ c.2.1 ≤ 127 ∧ 0 ≤ c.2.2) :
    ∃ s tot, readSong pm = .ok s ∧ s.total = tot ∧
      Spec.LastEnd ((pm.insts.flatMap (fun i => i.notes)).filter Spec.solid) tot ∧
      ∀ (k : Nat) i, pm.insts[k]? = some i → ∃ t, Spec.TrackAt s k t ∧
        t.bends.map (fun b => (b.amount, b.time))
          = i.bends.filter (fun b => decide (tot = 0 ∨ tot ≤ b.2)) ∧
        t.ccs.map (fun c => (c.number, c.value, c.time))
          = (i.controls.filter (fun c => decide (tot = 0 ∨ tot ≤ c.2.2))).map
              (fun c => ((c.1 : Int), (c.2.1 : Int), c.2.2)) := by
  obtain ⟨keys, tempos, times, us, tot, _, _, _, e, hl, hL, hT⟩ := readSong_eq pm h
  refine ⟨_, tot, e, rfl, hL, ?_⟩
  intro k i hi
  have hk := (List.getElem?_eq_some_iff.1 hi).1
  have hku : k < us.length := by omega
  have hu : us[k]? = some us[k] := List.getElem?_eq_getElem hku
  have hcount := h.count
  have T := hT k i us[k] hi hu
  refine ⟨us[k], TrackOf.trackAt (by omega) hu _ rfl, ?_, ?_⟩
  · rw [T.bends, List.map_map]
    have : ((fun b : PitchBend => (b.amount, b.time)) ∘ fileBend i k) = id := by funext b; rfl
    rw [this, List.map_id]
    rfl
  · rw [T.ccs, List.map_map]
    show List.map _ (List.filter (fun c => Spec.afterNotes tot c.2.2) i.controls) = _
    apply List.map_congr_left
    intro c hcm
    obtain ⟨h1, h2, h3⟩ := hc i (List.mem_of_getElem? hi) c (List.mem_filter.1 hcm).1
    simp only [Function.comp, fileControl, CC.mk']
    rw [max_eq_right h3, max_eq_right (Int.natCast_nonneg _), max_eq_right (Int.natCast_nonneg _),
      min_eq_left (by omega), min_eq_left (by omega)]

/-- **C100.** So everything that happens while the music plays is dropped: in the example the sustain
pedal at time 0 and the pitch bend at time 1 are lost. -/
theorem C100_events_lost : ∃ s t, readSong overlapPM = .ok s ∧ Spec.TrackAt s 0 t ∧
    t.bends.map (fun b => (b.amount, b.time)) = [(50, 6)] ∧ t.ccs = [] := by
  obtain ⟨s, tot, e, _, hL, hs⟩ := C100_events_read overlapPM overlapPM_readable (by decide +kernel)
  have htot : tot = 5 := by
    have hsol : (overlapPM.insts.flatMap (fun i => i.notes)).filter Spec.solid
        = [⟨90, 60, 0, 4⟩, ⟨80, 64, 1, 2⟩, ⟨70, 67, 2, 5⟩] := by decide +kernel
    rw [hsol] at hL
    have h1 := hL.1 ⟨70, 67, 2, 5⟩ (by simp)
    rcases hL.2 with ⟨h2, _⟩ | ⟨m, hm, hq⟩
    · simp at h2
    · simp only [List.mem_cons, List.not_mem_nil, or_false] at hm
      rcases hm with rfl | rfl | rfl <;> simp at hq h1 <;> linarith
  obtain ⟨t, h1, h2, h3⟩ := hs 0 _ rfl
  refine ⟨s, t, e, h1, ?_, ?_⟩
  · rw [h2, htot]; decide +kernel
  · have : t.ccs.map (fun c => (c.number, c.value, c.time)) = [] := by rw [h3, htot]; decide +kernel
    exact List.map_eq_nil_iff.1 this

/-- **C100.** The lowest legal pitch bend, -8192, makes the whole file unreadable when it is not dropped. -/
theorem C100_lowest_bend_raises : readSong { overlapPM with insts := [⟨5, false, "piano", [], [(-8192, 1)], []⟩] }
    = .error .value := by
  have : (match readSong { overlapPM with insts := [⟨5, false, "piano", [], [(-8192, 1)], []⟩] } with
    | .error .value => true | _ => false) = true := by decide +kernel
  generalize readSong { overlapPM with insts := [⟨5, false, "piano", [], [(-8192, 1)], []⟩] } = r at this
  revert this
  rcases r with (_ | _) | _ <;> simp

/-! ### C62, C101: signatures -/

section
variable {S : Type} [Sig S]

theorem strict_inj : ∀ l : List S, l.Pairwise (fun a b => Sig.time a < Sig.time b) →
    ∀ a ∈ l, ∀ b ∈ l, Sig.time a = Sig.time b → a = b := by
  intro l
  induction l with
  | nil => intro _ a ha; simp at ha
  | cons x l ih =>
    intro h a ha b hb hab
    rw [List.pairwise_cons] at h
    rcases List.mem_cons.1 ha with ea | ma <;> rcases List.mem_cons.1 hb with eb | mb
    · rw [ea, eb]
    · have := h.1 b mb; rw [← ea] at this; linarith
    · have := h.1 a ma; rw [← eb] at this; linarith
    · exact ih h.2 a ma b mb hab

theorem foldl_late : ∀ (l : List S) (d : S), (∀ w ∈ l, 0 < Sig.time w) →
    l.foldl (fun acc v => if Sig.time v = 0 then v else acc) d = d := by
  intro l
  induction l with
  | nil => intro d _; rfl
  | cons w l ih =>
    intro d h
    rw [List.foldl_cons, if_neg (ne_of_gt (h w (by simp)))]
    exact ih d (fun x hx => h x (by simp [hx]))

/-- Signatures added in strictly increasing order of time, equal or apart: the list is what was added,
after the default signature unless the first one is at time 0. -/
theorem addSigs_strict (d : S) (h0 : Sig.time d = 0) (hd : Sig.seq d = 0) (vs : List S)
    (hv : ∀ v ∈ vs, 0 ≤ Sig.time v) (hs : vs.Pairwise (fun a b => Sig.time a < Sig.time b))
    (hap : ∀ a ∈ (0 : ℚ) :: vs.map Sig.time, ∀ b ∈ (0 : ℚ) :: vs.map Sig.time, Spec.Apart a b) :
    ∃ l, addSigs [d] vs = .ok l ∧
      l.map (fun s => Sig.setSeq s 0)
        = ((if (vs.head?.map Sig.time) = some 0 then [] else [d]) ++ vs).map (fun s => Sig.setSeq s 0) := by
  obtain ⟨l, h1, h2, hh, rest, h3, h4, h5, h6, h7⟩ := C34_history d h0 hd vs hv hap
  refine ⟨l, h1, ?_⟩
  have hrest : rest.map (fun s => Sig.setSeq s 0)
      = (vs.filter (fun v => decide (Sig.time v ≠ 0))).map (fun s => Sig.setSeq s 0) := by
    have hsub : (vs.filter (fun v => decide (Sig.time v ≠ 0))).Pairwise (fun a b => Sig.time a < Sig.time b) :=
      hs.sublist List.filter_sublist
    have hs2 : ((vs.filter (fun v => decide (Sig.time v ≠ 0))).map (fun s => Sig.setSeq s 0)).Pairwise
        (fun a b => Sig.time a < Sig.time b) := by
      rw [List.pairwise_map]
      refine hsub.imp ?_
      intro a b hab
      rw [Sig.time_setSeq, Sig.time_setSeq]; exact hab
    have hs1 : (rest.map (fun s => Sig.setSeq s 0)).Pairwise (fun a b => Sig.time a ≤ Sig.time b) := by
      rw [List.pairwise_map]
      rw [h3, List.pairwise_cons] at h2
      refine h2.2.imp ?_
      intro a b hab
      rw [Sig.time_setSeq, Sig.time_setSeq]; exact hab
    have hinj : ∀ a ∈ (vs.filter (fun v => decide (Sig.time v ≠ 0))).map (fun s => Sig.setSeq s 0),
        ∀ b ∈ (vs.filter (fun v => decide (Sig.time v ≠ 0))).map (fun s => Sig.setSeq s 0),
        Sig.time a = Sig.time b → a = b := by
      exact strict_inj _ hs2
    refine List.Perm.eq_of_pairwise (le := fun a b => Sig.time a ≤ Sig.time b) ?_ hs1 (hs2.imp le_of_lt) h7
    intro a b ha hb hab hba
    exact hinj a (h7.mem_iff.1 ha) b hb (le_antisymm hab hba)
  rw [h3, List.map_cons, hrest]
  cases vs with
  | nil =>
    have : Spec.lastAtZero d ([] : List S) = d := rfl
    rw [this] at h5
    simp only [List.head?_nil, Option.map_none, List.filter_nil, List.map_nil]
    simpa [Spec.Same] using h5
  | cons v vs =>
    rw [List.pairwise_cons] at hs
    have hpos : ∀ w ∈ vs, 0 < Sig.time w := fun w hw => lt_of_le_of_lt (hv v (by simp)) (hs.1 w hw)
    have hf : vs.filter (fun v => decide (Sig.time v ≠ 0)) = vs := by
      rw [List.filter_eq_self]; intro w hw; exact decide_eq_true (ne_of_gt (hpos w hw))
    by_cases hz : Sig.time v = 0
    · have : Spec.lastAtZero d (v :: vs) = v := by
        unfold Spec.lastAtZero
        rw [List.foldl_cons, if_pos hz, foldl_late vs v hpos]
      rw [this] at h5
      simp only [List.head?_cons, Option.map_some, hz, if_true, List.nil_append]
      rw [List.filter_cons_of_neg (by simpa using hz), hf]
      simpa [Spec.Same] using h5
    · have : Spec.lastAtZero d (v :: vs) = d := by
        unfold Spec.lastAtZero
        rw [List.foldl_cons, if_neg hz, foldl_late vs d hpos]
      rw [this] at h5
      simp only [List.head?_cons, Option.map_some, Option.some.injEq, hz, if_false]
      rw [List.filter_cons_of_pos (by simpa using hz), hf]
      simpa [Spec.Same] using h5

end

/-- **C62.** For each of the 24 key numbers the signature made for it is written back as the same number;
other numbers raise ValueError, and so does reading a file that has one. -/
theorem C62_key_round_trip (k : Nat) (t : ℚ) :
    (k < 24 → ∃ s, KeySig.mk? t ((k % 12 : Nat) : Int) ((k / 12 : Nat) : Int) = .ok s ∧
      keyNumber s = k ∧ s.time = t ∧ (s.mode = .minor ↔ 12 ≤ k) ∧ 0 ≤ s.key ∧ s.key < 12) ∧
    (24 ≤ k → KeySig.mk? t ((k % 12 : Nat) : Int) ((k / 12 : Nat) : Int) = .error .value) := by
  constructor
  · intro hk
    by_cases h : k < 12
    · refine ⟨⟨t, ((k % 12 : Nat) : Int), .major, 0⟩, ?_, ?_, rfl, ?_, ?_, ?_⟩
      · unfold KeySig.mk?; rw [if_pos (by omega)]
      · unfold keyNumber; simp; omega
      · simp; omega
      · simp only; omega
      · simp only; omega
    · refine ⟨⟨t, ((k % 12 : Nat) : Int), .minor, 0⟩, ?_, ?_, rfl, ?_, ?_, ?_⟩
      · unfold KeySig.mk?; rw [if_neg (by omega), if_pos (by omega)]
      · unfold keyNumber; simp; omega
      · simp; omega
      · simp only; omega
      · simp only; omega
  · intro hk
    unfold KeySig.mk?
    rw [if_neg (by omega), if_neg (by omega)]

theorem readKeys_bad : ∀ (ps : List (Nat × ℚ)) (l : List KeySig), l ≠ [] → (∃ p ∈ ps, 24 ≤ p.1) →
    ps.foldlM readKey l = .error .value := by
  intro ps
  induction ps with
  | nil => rintro l _ ⟨p, hp, _⟩; simp at hp
  | cons p ps ih =>
    intro l hl h
    rw [List.foldlM_cons]
    by_cases hp : p.1 < 24
    · obtain ⟨s, hs, _⟩ := (C62_key_round_trip p.1 p.2).1 hp
      obtain ⟨l', e, g1, _⟩ := addSig_ok l s hl
      have : readKey l p = .ok l' := by
        unfold readKey; simp only [hs, bind, Except.bind, e]
      simp only [this, bind, Except.bind]
      refine ih l' g1 ?_
      obtain ⟨q, hq, hq2⟩ := h
      rcases List.mem_cons.1 hq with rfl | hq
      · omega
      · exact ⟨q, hq, hq2⟩
    · have hs := (C62_key_round_trip p.1 p.2).2 (by omega)
      have : readKey l p = .error .value := by
        unfold readKey; simp only [hs, bind, Except.bind]
      simp only [this, bind, Except.bind]

/-- **C62.** A file with a key number outside 0..23 is not read. -/
theorem C62_bad_key_raises (pm : PM) (h : ∃ p ∈ pm.keySigs, 24 ≤ p.1) : readSong pm = .error .value := by
  unfold readSong
  have : pm.keySigs.foldlM readKey (Song.new (pm.clock.res : Int)).keys = .error .value :=
    readKeys_bad _ _ (by simp [Song.new]) h
  simp only [this, bind, Except.bind]

/-- The signature made for a key of the file. -/
def fileKey (p : Nat × ℚ) : KeySig :=
  ⟨p.2, ((p.1 % 12 : Nat) : Int), if p.1 < 12 then .major else .minor, 0⟩

theorem fileKey_eq (p : Nat × ℚ) (h : p.1 < 24) :
    KeySig.mk? p.2 ((p.1 % 12 : Nat) : Int) ((p.1 / 12 : Nat) : Int) = .ok (fileKey p) := by
  unfold KeySig.mk? fileKey
  by_cases h2 : p.1 < 12
  · rw [if_pos (by omega), if_pos h2]
  · rw [if_neg (by omega), if_pos (by omega), if_neg h2]

theorem keyNumber_fileKey (p : Nat × ℚ) (h : p.1 < 24) : keyNumber (fileKey p) = p.1 := by
  unfold keyNumber fileKey
  by_cases h2 : p.1 < 12
  · simp [h2]; omega
  · simp [h2]; omega

theorem readKeys_addSigs : ∀ (ps : List (Nat × ℚ)) (l : List KeySig), (∀ p ∈ ps, p.1 < 24) →
    ps.foldlM readKey l = addSigs l (ps.map fileKey) := by
  intro ps
  induction ps with
  | nil => intro l _; rfl
  | cons p ps ih =>
    intro l h
    unfold addSigs
    rw [List.map_cons, List.foldlM_cons, List.foldlM_cons]
    have : readKey l p = addSig l (fileKey p) := by
      unfold readKey
      simp only [fileKey_eq p (h p (by simp)), bind, Except.bind]
    rw [this]
    cases hq : addSig l (fileKey p) with
    | error e => simp only [bind, Except.bind]
    | ok l' =>
      simp only [bind, Except.bind]
      exact ih l' (fun q hq => h q (by simp [hq]))

theorem readTempos_addSigs (res : Nat) (hr : 0 < res) : ∀ (ps : List (ℚ × ℚ)) (l : List TempoSig), (∀ p ∈ ps, 0 < p.2) →
    ps.foldlM (readTempo res) l = addSigs l (ps.map (fun p => (⟨p.1, p.2, res, 0⟩ : TempoSig))) := by
  intro ps
  induction ps with
  | nil => intro l _; rfl
  | cons p ps ih =>
    intro l h
    unfold addSigs
    rw [List.map_cons, List.foldlM_cons, List.foldlM_cons]
    have hp := h p (by simp)
    have hs : TempoSig.mk? (some p.1) (some p.2) (some (res : Int)) = .ok ⟨p.1, p.2, res, 0⟩ := by
      unfold TempoSig.mk?
      simp only
      rw [if_neg (by simpa using hp), if_neg (by omega)]
      rfl
    have : readTempo res l p = addSig l ⟨p.1, p.2, res, 0⟩ := by
      unfold readTempo
      simp only [hs, bind, Except.bind]
    rw [this]
    cases hq : addSig l (⟨p.1, p.2, res, 0⟩ : TempoSig) with
    | error e => simp only [bind, Except.bind]
    | ok l' =>
      simp only [bind, Except.bind]
      exact ih l' (fun q hq => h q (by simp [hq]))

namespace Spec

/-- Times of signatures as a file has them: strictly increasing from 0 on, and any two (and 0) equal or
clearly apart. -/
def CleanTimes (ts : List ℚ) : Prop :=
  (∀ t ∈ ts, 0 ≤ t) ∧ ts.Pairwise (· < ·) ∧ ∀ a ∈ (0 : ℚ) :: ts, ∀ b ∈ (0 : ℚ) :: ts, Apart a b

end Spec

/-- **C62.** If the key signatures of the file are at clean times, the key numbers and times written back
from the song are those of the file, after a C major at time 0 if the file has none at time 0. -/
theorem C62_keys_round_trip (pm : PM) (h : Spec.Readable pm)
    (hc : Spec.CleanTimes (pm.keySigs.map (fun p => p.2))) :
    ∃ s, readSong pm = .ok s ∧ s.keys.map (fun k => (keyNumber k, k.time))
      = (if pm.keySigs.head?.map (fun p => p.2) = some 0 then [] else [(0, 0)])
        ++ pm.keySigs.map (fun p => ((p.1 : Int), p.2)) := by
  obtain ⟨keys, tempos, times, us, tot, hk, _, _, e, _⟩ := readSong_eq pm h
  refine ⟨_, e, ?_⟩
  show keys.map _ = _
  rw [readKeys_addSigs _ _ h.keys] at hk
  have hmt : (pm.keySigs.map fileKey).map Sig.time = pm.keySigs.map (fun p => p.2) := by
    rw [List.map_map]; rfl
  obtain ⟨l, h1, h2⟩ := addSigs_strict (⟨0, 0, .major, 0⟩ : KeySig) rfl rfl (pm.keySigs.map fileKey)
    (by
      intro v hv
      exact hc.1 _ (by rw [← hmt]; exact List.mem_map_of_mem hv))
    (by
      have := hc.2.1
      rw [← hmt, List.pairwise_map] at this
      exact this)
    (by rw [hmt]; exact hc.2.2)
  rw [hk] at h1
  injection h1 with h1
  subst h1
  have key : ∀ l : List KeySig, l.map (fun k => (keyNumber k, k.time))
      = (l.map (fun s => Sig.setSeq s 0)).map (fun k => (keyNumber k, k.time)) := by
    intro l; rw [List.map_map]; rfl
  rw [key, h2, ← key]
  have hh : (pm.keySigs.map fileKey).head?.map Sig.time = pm.keySigs.head?.map (fun p => p.2) := by
    rw [← List.head?_map, hmt, List.head?_map]
  rw [hh, List.map_append]
  congr 1
  · split <;> rfl
  · rw [List.map_map]
    apply List.map_congr_left
    intro p hp
    simp only [Function.comp, keyNumber_fileKey p (h.keys p hp)]
    rfl

/-- **C101.** If no two tempo changes of the file are too close, the tempo list of the song is the tempo
map of the file: for every entry of the map its time in seconds and its tempo in quarter notes per
minute; the entry at tick 0 replaces the default tempo. -/
theorem C101_tempos_read (pm : PM) (h : Spec.Readable pm)
    (hc : Spec.CleanTimes (pm.clock.scales.map (fun p => Spec.seconds pm.clock.scales p.1))) :
    ∃ s, readSong pm = .ok s ∧ s.tempos.map (fun t => (t.time, t.qpm, t.resolution))
      = pm.clock.scales.map (fun p => (Spec.seconds pm.clock.scales p.1, 60 / (p.2 * (pm.clock.res : ℚ)), (pm.clock.res : Int))) := by
  obtain ⟨keys, tempos, times, us, tot, _, ht, _, e, _⟩ := readSong_eq pm h
  refine ⟨_, e, ?_⟩
  show tempos.map _ = _
  have hrq : (0 : ℚ) < pm.clock.res := by exact_mod_cast h.clock.1
  set ps := pm.clock.scales.map (fun p => (Spec.seconds pm.clock.scales p.1, 60 / (p.2 * (pm.clock.res : ℚ)))) with hps
  rw [readTempos_addSigs _ h.clock.1 ps _ (by
      intro p hp
      rw [hps] at hp
      obtain ⟨q, hq, rfl⟩ := List.mem_map.1 hp
      exact div_pos (by norm_num) (mul_pos (h.clock.2.1.pos q hq) hrq))] at ht
  set vs := ps.map (fun p => (⟨p.1, p.2, pm.clock.res, 0⟩ : TempoSig)) with hvs
  have hmt : vs.map Sig.time = pm.clock.scales.map (fun p => Spec.seconds pm.clock.scales p.1) := by
    rw [hvs, hps, List.map_map, List.map_map]; rfl
  obtain ⟨l, h1, h2⟩ := addSigs_strict (⟨0, 120, 480, 0⟩ : TempoSig) rfl rfl vs
    (by
      intro v hv
      exact hc.1 _ (by rw [← hmt]; exact List.mem_map_of_mem hv))
    (by
      have := hc.2.1
      rw [← hmt, List.pairwise_map] at this
      exact this)
    (by rw [hmt]; exact hc.2.2)
  rw [ht] at h1
  injection h1 with h1
  subst h1
  have key : ∀ l : List TempoSig, l.map (fun t => (t.time, t.qpm, t.resolution))
      = (l.map (fun s => Sig.setSeq s 0)).map (fun t => (t.time, t.qpm, t.resolution)) := by
    intro l; rw [List.map_map]; rfl
  rw [key, h2, ← key]
  have hh : vs.head?.map Sig.time = some 0 := by
    rw [← List.head?_map, hmt, List.head?_map]
    obtain ⟨s, rest, hs⟩ := h.clock.2.1.zero
    rw [hs]
    simp [Spec.seconds]
  rw [hh]
  simp only [if_true, List.nil_append]
  rw [hvs, hps, List.map_map, List.map_map]
  rfl

theorem readTimes_addSigs : ∀ (ps : List (Int × Int × ℚ)) (l : List TimeSig), l ≠ [] →
    (∀ p ∈ ps, 0 < p.1 ∧ denomOk p.2.1 = true) →
    ps.foldlM readTime l = addSigs l (ps.map (fun p => (⟨p.2.2, p.1, p.2.1, 0⟩ : TimeSig))) := by
  intro ps
  induction ps with
  | nil => intro l _ _; rfl
  | cons p ps ih =>
    intro l hl h
    unfold addSigs
    rw [List.map_cons, List.foldlM_cons, List.foldlM_cons]
    obtain ⟨hp1, hp2⟩ := h p (by simp)
    have hs : TimeSig.mk? p.2.2 p.1 p.2.1 = .ok ⟨p.2.2, p.1, p.2.1, 0⟩ := by
      have hd : 0 < p.2.1 := by
        unfold denomOk at hp2; simp at hp2; exact hp2.1
      unfold TimeSig.mk?
      rw [if_neg (by omega), if_neg (by simp [hp2])]
    obtain ⟨l', e, g1, _⟩ := addSig_ok l (⟨p.2.2, p.1, p.2.1, 0⟩ : TimeSig) hl
    have : readTime l p = .ok l' := by
      unfold readTime
      simp only [hs, bind, Except.bind, e]
    rw [this, e]
    simp only [bind, Except.bind]
    exact ih l' g1 (fun q hq => h q (by simp [hq]))

/-- **C101.** If the time signatures of the file are at clean times, the time signatures of the song are
those of the file, after a 4/4 at time 0 if the file has none at time 0. -/
theorem C101_times_read (pm : PM) (h : Spec.Readable pm)
    (hc : Spec.CleanTimes (pm.timeSigs.map (fun p => p.2.2))) :
    ∃ s, readSong pm = .ok s ∧ s.times.map (fun t => (t.numer, t.denom, t.time))
      = (if pm.timeSigs.head?.map (fun p => p.2.2) = some 0 then [] else [(4, 4, 0)]) ++ pm.timeSigs := by
  obtain ⟨keys, tempos, times, us, tot, _, _, ht, e, _⟩ := readSong_eq pm h
  refine ⟨_, e, ?_⟩
  show times.map _ = _
  rw [readTimes_addSigs _ _ (by simp) h.times] at ht
  set vs := pm.timeSigs.map (fun p => (⟨p.2.2, p.1, p.2.1, 0⟩ : TimeSig)) with hvs
  have hmt : vs.map Sig.time = pm.timeSigs.map (fun p => p.2.2) := by
    rw [hvs, List.map_map]; rfl
  obtain ⟨l, h1, h2⟩ := addSigs_strict (⟨0, 4, 4, 0⟩ : TimeSig) rfl rfl vs
    (by
      intro v hv
      exact hc.1 _ (by rw [← hmt]; exact List.mem_map_of_mem hv))
    (by
      have := hc.2.1
      rw [← hmt, List.pairwise_map] at this
      exact this)
    (by rw [hmt]; exact hc.2.2)
  rw [ht] at h1
  injection h1 with h1
  subst h1
  have key : ∀ l : List TimeSig, l.map (fun t => (t.numer, t.denom, t.time))
      = (l.map (fun s => Sig.setSeq s 0)).map (fun t => (t.numer, t.denom, t.time)) := by
    intro l; rw [List.map_map]; rfl
  rw [key, h2, ← key]
  have hh : vs.head?.map Sig.time = pm.timeSigs.head?.map (fun p => p.2.2) := by
    rw [← List.head?_map, hmt, List.head?_map]
  rw [hh, List.map_append]
  congr 1
  · split <;> rfl
  · rw [hvs, List.map_map]
    exact List.map_id _

/-- Non-vacuity: the example object satisfies the hypotheses of C62 and C101, with a minor key. -/
theorem C62_example : ∃ s, readSong overlapPM = .ok s ∧ s.keys.map (fun k => (keyNumber k, k.time)) = [(14, 0)] := by
  obtain ⟨s, h1, h2⟩ := C62_keys_round_trip overlapPM overlapPM_readable
    ⟨by decide +kernel, by decide +kernel, by
      intro a ha b hb
      simp [overlapPM] at ha hb
      left; rw [ha, hb]⟩
  exact ⟨s, h1, by rw [h2]; decide +kernel⟩

/-- Non-vacuity of C101 for a file with a time signature change at time 2. -/
theorem C101_example : ∃ s, readSong { overlapPM with timeSigs := [(3, 4, 2)] } = .ok s ∧
    s.times.map (fun t => (t.numer, t.denom, t.time)) = [(4, 4, 0), (3, 4, 2)] := by
  obtain ⟨s, h1, h2⟩ := C101_times_read { overlapPM with timeSigs := [(3, 4, 2)] }
    { overlapPM_readable with times := by decide } ⟨by decide +kernel, by decide +kernel, by
      unfold Spec.Apart; decide +kernel⟩
  exact ⟨s, h1, by rw [h2]; decide +kernel⟩

/-- The object with a tempo change at tick 4. -/
def twoTempoPM : PM :=
  { overlapPM with
    clock := { res := 1, scales := [(0, 1), (4, 1/2)], times := (List.range 5).map (fun k => Spec.seconds [(0, 1), (4, 1/2)] k) } }

/-- Non-vacuity of C101 for tempos: 60 at time 0, 120 from second 4. -/
theorem C101_tempo_example : ∃ s, readSong twoTempoPM = .ok s ∧
    s.tempos.map (fun t => (t.time, t.qpm, t.resolution)) = [(0, 60, 1), (4, 120, 1)] := by
  have hr : Spec.Readable twoTempoPM :=
    { keys := overlapPM_readable.keys, times := overlapPM_readable.times, count := overlapPM_readable.count
      notes := overlapPM_readable.notes, bends := overlapPM_readable.bends
      ticks := by decide
      clock := ⟨by decide, ⟨⟨1, [(4, 1/2)], rfl⟩, by decide, by decide +kernel⟩, 4, by decide, rfl⟩ }
  obtain ⟨s, h1, h2⟩ := C101_tempos_read twoTempoPM hr ⟨by decide +kernel, by decide +kernel, by
      unfold Spec.Apart; decide +kernel⟩
  exact ⟨s, h1, by rw [h2]; decide +kernel⟩

end NGC
