import Verif.SigTableProps
import Verif.SeqProps2
import Verif.GraphLemmas
import Verif.NoteProps
import Verif.Shared
import Verif.ReaderProps
import Mathlib.Tactic.FieldSimp

/-!
C110–C115: construction of sequences, note durations, event order, values of the signature lookups, counts and
index checks of the track container, sizes of dataset splits.
-/

namespace NGC

/-! ## C110 construction and bulk append -/

/-- The latest end of a list of notes, in words (0 for none). -/
def Spec.IsLatest (l : List Note) (e : ℚ) : Prop :=
  (l = [] ∧ e = 0) ∨ ((∃ n ∈ l, n.stop = e) ∧ ∀ n ∈ l, n.stop ≤ e)

theorem maxEnd_isLatest (l : List Note) : Spec.IsLatest l (maxEnd l) := by
  cases l with
  | nil => exact .inl ⟨rfl, rfl⟩
  | cons a l =>
    exact .inr ⟨maxEnd_mem _ (by simp), fun n hn => maxEnd_ge _ n hn⟩

theorem isLatest_unique {l : List Note} {a b : ℚ} (h : Spec.IsLatest l a) (h' : Spec.IsLatest l b) : a = b := by
  rcases h with ⟨e, h⟩ | ⟨⟨n, hn, e⟩, h⟩ <;> rcases h' with ⟨e', h'⟩ | ⟨⟨n', hn', e'⟩, h'⟩
  · rw [h, h']
  · rw [e] at hn'; simp at hn'
  · rw [e'] at hn; simp at hn
  · exact le_antisymm (by rw [← e]; exact h' n hn) (by rw [← e']; exact h n' hn')

/-- **C110, the constructor.** `MidiNoteSequence(notes, instrument=i)` raises ValueError exactly for a number
outside 0..255. Otherwise the notes of the sequence are the notes given, in their order, whatever the
instrument; the total time is the latest end; there are no control changes and no bends. Without an instrument
it is number 0, "Generic", not a drum; a number gives that number, "Instrument", not a drum; an instrument
object is kept. -/
theorem C110_constructor (notes : List Note) (i : InstrArg) (res : Int) :
    ((∃ k, i = .num k ∧ ¬ (0 ≤ k ∧ k ≤ 255)) → MSeq.new notes i res = .error .value) ∧
    ((¬ ∃ k, i = .num k ∧ ¬ (0 ≤ k ∧ k ≤ 255)) → ∃ s, MSeq.new notes i res = .ok s ∧ s.notes = notes ∧
      Spec.IsLatest notes s.total ∧ s.ccs = [] ∧ s.bends = [] ∧ s.resolution = res ∧
      s.drumEvents = (if s.instr.isDrum then notes else []) ∧
      (i = .none → s.instr = ⟨0, "Generic", false⟩) ∧
      (∀ k, i = .num k → s.instr = ⟨k, "Instrument", false⟩) ∧
      (∀ x, i = .info x → s.instr = x)) := by
  have key : ∀ x, (MSeq.mk' notes x res).notes = notes ∧
      (MSeq.mk' notes x res).drumEvents = (if x.isDrum then notes else []) := by
    intro x
    unfold MSeq.notes MSeq.drumEvents MSeq.mk'
    cases h : x.isDrum <;> simp [h]
  constructor
  · rintro ⟨k, rfl, hk⟩
    simp only [MSeq.new, InstrArg.resolve, InstrumentInfo.mk?, if_pos hk]
  · intro h
    cases i with
    | none =>
      exact ⟨_, rfl, (key _).1, maxEnd_isLatest _, rfl, rfl, rfl, (key _).2, fun _ => rfl,
        fun k hk => (by cases hk), fun k hk => (by cases hk)⟩
    | info x =>
      exact ⟨_, rfl, (key _).1, maxEnd_isLatest _, rfl, rfl, rfl, (key _).2, fun hk => (by cases hk),
        fun k hk => (by cases hk), fun k hk => (by cases hk; rfl)⟩
    | num k =>
      have hk : 0 ≤ k ∧ k ≤ 255 := by
        by_contra hc; exact h ⟨k, rfl, hc⟩
      have e : MSeq.new notes (.num k) res = .ok (MSeq.mk' notes ⟨k, "Instrument", false⟩ res) := by
        have hm : min (max 0 k) 255 = k := by omega
        simp only [MSeq.new, InstrArg.resolve, InstrumentInfo.mk?, if_neg (not_not.2 hk), hm]
        rfl
      refine ⟨_, e, (key _).1, maxEnd_isLatest _, rfl, rfl, rfl, (key _).2, fun hk => (by cases hk), ?_,
        fun k hk => (by cases hk)⟩
      intro k' hk'; cases hk'; rfl

/-- `MidiNoteSequence()` is the empty sequence of instrument 0. -/
theorem C110_default : MSeq.new [] .none = .ok MSeq.empty ∧ MSeq.empty.notes = [] ∧ MSeq.empty.total = 0 ∧
    MSeq.empty.instr = ⟨0, "Generic", false⟩ ∧ MSeq.empty.resolution = 220 := by
  refine ⟨rfl, rfl, rfl, rfl, rfl⟩

/-- **C110, bulk append.** Appending a non-empty list of notes puts them, in their order, behind the notes of the
sequence and raises the total time to the latest of their ends, never lowering it; appending an empty list
raises ValueError. Appending one note is appending a list of one. -/
theorem C110_extend (s : MSeq) (l : List Note) :
    (l = [] → s.extend l = .error .value) ∧
    (l ≠ [] → ∃ s', s.extend l = .ok s' ∧ s'.notes = s.notes ++ l ∧ s'.instr = s.instr ∧
      ∀ e, Spec.IsLatest l e → s'.total = max 0 (max s.total e)) ∧
    (∀ n, s.extend [n] = .ok (s.append n)) := by
  refine ⟨fun h => by rw [MSeq.extend, if_pos h], fun h => ?_, fun n => ?_⟩
  · refine ⟨_, by rw [MSeq.extend, if_neg h], ?_, ?_, ?_⟩
    · unfold MSeq.setVisible MSeq.setTotal MSeq.notes
      cases hd : s.instr.isDrum <;> simp [hd]
    · unfold MSeq.setVisible MSeq.setTotal
      split <;> rfl
    · intro e he
      rw [isLatest_unique he (maxEnd_isLatest l)]; rfl
  · rw [MSeq.extend, if_neg (by simp)]; rfl

/-- **C110, from a list.** `from_notes(l)` is a sequence of instrument 0 with the notes `l`, whatever their own
instruments are, and total time the latest end (at least 0); `truncate_to_last_event(o)`, asked first on it,
is that latest end plus `o`. -/
theorem C110_from_notes (l : List Note) (e : ℚ) (he : Spec.IsLatest l e) (o : ℚ) :
    (MSeq.fromNotes l).notes = l ∧ (MSeq.fromNotes l).instr.num = 0 ∧ (MSeq.fromNotes l).total = max 0 e ∧
    (MSeq.fromNotes l).truncateToLastEvent (some o) = some (e + o) ∧
    (MSeq.fromNotes l).truncateToLastEvent none = none := by
  rw [isLatest_unique he (maxEnd_isLatest l)]
  exact ⟨rfl, rfl, rfl, rfl, rfl⟩

example : ∃ s', MSeq.empty.extend [exNote, { exNote with stop := 9 }] = .ok s' ∧ s'.total = 9 :=
  ⟨_, rfl, by decide +kernel⟩

/-! ## C111 durations -/

/-- **C111, steps.** The step count and the length in seconds of a note are available exactly for quantized notes
(and a positive number of steps per second), otherwise ValueError; the count is one more than the length times the steps per second, so
it counts both end points. -/
theorem C111_steps (n : Note) (sps : Int) :
    (n.isQuantized = false → n.stepDuration = .error .value ∧ n.stepSeconds sps = .error .value) ∧
    (sps ≤ 0 → n.stepSeconds sps = .error .value) ∧
    (n.isQuantized = true → n.stepDuration = .ok (n.qe - n.qs + 1) ∧
      (0 < sps → ∃ d, n.stepSeconds sps = .ok d ∧ d * sps = n.qe - n.qs ∧
        n.stepDuration = .ok (d * sps + 1))) := by
  refine ⟨fun h => ?_, fun h => ?_, fun h => ⟨?_, fun hs => ?_⟩⟩
  · simp [Note.stepDuration, Note.stepSeconds, h]
  · unfold Note.stepSeconds; split <;> simp [h]
  · simp [Note.stepDuration, h]
  · have hs' : (sps : ℚ) ≠ 0 := by exact_mod_cast (by omega : sps ≠ 0)
    refine ⟨(n.qe - n.qs) / sps, ?_, by field_simp, ?_⟩
    · unfold Note.stepSeconds; rw [if_neg (by simp [h]), if_neg (by omega)]
    · rw [div_mul_cancel₀ _ hs']; simp [Note.stepDuration, h]

/-- **C111, tempo.** For a tempo other than 0 the duration in seconds is the length of the note times 60/tempo:
it is proportional to the length, halves when the tempo doubles and equals the length at tempo 60. Tempo 0
raises ZeroDivisionError. -/
theorem C111_tempo (n : Note) (tempo : ℚ) :
    n.durationInSeconds 0 = .error .zeroDiv ∧
    n.durationInSeconds 60 = .ok (n.stop - n.start) ∧
    (tempo ≠ 0 → ∃ d, n.durationInSeconds tempo = .ok d ∧ d * tempo = 60 * (n.stop - n.start) ∧
      n.durationInSeconds (2 * tempo) = .ok (d / 2)) := by
  refine ⟨by simp [Note.durationInSeconds], ?_, fun h => ?_⟩
  · simp only [Note.durationInSeconds, Note.duration]
    rw [if_neg (by norm_num)]; congr 1; ring
  · refine ⟨60 * n.duration / tempo, by rw [Note.durationInSeconds, if_neg h], ?_, ?_⟩
    · rw [div_mul_cancel₀ _ h]; rfl
    · rw [Note.durationInSeconds, if_neg (by simpa using h)]
      congr 1; field_simp

/-- **C111, a whole measure.** `is_four_quarter_note` is true exactly for 4/4 notes whose length is 60 seconds up
to a relative 1e-9; so it is false for every note of less than 59 seconds, in particular for the one-second
quarter note of its documentation, and its answer does not depend on any tempo. -/
theorem C111_four_quarter (n : Note) :
    (n.isFourQuarter = true ↔ n.numer = 4 ∧ n.denom = 4 ∧
      |n.stop - n.start - 60| ≤ 1/1000000000 * max |n.stop - n.start| 60) ∧
    (0 ≤ n.stop - n.start → n.stop - n.start < 59 → n.isFourQuarter = false) := by
  have h1 : n.isFourQuarter = true ↔ n.numer = 4 ∧ n.denom = 4 ∧
      |n.stop - n.start - 60| ≤ 1/1000000000 * max |n.stop - n.start| 60 := by
    unfold Note.isFourQuarter
    by_cases h : n.denom ≠ 4 ∨ n.numer ≠ 4
    · rw [if_pos h]
      constructor
      · intro hc; cases hc
      · rintro ⟨a, b, _⟩; rcases h with h | h <;> contradiction
    · rw [if_neg h]
      push Not at h
      have e : ((n.numer : ℚ) * (60 / (n.denom : ℚ))) = 60 := by rw [h.1, h.2]; norm_num
      rw [e]
      simp only [isclose, decide_eq_true_eq]
      rw [show n.duration = n.stop - n.start from rfl]
      have e60 : |(60 : ℚ)| = 60 := abs_of_nonneg (by norm_num)
      rw [e60, max_eq_left (a := (1/1000000000 : ℚ) * _) (by positivity)]
      exact ⟨fun hh => ⟨h.2, h.1, hh⟩, fun hh => hh.2.2⟩
  refine ⟨h1, fun h0 h59 => ?_⟩
  rw [Bool.eq_false_iff, Ne, h1]
  rintro ⟨_, _, h⟩
  rw [abs_of_nonneg h0, max_eq_right (by linarith), abs_of_neg (by linarith)] at h
  norm_num at h; linarith

/-- **C111, beat.** `beat_duration(tempo)` is 60/tempo times numerator/denominator; it is the length of a beat,
60/tempo, exactly when numerator and denominator agree. -/
theorem C111_beat (n : Note) (tempo : ℚ) (ht : tempo ≠ 0) (hd : n.denom ≠ 0) :
    ∃ d, n.beatDuration tempo = .ok d ∧ d * tempo * n.denom = 60 * n.numer ∧
      (d = 60 / tempo ↔ n.numer = n.denom) := by
  have hd' : (n.denom : ℚ) ≠ 0 := by exact_mod_cast hd
  refine ⟨60 / tempo * (n.numer / n.denom), by rw [Note.beatDuration, if_neg (by simp [ht, hd])],
    by field_simp, ?_⟩
  constructor
  · intro h
    have : ((n.numer : ℚ) / n.denom) = 1 := by
      have h6 : (60 / tempo : ℚ) ≠ 0 := div_ne_zero (by norm_num) ht
      exact mul_left_cancel₀ h6 (by rw [h, mul_one])
    rw [div_eq_one_iff_eq hd'] at this
    exact_mod_cast this
  · intro h; rw [h, div_self hd', mul_one]

example : ({ exNote with numer := 4, denom := 4, start := 1, stop := 61 } : Note).isFourQuarter = true ∧
    ({ exNote with numer := 4, denom := 4, start := 0, stop := 1 } : Note).isFourQuarter = false := by
  decide +kernel

/-! ## C112 pitch bends and control changes -/

/-- **C112, order of bends.** Pitch bends are ordered by amount alone: the order is irreflexive and transitive,
and bends at different times with the same amount are not ordered either way, so a sort is not by time. -/
theorem C112_bend_order (a b c : PitchBend) :
    a.lt a = false ∧ (a.lt b = true → b.lt c = true → a.lt c = true) ∧
    (a.amount = b.amount → a.lt b = false ∧ b.lt a = false) ∧ (a.amount < b.amount → a.lt b = true) := by
  unfold PitchBend.lt
  refine ⟨by simp, ?_, ?_, by simp⟩
  · simp only [decide_eq_true_eq]; omega
  · intro h; simp [h]

/-- **C112, shifting control changes.** Shifting changes only the time; shifts add up and can be undone; there is
no check, so every control change can be shifted before time 0. -/
theorem C112_cc_shift (c : CC) (d e : ℚ) :
    (c.shift d).shift e = c.shift (d + e) ∧ (c.shift d).shift (-d) = c ∧ (c.shift d).time = c.time + d ∧
    { c.shift d with time := c.time } = c ∧ ∃ x, (c.shift x).time < 0 := by
  refine ⟨by simp [CC.shift, add_assoc], by simp [CC.shift], rfl, rfl, -c.time - 1, ?_⟩
  simp only [CC.shift]; linarith

/-- **C112, same start.** `same_start_time(a, b, tol)` compares `a` with itself: it is True exactly for a positive
tolerance, whatever the two notes are. -/
theorem C112_same_start (n : Note) (tol : ℚ) : sameStartTime n tol = true ↔ 0 < tol := by
  simp [sameStartTime]

/-! ## C113 values of the signature lookups -/

/-- **C113, which values.** The three lookups report the fields of the selected signature (C35 says which one is
selected): numerator and denominator; tempo, truncated to an integer, and resolution; mode and key. Without
signatures the answers are 4/4, (480, 120) and none. The tempo pair changes its meaning: for a signature it is
(beats per minute, resolution), for the default and for negative times it is (resolution, beats per minute). -/
theorem C113_values (ts : List TimeSig) (ps : List TempoSig) (ks : List KeySig) (t : ℚ) :
    (0 ≤ t → ∀ s, sigAt ts { time := t, numer := 4, denom := 4 } = some s →
      timeSignature ts t = (s.numer, s.denom)) ∧
    (0 ≤ t → ∀ s, sigAt ps { time := t, qpm := 120, resolution := 480 } = some s →
      tempoSignature ps t = (pyInt s.qpm, s.resolution)) ∧
    (∀ s, sigAt ks { time := t, key := 0, mode := .major } = some s →
      keySignature ks t = some (s.mode, s.key)) ∧
    (t < 0 → timeSignature ts t = (480, 120) ∧ tempoSignature ps t = (480, 120)) ∧
    (0 ≤ t → timeSignature [] t = (4, 4)) ∧ tempoSignature [] t = (480, 120) ∧ keySignature [] t = none := by
  refine ⟨fun h s hs => ?_, fun h s hs => ?_, fun s hs => ?_, fun h => ⟨?_, ?_⟩, fun h => ?_, ?_, rfl⟩
  · rw [timeSignature, if_neg (by linarith), hs]
  · rw [tempoSignature, if_neg (by linarith), hs]
  · rw [keySignature, hs]; rfl
  · rw [timeSignature, if_pos h]
  · rw [tempoSignature, if_pos h]
  · rw [timeSignature, if_neg (by linarith)]; rfl
  · unfold tempoSignature; split <;> rfl

/-- **C113, one tempo throughout.** A piece with a single tempo reports it at every non-negative time, also at
times before the tempo starts (the search wraps around), truncated to an integer; likewise for the other two,
where the key lookup does so for negative times too. -/
theorem C113_single (a : TimeSig) (p : TempoSig) (k : KeySig) (t : ℚ) :
    (0 ≤ t → timeSignature [a] t = (a.numer, a.denom) ∧ tempoSignature [p] t = (pyInt p.qpm, p.resolution)) ∧
    keySignature [k] t = some (k.mode, k.key) := by
  have one : ∀ {S : Type} [Sig S] (a probe : S), sigAt [a] probe = some a := by
    intro S _ a probe
    have hle : bisectRight Sig.lt [a] probe ≤ 1 := by
      have := bisectRight_le Sig.lt [a] probe
      simpa using this
    unfold sigAt atPred
    split
    · rfl
    · have : bisectRight Sig.lt [a] probe = 1 := by omega
      rw [this]; rfl
  refine ⟨fun h => ⟨(C113_values [a] [p] [k] t).1 h _ (one _ _), (C113_values [a] [p] [k] t).2.1 h _ (one _ _)⟩,
    (C113_values [a] [p] [k] t).2.2.1 _ (one _ _)⟩

/-! ## C114 the track container: checks and counts -/

/-- **C114, index checks.** Reading, writing and `get_track` with an index outside 0..127 raise ValueError,
whatever the state. `create_track` does not check its index: with a program in 0..127 it creates a track for
every integer not yet used on an empty container, which no accessor can then return for an index outside
0..127; with a program outside 0..127 it raises ValueError. -/
theorem C114_checks {V : Type} (t : Tracks V) (f v : V) (i p : Int) :
    (i < 0 ∨ 128 ≤ i → t.getItem f i = .error .value ∧ t.setItem i v = .error .value ∧
      t.getTrack f i p = .error .value) ∧
    (¬ (0 ≤ p ∧ p < 128) → t.createTrack f i p = .error .value) ∧
    (0 ≤ p → p < 128 → ∃ t', (Tracks.empty : Tracks V).createTrack f i p = .ok (i, t') ∧
      t'.seqs.lookup i = some f ∧ t'.iter = [i]) := by
  refine ⟨fun h => ⟨?_, ?_, ?_⟩, fun h => ?_, fun h0 h1 => ?_⟩
  · unfold Tracks.getItem; rw [if_pos h]
  · unfold Tracks.setItem; rw [if_pos h]
  · unfold Tracks.getTrack; rw [if_pos h]
  · unfold Tracks.createTrack; rw [if_pos h]
  · refine ⟨{ seqs := { dict := [(i, f)], keys := [i] }, toIdx := { dict := [(i, i)], keys := [i] } }, ?_, ?_, rfl⟩
    · unfold Tracks.createTrack
      rw [if_neg (not_not.2 ⟨h0, h1⟩)]
      rfl
    · simp [SDict.lookup]

/-- **C114, number of instruments.** After importing a list of sequences, `num_instruments` is the number of
different instrument numbers in the list. -/
theorem C114_num_instruments (srt : List Note → List Note) (hs : IsPySort Note.lt srt) (l : List MSeq)
    (t : Tracks MSeq) (h : Tracks.ofSeqs srt l = .ok t) :
    t.numInstruments = .ok (l.map (fun s => s.instr.num)).toFinset.card := by
  have h0 : (Tracks.empty : Tracks MSeq).Imported [] := by
    refine ⟨Tracks.empty_inv, fun i j h => (by cases h), fun i => ⟨fun _ => rfl, fun _ => rfl⟩,
      fun p hp => (by cases hp), List.Perm.refl _, fun k => ?_, fun k s h => (by cases h),
      fun k s h => (by cases h)⟩
    simp [Tracks.empty, SDict.empty, SDict.lookup]
  rcases Tracks.ofSeqs_aux srt hs l [] Tracks.empty h0 List.Pairwise.nil with ⟨t', h1, h2, h3⟩ | ⟨⟨e, he⟩, hn⟩
  · unfold Tracks.ofSeqs at h
    rw [h1] at h
    cases h
    rw [List.nil_append] at h2
    obtain ⟨vs, g1, g2⟩ := SDict.values_perm _ h2.inv.1
    unfold Tracks.numInstruments
    rw [g1]
    simp only [bind, Except.bind]
    congr 1
    rw [← List.card_toFinset]
    congr 1
    ext k
    simp only [List.mem_toFinset, List.mem_map]
    constructor
    · rintro ⟨s, hsv, rfl⟩
      rw [g2.mem_iff] at hsv
      obtain ⟨⟨k, s'⟩, hp, rfl⟩ := List.mem_map.1 hsv
      have hk := h2.num _ hp
      have := (h2.dom k).1 (by
        rw [Ne, SDict.lookup_none_iff, Bool.not_eq_false, SDict.has_iff]
        exact List.mem_map.2 ⟨_, hp, rfl⟩)
      obtain ⟨s0, hs0, e0⟩ := this
      exact ⟨s0, hs0, by rw [e0]; exact hk.symm⟩
    · rintro ⟨s, hsl, rfl⟩
      have := (h2.dom s.instr.num).2 ⟨s, hsl, rfl⟩
      cases hv : t.seqs.lookup s.instr.num with
      | none => exact absurd hv this
      | some v =>
        have hp := mem_of_lookup _ _ _ hv
        refine ⟨v, g2.mem_iff.2 (List.mem_map.2 ⟨_, hp, rfl⟩), h2.num _ hp⟩
  · unfold Tracks.ofSeqs at h
    rw [he] at h; cases h

example : ((Tracks.ofSeqs id [MSeq.mk' [exNote] { num := 0, name := "Piano", isDrum := false },
      MSeq.mk' [{ exNote with instrument := 4 }] { num := 4, name := "Organ", isDrum := false },
      MSeq.mk' [{ exNote with pitch := 64 }] { num := 0, name := "Piano", isDrum := false }]).bind
      (fun t => t.numInstruments)) = .ok 2 := by
  decide +kernel

/-! ## C115 sizes of a dataset split -/

/-- **C115.** For a ratio between 0 and 1 the two parts of a split of `n` items have non-negative sizes that add
up to `n`, the first at most `n * ratio` and less than one item short of it; with ratio 1 the second part is
empty. For a ratio outside, one of the two sizes is negative as soon as the excess is an item. -/
theorem C115_split_sizes (n : Nat) (r : ℚ) :
    (splitSizes n r).1 + (splitSizes n r).2 = n ∧
    (0 ≤ r → r ≤ 1 → 0 ≤ (splitSizes n r).1 ∧ 0 ≤ (splitSizes n r).2 ∧ ((splitSizes n r).1 : ℚ) ≤ n * r ∧
      (n * r : ℚ) < (splitSizes n r).1 + 1) ∧
    splitSizes n 1 = ((n : Int), 0) ∧
    (n + 1 ≤ n * r → (splitSizes n r).2 < 0) ∧ (n * r ≤ -1 → (splitSizes n r).1 < 0) := by
  have h1 : pyInt ((n : ℚ) * 1) = n := by
    rw [mul_one]; unfold pyInt; rw [if_pos (Nat.cast_nonneg n)]; simp
  refine ⟨by simp [splitSizes], fun h0 h1 => ?_, by simp only [splitSizes, h1]; simp, fun h => ?_, fun h => ?_⟩
  · have hn : (0 : ℚ) ≤ n := Nat.cast_nonneg n
    have hm : 0 ≤ (n : ℚ) * r := mul_nonneg hn h0
    have hle : (n : ℚ) * r ≤ n := by nlinarith
    simp only [splitSizes]
    have e : pyInt ((n : ℚ) * r) = ⌊(n : ℚ) * r⌋ := by
      unfold pyInt; rw [if_pos hm]
    rw [e]
    refine ⟨Int.floor_nonneg.2 hm, ?_, Int.floor_le _, Int.lt_floor_add_one _⟩
    have : ⌊(n : ℚ) * r⌋ ≤ (n : Int) := by
      have := Int.floor_le_floor hle; simpa using this
    omega
  · simp only [splitSizes]
    have hn : (0 : ℚ) ≤ n := Nat.cast_nonneg n
    have e : pyInt ((n : ℚ) * r) = ⌊(n : ℚ) * r⌋ := by
      unfold pyInt; rw [if_pos (by linarith)]
    rw [e]
    have : ((n : Int) + 1) ≤ ⌊(n : ℚ) * r⌋ := by
      rw [Int.le_floor]; push_cast; exact h
    omega
  · simp only [splitSizes]
    have e : pyInt ((n : ℚ) * r) = ⌈(n : ℚ) * r⌉ := by
      unfold pyInt; rw [if_neg (by linarith)]
    rw [e]
    have : ⌈(n : ℚ) * r⌉ ≤ -1 := by rw [Int.ceil_le]; push_cast; exact h
    omega

example : splitSizes 10 (7/10) = (7, 3) := by decide +kernel

/-! ## C116 graph building: argument checks -/

/-- **C116, options.** `build_sequence` raises ValueError for every sequence if the hidden feature size is not in
1..128, the number of velocity buckets is not positive or the tolerance is not in 0..1; for options in these
ranges, bounds included, a sequence without notes is accepted and gives an empty graph. -/
theorem C116_options (env : PyEnv) (t : Tables) (s : MSeq) (o : BuildOpts) :
    (¬ (0 < o.size ∧ o.size ≤ 128 ∧ 0 < o.buckets ∧ 0 ≤ o.tol ∧ o.tol ≤ 1) →
      ∀ g, buildSequence env t s o g = .error .value) ∧
    (0 < o.size → o.size ≤ 128 → 0 < o.buckets → 0 ≤ o.tol → o.tol ≤ 1 → s.notes = [] →
      buildSequence env t s o none = .ok (t, DiGraph.empty)) := by
  constructor
  · intro h g
    have : o.ok = false := by
      rw [Bool.eq_false_iff]
      intro hc
      simp only [BuildOpts.ok, Bool.and_eq_true, decide_eq_true_eq] at hc
      exact h ⟨hc.1.1.1.1, hc.1.1.1.2, hc.1.1.2, hc.1.2, hc.2⟩
    unfold buildSequence
    rw [this]; rfl
  · intro h1 h2 h3 h4 h5 hn
    have : o.ok = true := by
      simp only [BuildOpts.ok, Bool.and_eq_true, decide_eq_true_eq]
      exact ⟨⟨⟨⟨h1, h2⟩, h3⟩, h4⟩, h5⟩
    unfold buildSequence computeData
    rw [this, hn]
    simp only [List.foldlM_nil, bind, Except.bind, pure, Except.pure, Bool.not_true, Bool.false_eq_true,
      if_false, List.filter_nil, ite_self, if_true]
    rfl

/-- **C116, conversion.** The conversion of a graph succeeds exactly when every node has a hash and a feature
tensor; otherwise it raises ValueError. -/
theorem C116_conversion (g : MGraph) :
    ((∀ p ∈ g.nodes, p.2.nodeHash ≠ none ∧ p.2.attr ≠ none) → ∃ d, fromNetworkx g = .ok d) ∧
    (¬ (∀ p ∈ g.nodes, p.2.nodeHash ≠ none ∧ p.2.attr ≠ none) → fromNetworkx g = .error .value) := by
  have key : ∀ {β : Type} (f : Int × NodeAttr → Option β) (l : List (Int × NodeAttr)),
      ((∀ p ∈ l, f p ≠ none) → ∃ xs, l.mapM (fun p => needAttr (f p)) = .ok xs) ∧
      (¬ (∀ p ∈ l, f p ≠ none) → l.mapM (fun p => needAttr (f p)) = .error .value) := by
    intro β f l
    induction l with
    | nil => exact ⟨fun _ => ⟨[], rfl⟩, fun h => absurd (fun p hp => by simp at hp) h⟩
    | cons p l ih =>
      cases hp : f p with
      | none =>
        refine ⟨fun h => absurd hp (h p (by simp)), fun _ => ?_⟩
        rw [List.mapM_cons, hp]; rfl
      | some x =>
        constructor
        · intro h
          obtain ⟨xs, e⟩ := ih.1 (fun q hq => h q (List.mem_cons_of_mem _ hq))
          exact ⟨x :: xs, by rw [List.mapM_cons, hp, e]; rfl⟩
        · intro h
          have := ih.2 (fun hc => h (fun q hq => by
            rcases List.mem_cons.1 hq with rfl | hq
            · rw [hp]; simp
            · exact hc q hq))
          rw [List.mapM_cons, hp, this]; rfl
  obtain ⟨a1, a2⟩ := key (fun p => p.2.nodeHash) g.nodes
  obtain ⟨b1, b2⟩ := key (fun p => p.2.attr) g.nodes
  unfold fromNetworkx
  constructor
  · intro h
    obtain ⟨xs, e1⟩ := a1 (fun p hp => (h p hp).1)
    obtain ⟨ys, e2⟩ := b1 (fun p hp => (h p hp).2)
    rw [e1, e2]
    exact ⟨_, rfl⟩
  · intro h
    by_cases ha : ∀ p ∈ g.nodes, p.2.nodeHash ≠ none
    · obtain ⟨xs, e1⟩ := a1 ha
      have e2 := b2 (fun hb => h (fun p hp => ⟨ha p hp, hb p hp⟩))
      rw [e1, e2]; rfl
    · rw [a2 ha]; rfl

end NGC
