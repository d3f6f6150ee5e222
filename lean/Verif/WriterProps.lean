import Verif.Writer
import Verif.ReaderProps3
import Verif.AdjustProps2
import Verif.TimesProps2

/-! Property theorems C127 (when writing fails) and lemmas for C128, C129 (what is written). -/

namespace NGC

open Spec (seconds TempoMap)

/-! ### Taking the model apart -/

theorem toPrettyMidi_some {srt : List TimeSig → List TimeSig} {srt' : List (ℚ × ℚ) → List (ℚ × ℚ)} {fuel : Nat} {s : Song}
    {t0 : ℚ} {fs te : Option ℚ} {pm' : PM} (h : s.toPrettyMidi srt srt' fuel t0 fs te = .ok (some pm')) :
    ∃ b pm e q, te = some b ∧ s.build srt t0 (some b) = .ok pm ∧ pm.endTime = .ok e ∧
      pm.adjustTimes fuel (writePoints e fs (some b)) = .ok (some pm') ∧ estimateTempo srt' pm'.insts = .ok q := by
  unfold Song.toPrettyMidi at h
  cases hb : s.build srt t0 te with
  | error e => rw [hb] at h; simp [bind, Except.bind] at h
  | ok pm =>
    rw [hb] at h
    cases te with
    | none =>
      unfold Song.build Song.maxEventTime at hb
      simp only [bind, Except.bind] at hb
      cases he : s.tracks.allEvents with
      | error e => rw [he] at hb; simp at hb
      | ok evs =>
        rw [he] at hb
        by_cases h0 : evs = []
        · simp [h0] at hb
        · simp [h0] at hb
    | some b =>
      simp only [bind, Except.bind, Option.isSome_some, or_true, if_true] at h
      cases he : pm.endTime with
      | error e => rw [he] at h; simp at h
      | ok e =>
        rw [he] at h
        simp only at h
        cases ha : pm.adjustTimes fuel (writePoints e fs (some b)) with
        | error e => rw [ha] at h; simp at h
        | ok o =>
          rw [ha] at h
          cases o with
          | none => simp at h
          | some pm2 =>
            simp only at h
            cases he2 : pm2.endTime with
            | error e => rw [he2] at h; simp at h
            | ok e2 =>
              rw [he2] at h
              simp only at h
              cases hq : estimateTempo srt' pm2.insts with
              | error e => rw [hq] at h; simp at h
              | ok q =>
                rw [hq] at h
                simp only [Except.ok.injEq, Option.some.injEq] at h
                subst h
                exact ⟨b, pm, e, q, rfl, hb, he, ha, hq⟩

/-- The parts of the object before its times are adjusted. -/
structure SongBuilt (srt : List TimeSig → List TimeSig) (s : Song) (t0 b : ℚ) (pm : PM) (mx : ℚ) (evs : List Note) (c0 : Clock)
    (r : List MSeq × Tracks MSeq) : Prop where
  events : s.tracks.allEvents = .ok evs
  nonempty : evs ≠ []
  mx_eq : mx = maxEnd evs
  times : (sliceTimeSigs srt mx s.times).mapM writeTimeSig = .ok pm.timeSigs
  keys : (sliceKeySigs mx s.keys).mapM writeKeySig = .ok pm.keySigs
  fresh : Clock.fresh (if s.resolution = 0 then 480 else s.resolution.toNat) t0 = .ok c0
  clock : writeTempos c0 (sliceTempos mx s.tempos) = .ok pm.clock
  visit : s.visitAll = .ok r
  insts : pm.insts = { program := 0, isDrum := false, name := "", notes := [], bends := [], controls := [] } :: r.1.map (writeInst mx)
  lyrics : pm.lyrics = []

theorem build_some {srt : List TimeSig → List TimeSig} {s : Song} {t0 b : ℚ} {pm : PM} (h : s.build srt t0 (some b) = .ok pm) :
    ∃ mx evs c0 r, SongBuilt srt s t0 b pm mx evs c0 r := by
  unfold Song.build Song.maxEventTime at h
  simp only [bind, Except.bind] at h
  cases ht : s.tracks.truncate b none with
  | error e => rw [ht] at h; simp at h
  | ok r0 =>
    rw [ht] at h
    simp only at h
    cases hf : Clock.fresh (if s.resolution = 0 then 480 else s.resolution.toNat) t0 with
    | error e => rw [hf] at h; simp at h
    | ok c0 =>
      rw [hf] at h
      simp only at h
      cases h1 : (sliceTimeSigs srt (r0.1.getD 0) s.times).mapM writeTimeSig with
      | error e => rw [h1] at h; simp at h
      | ok ts =>
        rw [h1] at h
        simp only at h
        cases h2 : (sliceKeySigs (r0.1.getD 0) s.keys).mapM writeKeySig with
        | error e => rw [h2] at h; simp at h
        | ok ks =>
          rw [h2] at h
          simp only at h
          cases h3 : writeTempos c0 (sliceTempos (r0.1.getD 0) s.tempos) with
          | error e => rw [h3] at h; simp at h
          | ok c =>
            rw [h3] at h
            simp only at h
            cases h4 : s.visitAll with
            | error e => rw [h4] at h; simp at h
            | ok r =>
              rw [h4] at h
              simp only [Except.ok.injEq] at h
              subst h
              cases he : s.tracks.allEvents with
              | error e =>
                unfold Tracks.truncate at ht
                simp only [bind, Except.bind, he] at ht
                cases ht
              | ok evs =>
                obtain ⟨g1, g2⟩ := C37_truncate s.tracks b evs he
                obtain ⟨_, k2, _⟩ := g2 r0 ht
                refine ⟨r0.1.getD 0, evs, c0, r, he, ?_, ?_, h1, h2, hf, h3, h4, rfl, rfl⟩
                · intro h0
                  rw [g1 h0] at ht; cases ht
                · rw [k2]; rfl

theorem adjustTimes_some {fuel : Nat} {pm pm' : PM} {l : List (ℚ × ℚ)} (h : pm.adjustTimes fuel l = .ok (some pm')) :
    ∃ downs a t c0 c, pm.downbeats fuel 0 = .ok (some downs) ∧ (timeMap l).head? = some a ∧ pm.clock.tempoChanges = .ok (t, c0) ∧
      adjTempo c0 (timeMap l) = .ok c ∧
      pm' = { pm with
        clock := c
        insts := pm.insts.map (adjInst (timeMap l))
        keySigs := adjEvents (fun e => e.2) (fun e t => (e.1, t)) (timeMap l) pm.keySigs
        lyrics := adjEvents (fun e => e.2) (fun e t => (e.1, t)) (timeMap l) pm.lyrics
        timeSigs := adjTimeSigs ((downs.filter (fun d => decide (d ≥ a.1))).map (interp (timeMap l)))
          (adjEvents (fun e => e.2.2) (fun e t => (e.1, e.2.1, t)) (timeMap l) pm.timeSigs) } := by
  unfold PM.adjustTimes at h
  cases hd : pm.downbeats fuel 0 with
  | error e => rw [hd] at h; simp [bind, Except.bind] at h
  | ok o =>
    rw [hd] at h
    cases o with
    | none => simp [bind, Except.bind] at h
    | some ds =>
      simp only [bind, Except.bind] at h
      cases ha : (timeMap l).head? with
      | none => rw [ha] at h; simp at h
      | some a =>
        rw [ha] at h
        simp only at h
        cases ht : pm.clock.tempoChanges with
        | error e => rw [ht] at h; simp at h
        | ok tc =>
          rw [ht] at h
          simp only at h
          cases hc : adjTempo tc.2 (timeMap l) with
          | error e => rw [hc] at h; simp at h
          | ok c =>
            rw [hc] at h
            simp only [Except.ok.injEq, Option.some.injEq] at h
            exact ⟨ds, a, tc.1, tc.2, c, rfl, rfl, rfl, hc, h.symm⟩

theorem write_some {srt : List TimeSig → List TimeSig} {srt' : List (ℚ × ℚ) → List (ℚ × ℚ)} {fuel : Nat} {s : Song}
    {t0 : ℚ} {fn : String} {ex : Bool} {fs te : Option ℚ} {ow : Overwrite} {pm' : PM}
    (h : s.write srt srt' fuel t0 fn ex fs te ow = .ok (some pm')) :
    s.tracks.len ≠ 0 ∧ fn ≠ "" ∧ (ow = .no → ex = false) ∧ (∀ a, fs = some a → 0 ≤ a) ∧ (∀ b, te = some b → 0 ≤ b) ∧
      (∀ a b, fs = some a → te = some b → a ≤ b) ∧ s.toPrettyMidi srt srt' fuel t0 fs te = .ok (some pm') := by
  unfold Song.write at h
  split_ifs at h with h1 h2 h3 h4 h5 h6
  refine ⟨h1, h2, ?_, ?_, ?_, ?_, h⟩
  · intro hw
    by_contra hx
    exact h3 ⟨hw, by simpa using hx⟩
  · rintro a rfl
    simpa using h4
  · rintro b rfl
    simpa using h5
  · rintro a b rfl rfl
    simpa [badRange] using h6

/-! ### C127 -/

/-- **C127, the defaults never work.** Without `to_end` neither `to_pretty_midi` nor `write` ever returns: whatever the song, the
start, the file name and the tempo, there is an exception. -/
theorem C127_defaults_fail (srt : List TimeSig → List TimeSig) (srt' : List (ℚ × ℚ) → List (ℚ × ℚ)) (fuel : Nat) (s : Song)
    (t0 : ℚ) (fn : String) (ex : Bool) (fs : Option ℚ) (ow : Overwrite) :
    (∃ e, s.toPrettyMidi srt srt' fuel t0 fs none = .error e) ∧ (∃ e, s.write srt srt' fuel t0 fn ex fs none ow = .error e) := by
  have h1 : ∃ e, s.toPrettyMidi srt srt' fuel t0 fs none = .error e := by
    unfold Song.toPrettyMidi Song.build Song.maxEventTime
    simp only [bind, Except.bind]
    cases he : s.tracks.allEvents with
    | error e => exact ⟨e, rfl⟩
    | ok evs =>
      by_cases h0 : evs = []
      · exact ⟨.value, by simp [h0]⟩
      · exact ⟨.type, by simp [h0]⟩
  refine ⟨h1, ?_⟩
  obtain ⟨e, he⟩ := h1
  unfold Song.write
  split_ifs
  all_goals first | exact ⟨_, rfl⟩ | exact ⟨e, he⟩

/-- **C127, what a successful `write` says about its arguments**: the song has a track, the file name is not empty, no existing file is
overwritten unless `do_overwrite` is something other than `False`, an end is given and `0 ≤ from_start ≤ to_end`. -/
theorem C127_checks (srt : List TimeSig → List TimeSig) (srt' : List (ℚ × ℚ) → List (ℚ × ℚ)) (fuel : Nat) (s : Song)
    (t0 : ℚ) (fn : String) (ex : Bool) (fs te : Option ℚ) (ow : Overwrite) (pm' : PM)
    (h : s.write srt srt' fuel t0 fn ex fs te ow = .ok (some pm')) :
    s.tracks.len ≠ 0 ∧ fn ≠ "" ∧ (ow = .no → ex = false) ∧ ∃ b, te = some b ∧ 0 ≤ b ∧ ∀ a, fs = some a → 0 ≤ a ∧ a ≤ b := by
  obtain ⟨h1, h2, h3, h4, h5, h6, h7⟩ := write_some h
  obtain ⟨b, _, _, _, hb, _⟩ := toPrettyMidi_some h7
  exact ⟨h1, h2, h3, b, hb, h5 b hb, fun a ha => ⟨h4 a ha, h6 a b ha hb⟩⟩

/-- **C127, an existing file is safe**: with `do_overwrite=False` and an existing file `write` raises FileExistsError, or ValueError when the
song has no track or the name is empty; nothing is computed. -/
theorem C127_existing_file (srt : List TimeSig → List TimeSig) (srt' : List (ℚ × ℚ) → List (ℚ × ℚ)) (fuel : Nat) (s : Song)
    (t0 : ℚ) (fn : String) (fs te : Option ℚ) :
    s.write srt srt' fuel t0 fn true fs te .no = .error (if s.tracks.len = 0 ∨ fn = "" then .value else .fileExists) := by
  unfold Song.write
  by_cases h1 : s.tracks.len = 0
  · simp [h1]
  · by_cases h2 : fn = ""
    · simp [h1, h2]
    · simp [h1, h2]

/-- **C127, the debug message decides.** Writing succeeds only if two successive onsets of the written notes are between 50 ms and 2 s
apart: a song with one note, one chord, or slow notes only cannot be written. -/
theorem C127_needs_pulse (srt : List TimeSig → List TimeSig) (srt' : List (ℚ × ℚ) → List (ℚ × ℚ))
    (hs : ∀ l, (srt' l).Perm l ∧ (srt' l).Pairwise (fun c d => d.2 ≤ c.2)) (fuel : Nat) (s : Song)
    (t0 : ℚ) (fs te : Option ℚ) (pm' : PM) (h : s.toPrettyMidi srt srt' fuel t0 fs te = .ok (some pm')) :
    ∃ x y, Spec.Adjacent (onsets pm'.insts) x y ∧ 1/20 < y - x ∧ y - x < 2 := by
  obtain ⟨_, _, _, q, _, _, _, _, hq⟩ := toPrettyMidi_some h
  by_contra hc
  rw [(C122_estimate srt' hs pm'.insts).1 (fun a b hab hd => hc ⟨a, b, hab, hd.1, hd.2⟩)] at hq
  cases hq

/-! ### The loop over the tracks -/

theorem getItem_inv {t : Tracks MSeq} (h : t.Inv) (f : MSeq) (k : Int) (r : MSeq × Tracks MSeq) (hr : t.getItem f k = .ok r) :
    r.2.Inv ∧ 0 ≤ k ∧ k < 128 := by
  have hk : 0 ≤ k ∧ k < 128 := by
    by_contra hc
    unfold Tracks.getItem at hr
    rw [if_pos (by omega)] at hr
    cases hr
  refine ⟨?_, hk⟩
  rcases Tracks.getItem_ok t h f k hk with ⟨j, _, h2⟩ | ⟨_, t', h2, h3, _⟩
  · rw [h2] at hr
    cases hv : t.seqs.getItem j with
    | error e => rw [hv] at hr; cases hr
    | ok v => rw [hv] at hr; cases hr; exact h
  · rw [h3] at hr; cases hr; exact h2

/-- Every index leads to an existing track without notes. -/
def OnlyBlank (t : Tracks MSeq) : Prop := ∀ k j, t.toIdx.lookup k = some j → ∃ v, t.seqs.lookup j = some v ∧ v.notes = []

theorem visit_blank (s : Song) : ∀ (fuel i : Nat) (t : Tracks MSeq) (r : List MSeq × Tracks MSeq), t.Inv → OnlyBlank t →
    s.visit fuel i t = .ok r → ∀ v ∈ r.1, v.notes = [] := by
  intro fuel
  induction fuel with
  | zero => intro i t r _ _ h; cases h
  | succ fuel ih =>
    intro i t r hi hb h
    unfold Song.visit at h
    cases hk : t.seqs.keys[i]? with
    | none => rw [hk] at h; cases h; simp
    | some k =>
      rw [hk] at h
      simp only [bind, Except.bind] at h
      cases hg : t.getItem (s.defaultTrack k) k with
      | error e => rw [hg] at h; cases h
      | ok g =>
        rw [hg] at h
        simp only at h
        obtain ⟨hi', hk'⟩ := getItem_inv hi _ k g hg
        cases hv : s.visit fuel (i + 1) g.2 with
        | error e => rw [hv] at h; cases h
        | ok r' =>
          rw [hv] at h
          cases h
          have hd : (s.defaultTrack k).notes = [] := by
            unfold Song.defaultTrack MSeq.mk' MSeq.notes
            simp
          have key : g.1.notes = [] ∧ OnlyBlank g.2 := by
            rcases Tracks.getItem_ok t hi (s.defaultTrack k) k hk' with ⟨j, h1, h2⟩ | ⟨_, t', _, h3, h4, h5⟩
            · obtain ⟨v, hv1, hv2⟩ := hb k j h1
              rw [h2, (SDict.getItem_ok_iff _ _ _).2 hv1] at hg
              cases hg
              exact ⟨hv2, hb⟩
            · rw [h3] at hg
              cases hg
              refine ⟨hd, ?_⟩
              intro x j hx
              rw [h4] at hx
              by_cases hj : j = (t.seqs.len : Int)
              · exact ⟨_, by rw [h5, if_pos hj], hd⟩
              · by_cases hxk : x = k
                · rw [if_pos hxk] at hx
                  exact absurd (Option.some.inj hx).symm hj
                · rw [if_neg hxk] at hx
                  rw [h5, if_neg hj]
                  exact hb x j hx
          intro v hv'
          rcases List.mem_cons.1 hv' with rfl | hv'
          · exact key.1
          · exact ih _ _ _ hi' key.2 hv v hv'

theorem mem_keys_iff {V : Type} (d : SDict Int V) (h : d.Inv intLt) (k : Int) : k ∈ d.keys ↔ ∃ v, d.lookup k = some v := by
  rw [h.same, ← SDict.has_iff]
  cases hl : d.lookup k with
  | none => simp [(SDict.lookup_none_iff d k).1 hl]
  | some v =>
    have : d.has k = true := by
      by_contra hc
      rw [(SDict.lookup_none_iff d k).2 (by simpa using hc)] at hl
      cases hl
    simp [this]

/-- The valid indices that are not in use. -/
def freeIdx (t : Tracks MSeq) : Nat := ((Finset.range 128).filter (fun k : Nat => t.toIdx.lookup (k : Int) = none)).card

theorem visit_ends_aux (s : Song) : ∀ (fuel i : Nat) (t : Tracks MSeq), t.Inv → t.seqs.keys.length - i + freeIdx t < fuel →
    s.visit fuel i t ≠ .error .runtime := by
  intro fuel
  induction fuel with
  | zero => intro i t _ h; omega
  | succ fuel ih =>
    intro i t hi hm hc
    unfold Song.visit at hc
    cases hk : t.seqs.keys[i]? with
    | none => rw [hk] at hc; cases hc
    | some k =>
      rw [hk] at hc
      simp only [bind, Except.bind] at hc
      have hlen : i < t.seqs.keys.length := (List.getElem?_eq_some_iff.1 hk).1
      by_cases hkr : 0 ≤ k ∧ k < 128
      · rcases Tracks.getItem_ok t hi (s.defaultTrack k) k hkr with ⟨j, h1, h2⟩ | ⟨h1, t', hi', h3, h4, h5⟩
        · rw [h2] at hc
          cases hv : t.seqs.getItem j with
          | error e =>
            rw [hv] at hc
            unfold SDict.getItem at hv
            split at hv
            · cases hv
            · cases hv; cases hc
          | ok v =>
            rw [hv] at hc
            simp only [Except.bind] at hc
            cases hr : s.visit fuel (i + 1) t with
            | error e =>
              rw [hr] at hc
              cases hc
              exact ih (i + 1) t hi (by omega) hr
            | ok r => rw [hr] at hc; cases hc
        · rw [h3] at hc
          simp only at hc
          have hl : t'.seqs.keys.length ≤ t.seqs.keys.length + 1 := by
            have hsub : t'.seqs.keys ⊆ (t.seqs.len : Int) :: t.seqs.keys := by
              intro x hx
              obtain ⟨v, hv⟩ := (mem_keys_iff _ hi'.1 x).1 hx
              rw [h5] at hv
              by_cases hx2 : x = (t.seqs.len : Int)
              · rw [hx2]; simp
              · rw [if_neg hx2] at hv
                exact List.mem_cons_of_mem _ ((mem_keys_iff _ hi.1 x).2 ⟨v, hv⟩)
            have := (List.subperm_of_subset (hi'.1.keys_nodup intLt_total') hsub).length_le
            simpa using this
          have hu : freeIdx t' < freeIdx t := by
            unfold freeIdx
            apply Finset.card_lt_card
            rw [Finset.ssubset_iff_of_subset]
            · refine ⟨k.toNat, ?_, ?_⟩
              · rw [Finset.mem_filter, Finset.mem_range, Int.toNat_of_nonneg hkr.1]
                exact ⟨by omega, h1⟩
              · rw [Finset.mem_filter, Int.toNat_of_nonneg hkr.1, h4]
                simp
            · intro x hx
              rw [Finset.mem_filter, h4] at hx
              rw [Finset.mem_filter]
              refine ⟨hx.1, ?_⟩
              have := hx.2
              split_ifs at this
              exact this
          cases hr : s.visit fuel (i + 1) t' with
          | error e =>
            rw [hr] at hc
            cases hc
            exact ih (i + 1) t' hi' (by omega) hr
          | ok r => rw [hr] at hc; cases hc
      · have : t.getItem (s.defaultTrack k) k = .error .value := by
          unfold Tracks.getItem
          rw [if_pos (by omega)]
        rw [this] at hc
        cases hc

/-- The loop over the tracks ends: the bound on its rounds in the model is never reached. -/
theorem visit_ends (s : Song) (h : s.tracks.Inv) : s.visitAll ≠ .error .runtime := by
  apply visit_ends_aux _ _ _ _ h
  have : freeIdx s.tracks ≤ 128 := by
    unfold freeIdx
    refine le_trans (Finset.card_filter_le _ _) ?_
    simp
  omega

/-- When every key leads to an existing track, the loop visits exactly these, in order of the keys. -/
theorem visit_registered (s : Song) (t : Tracks MSeq) : ∀ (ts : List MSeq) (pre post : List Int) (fuel : Nat), t.seqs.keys = pre ++ post →
    List.Forall₂ (fun k v => t.getItem (s.defaultTrack k) k = .ok (v, t)) post ts → post.length < fuel →
    s.visit fuel pre.length t = .ok (ts, t) := by
  intro ts
  induction ts with
  | nil =>
    intro pre post fuel h hf hl
    cases hf
    cases fuel with
    | zero => simp at hl
    | succ fuel =>
      unfold Song.visit
      rw [h]
      simp
  | cons v ts ih =>
    intro pre post fuel h hf hl
    cases hf with
    | cons hv hf =>
      rename_i k post
      cases fuel with
      | zero => simp at hl
      | succ fuel =>
        unfold Song.visit
        have hk : t.seqs.keys[pre.length]? = some k := by rw [h]; simp
        rw [hk]
        simp only [bind, Except.bind, hv]
        have := ih (pre ++ [k]) post fuel (by rw [h]; simp) hf (by simpa using hl)
        rw [List.length_append, List.length_singleton] at this
        rw [this]

theorem visitAll_registered (s : Song) (ts : List MSeq)
    (h : List.Forall₂ (fun k v => s.tracks.getItem (s.defaultTrack k) k = .ok (v, s.tracks)) s.tracks.seqs.keys ts) :
    s.visitAll = .ok (ts, s.tracks) :=
  visit_registered s s.tracks ts [] s.tracks.seqs.keys _ rfl h (by omega)

theorem adjNotes_nil (m : List (ℚ × ℚ)) : adjNotes m [] = [] := by
  unfold adjNotes
  cases m.head? <;> cases m.getLast? <;> rfl

/-- **C127, assigned tracks cannot be written.** If no track has an index, as in a set of sequences filled by `s[k] = sequence` alone, writing
never succeeds, whatever the notes are: the loop reads `s[k]`, which makes new empty tracks. -/
theorem C127_assigned_never_written (srt : List TimeSig → List TimeSig) (srt' : List (ℚ × ℚ) → List (ℚ × ℚ))
    (hs : ∀ l, (srt' l).Perm l ∧ (srt' l).Pairwise (fun c d => d.2 ≤ c.2)) (fuel : Nat) (s : Song) (hi : s.tracks.Inv)
    (h0 : ∀ k, s.tracks.toIdx.lookup k = none) (t0 : ℚ) (fs te : Option ℚ) (pm' : PM) :
    s.toPrettyMidi srt srt' fuel t0 fs te ≠ .ok (some pm') := by
  intro h
  obtain ⟨x, y, hxy, _⟩ := C127_needs_pulse srt srt' hs fuel s t0 fs te pm' h
  obtain ⟨b, pm, e, q, _, h1, _, h3, _⟩ := toPrettyMidi_some h
  obtain ⟨mx, evs, c0, r, hB⟩ := build_some h1
  obtain ⟨_, _, _, _, _, _, _, _, _, rfl⟩ := adjustTimes_some h3
  have hv := visit_blank s _ 0 s.tracks r hi (fun k j hk => by rw [h0] at hk; cases hk) hB.visit
  have hx : x ∈ onsets (pm.insts.map (adjInst (timeMap (writePoints e fs (some b))))) := by
    obtain ⟨pre, post, e⟩ := hxy
    simp only at e
    rw [e]; simp
  rw [(C122_onsets _).2.mem_iff, List.mem_flatMap] at hx
  obtain ⟨i, hi1, hi2⟩ := hx
  rw [hB.insts, List.map_cons, List.map_map, List.mem_cons] at hi1
  rcases hi1 with rfl | hi1
  · simp [adjInst, adjNotes_nil] at hi2
  · obtain ⟨v, hv1, rfl⟩ := List.mem_map.1 hi1
    simp [adjInst, writeInst, hv v hv1, adjNotes_nil] at hi2

end NGC
