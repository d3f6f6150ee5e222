import Verif.BadFileProps
import Verif.FloatFile

/-!
C165 in floats: files are refused alike, whether times are computed exactly or in floats.
-/

namespace NGC

/-- Both fail with the same exception, or neither does. -/
def FailAlike {A B : Type} (a : Py A) (b : Py B) : Prop := ∀ e, a = .error e ↔ b = .error e

theorem FailAlike.errors {A B : Type} (e : Err) : FailAlike (.error e : Py A) (.error e : Py B) :=
  fun e' => ⟨fun h => by cases h; rfl, fun h => by cases h; rfl⟩

theorem FailAlike.oks {A B : Type} (a : A) (b : B) : FailAlike (.ok a : Py A) (.ok b : Py B) :=
  fun e' => ⟨(fun h => nomatch h), (fun h => nomatch h)⟩

theorem loadTracks_alike (drum drum' : Nat) (tt tt' : Int → ℚ) : ∀ (ts : List (List Msg)) (k k' : Nat) (st st' : LoadSt),
    FailAlike (loadTracks drum tt k st ts) (loadTracks drum' tt' k' st' ts) := by
  intro ts
  induction ts with
  | nil => intro k k' st st'; exact FailAlike.oks _ _
  | cons t ts ih =>
    intro k k' st st'
    rw [loadTracks, loadTracks]
    cases loadTrack t with
    | error e => exact FailAlike.errors e
    | ok acts => exact ih _ _ _ _

theorem loadInstruments_alike (drum : Nat) (tt tt' : Int → ℚ) (ts : List (List Msg)) :
    FailAlike (loadInstruments drum tt ts) (loadInstruments drum tt' ts) := by
  have h := loadTracks_alike drum drum tt tt' ts 0 0 ⟨[], [], [], []⟩ ⟨[], [], [], []⟩
  unfold loadInstruments
  cases h1 : loadTracks drum tt 0 ⟨[], [], [], []⟩ ts with
  | error e => rw [(h e).1 h1]; exact FailAlike.errors e
  | ok s =>
    cases h2 : loadTracks drum tt' 0 ⟨[], [], [], []⟩ ts with
    | error e => rw [(h e).2 h2] at h1; cases h1
    | ok s' => exact FailAlike.oks _ _

theorem tempoStep_alike (res : Nat) (e : Msg) (s s' : List (Nat × ℚ)) (hs : s ≠ []) (hs' : s' ≠ []) :
    (∃ err, tempoStep res s e = .error err ∧ tempoStepF res s' e = .error err) ∨
    ∃ r r', tempoStep res s e = .ok r ∧ tempoStepF res s' e = .ok r' ∧ r ≠ [] ∧ r' ≠ [] := by
  unfold tempoStep tempoStepF
  cases e.body with
  | setTempo tempo =>
    dsimp only
    unfold tickScale tickScaleF
    by_cases h0 : tempo = 0 ∨ res = 0
    · rw [if_pos h0, if_pos h0]; exact .inl ⟨_, rfl, rfl⟩
    · rw [if_neg h0, if_neg h0]
      dsimp only [bind, Except.bind]
      right
      by_cases ht : e.time = 0
      · rw [if_pos ht, if_pos ht]; exact ⟨_, _, rfl, rfl, by simp, by simp⟩
      · rw [if_neg ht, if_neg ht]
        obtain ⟨l, hl⟩ : ∃ l, s.getLast? = some l := ⟨_, List.getLast?_eq_some_getLast hs⟩
        obtain ⟨l', hl'⟩ : ∃ l, s'.getLast? = some l := ⟨_, List.getLast?_eq_some_getLast hs'⟩
        rw [hl, hl']
        dsimp only
        split_ifs <;> exact ⟨_, _, rfl, rfl, by simp [hs], by simp [hs']⟩
  | _ => exact .inr ⟨_, _, rfl, rfl, hs, hs'⟩

theorem loadTempo_alike (res : Nat) (t : List Msg) : FailAlike (loadTempo res t) (loadTempoF res t) := by
  have key : ∀ (t : List Msg) (s s' : List (Nat × ℚ)), s ≠ [] → s' ≠ [] → FailAlike (t.foldlM (tempoStep res) s) (t.foldlM (tempoStepF res) s') := by
    intro t
    induction t with
    | nil => intro s s' _ _; exact FailAlike.oks _ _
    | cons e t ih =>
      intro s s' hs hs'
      rw [List.foldlM_cons, List.foldlM_cons]
      rcases tempoStep_alike res e s s' hs hs' with ⟨err, h1, h2⟩ | ⟨r, r', h1, h2, h3, h4⟩
      · rw [h1, h2]; exact FailAlike.errors err
      · rw [h1, h2]; exact ih r r' h3 h4
  unfold loadTempo loadTempoF
  split_ifs
  · exact FailAlike.errors _
  · exact key t _ _ (by simp) (by simp)

/-- **C165, refused alike.** For every file whatsoever, loading in floats raises an exception exactly when exact loading does, and the same. -/
theorem C165_float_refusals (res drum : Nat) (tracks : List (List Msg)) (e : Err) :
    PM.fromFileF res tracks drum = .error e ↔ PM.fromFile res tracks drum = .error e := by
  suffices h : FailAlike (PM.fromFileF res tracks drum) (PM.fromFile res tracks drum) from h e
  unfold PM.fromFileF PM.fromFile
  cases htr : tracks.map toAbs with
  | nil => exact FailAlike.errors _
  | cons t0 ts =>
    dsimp only
    have hT := loadTempo_alike res t0
    cases h1 : loadTempo res t0 with
    | error e => rw [(hT e).1 h1]; exact FailAlike.errors e
    | ok sc =>
      cases h2 : loadTempoF res t0 with
      | error e => rw [(hT e).2 h2] at h1; cases h1
      | ok sc' =>
        dsimp only [bind, Except.bind]
        cases hm : maxTick (t0 :: ts) with
        | error e => exact FailAlike.errors e
        | ok mt =>
          dsimp only
          split_ifs
          · exact FailAlike.errors _
          · generalize hA : (fun t : Int => (tickTableF sc' mt.toNat).getD t.toNat 0) = tA
            generalize hB : (fun t : Int => (tickTable sc mt.toNat).getD t.toNat 0) = tB
            have hI := loadInstruments_alike drum tA tB (t0 :: ts)
            cases h3 : loadInstruments drum tA (t0 :: ts) with
            | error e => rw [(hI e).1 h3]; exact FailAlike.errors e
            | ok is =>
              cases h4 : loadInstruments drum tB (t0 :: ts) with
              | error e => rw [(hI e).2 h4] at h3; cases h3
              | ok is' => exact FailAlike.oks _ _

/-- **C165, the decision in floats.** The decision of `C165_load_decision` is that of the program, which computes in floats. -/
theorem C165_load_decision_float (res drum : Nat) (tracks : List (List Msg)) (hn : ∀ t ∈ tracks, ∀ e ∈ t, 0 ≤ e.time) :
    (tracks = [] → PM.fromFileF res tracks drum = .error .index) ∧
    (∀ t0, tracks.head? = some t0 →
      (res = 0 ∨ (∃ e ∈ t0, e.body = .setTempo 0) → PM.fromFileF res tracks drum = .error .zeroDiv) ∧
      (¬ (res = 0 ∨ ∃ e ∈ t0, e.body = .setTempo 0) →
        ([] ∈ tracks ∨ (∃ t ∈ tracks, 1000000000 ≤ (t.map (fun e => e.time)).sum) →
          PM.fromFileF res tracks drum = .error .value) ∧
        (¬ ([] ∈ tracks ∨ ∃ t ∈ tracks, 1000000000 ≤ (t.map (fun e => e.time)).sum) →
          ∃ pm, PM.fromFileF res tracks drum = .ok pm))) := by
  obtain ⟨h1, h2⟩ := C165_load_decision res drum tracks hn
  have hF := C165_float_refusals res drum tracks
  refine ⟨fun h => (hF _).2 (h1 h), fun t0 h0 => ⟨fun h => (hF _).2 ((h2 t0 h0).1 h), fun h => ⟨fun h' => (hF _).2 (((h2 t0 h0).2 h).1 h'), fun h' => ?_⟩⟩⟩
  obtain ⟨pm, hpm⟩ := ((h2 t0 h0).2 h).2 h'
  cases hc : PM.fromFileF res tracks drum with
  | ok pm => exact ⟨pm, rfl⟩
  | error e => rw [(hF e).1 hc] at hpm; cases hpm

example : PM.fromFileF 480 [] = .error .index ∧ PM.fromFileF 480 [[⟨3, .setTempo 0⟩]] = .error .zeroDiv :=
  ⟨(C165_load_decision_float 480 9 [] (by simp)).1 rfl,
    ((C165_load_decision_float 480 9 _ (by simp)).2 _ rfl).1 (Or.inr ⟨⟨3, .setTempo 0⟩, by simp, rfl⟩)⟩

end NGC
