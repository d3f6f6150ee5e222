import Verif.PrettyMidiProps
import Mathlib.Data.List.Perm.Subperm

/-! Property C58: which notes loading creates. -/

namespace NGC

namespace Spec

/-- A note-on message (velocity above zero): channel, pitch, velocity. -/
def on? (e : Msg) : Option (Nat × Nat × Nat) :=
  match e.body with
  | .noteOn ch n v => if 0 < v then some (ch, n, v) else none
  | _ => none

/-- Does event `e` end the note of channel `ch` and pitch `n` that began at tick `s`? A note-off (or a
note-on with velocity 0) of the same channel and pitch at another tick does, and so does *every*
note-on at a later tick (the first "fix" of this class), and the end of the track. -/
def closes (ch n : Nat) (s : Int) (e : Msg) : Bool :=
  match e.body with
  | .noteOn ch' n' v =>
    if 0 < v then decide (s < e.time) else decide (ch' = ch ∧ n' = n ∧ e.time ≠ s)
  | .noteOff ch' n' _ => decide (ch' = ch ∧ n' = n ∧ e.time ≠ s)
  | .endOfTrack => true
  | _ => false

/-- The program of channel `ch` after event `e`. -/
def progAfter (ch p : Nat) (e : Msg) : Nat :=
  match e.body with
  | .programChange c q => if c = ch then q else p
  | _ => p

/-- The note that began at tick `s`, given the events after it: it ends at the first event that closes
it, and belongs to the program the channel has then. Without such an event there is no note. -/
def finish (ch n v : Nat) (s : Int) : Nat → List Msg → List Emit
  | _, [] => []
  | p, e :: es =>
    if closes ch n s e then [⟨p, ch, n, v, s, e.time⟩] else finish ch n v s (progAfter ch p e) es

/-- The notes of a track with absolute ticks, one per note-on; `prog` gives the current programs. -/
def trackNotesGo (prog : Nat → Nat) : List Msg → List Emit
  | [] => []
  | e :: es =>
    (match on? e with
     | some (ch, n, v) => finish ch n v e.time (prog ch) es
     | none => []) ++ trackNotesGo (fun ch => progAfter ch (prog ch) e) es

/-- The notes of a track. -/
def trackNotes (track : List Msg) : List Emit := trackNotesGo (fun _ => 0) track

/-- No two note-ons of the same channel and pitch at the same tick. -/
def NoStack (track : List Msg) : Prop :=
  track.Pairwise (fun a b => ∀ ch n v v', on? a = some (ch, n, v) → on? b = some (ch, n, v') →
    a.time ≠ b.time)

end Spec

/-- The notes among the actions. -/
def actNote : Act → Option Emit
  | .note e => some e
  | _ => none

def actNotes (acts : List Act) : List Emit := acts.filterMap actNote

theorem actNotes_append (a b : List Act) : actNotes (a ++ b) = actNotes a ++ actNotes b := by
  simp [actNotes]

/-- The note that closing all finished entries creates for one entry. -/
def finishOne (st : TrackSt) (tick : Int) (eos : Bool) (p : (Nat × Nat) × List (Int × Nat)) : Option Act :=
  match p.2 with
  | [] => none
  | (s, vel) :: _ =>
    if s < tick || eos then some (.note ⟨st.program p.1.1, p.1.1, p.1.2, vel, s, tick⟩) else none

theorem finishEmits_eq (st : TrackSt) (tick : Int) (eos : Bool) :
    ∀ (l : List ((Nat × Nat) × List (Int × Nat))), (∀ p ∈ l, p.2 ≠ []) →
    finishEmits st tick eos l = .ok (l.filterMap (finishOne st tick eos)) := by
  intro l
  induction l with
  | nil => intro _; rfl
  | cons p l ih =>
    intro h
    obtain ⟨k, v⟩ := p
    have hv := h (k, v) (by simp)
    have hi := ih (fun q hq => h q (by simp [hq]))
    cases v with
    | nil => exact absurd rfl hv
    | cons q v =>
      obtain ⟨s, vel⟩ := q
      rw [finishEmits]
      simp only [hi, bind, Except.bind, List.filterMap_cons, finishOne]
      split <;> rfl

theorem finishNotes_eq (st : TrackSt) (tick : Int) (eos : Bool) (h : ∀ p ∈ st.opens, p.2 ≠ []) :
    finishNotes st tick eos =
      .ok (⟨st.opens.filter (fun p => !finishes tick eos p), st.prog⟩,
        st.opens.filterMap (finishOne st tick eos)) := by
  unfold finishNotes
  simp only [finishEmits_eq st tick eos st.opens h, bind, Except.bind]

theorem dset_same {K V : Type} [DecidableEq K] (d : List (K × V)) (k : K) (v : V)
    (h : dget d k = some v) : dset d k v = d := by
  induction d with
  | nil => cases h
  | cons p d ih =>
    rw [dget] at h
    rw [dset]
    by_cases hp : p.1 = k
    · rw [if_pos hp] at h ⊢
      cases h
      rw [← hp]
    · rw [if_neg hp] at h ⊢
      rw [ih h]

/-- What is still open, and will be closed by the events to come. -/
def pending (prog : Nat → Nat) (opens : List ((Nat × Nat) × List (Int × Nat))) (es : List Msg) : List Emit :=
  opens.flatMap (fun p => p.2.flatMap (fun q => Spec.finish p.1.1 p.1.2 q.2 q.1 (prog p.1.1) es))

/-- The invariant of the loop for the exact theorem. -/
structure OpenInv (opens : List ((Nat × Nat) × List (Int × Nat))) (es : List Msg) : Prop where
  nodup : (dkeys opens).Nodup
  single : ∀ p ∈ opens, ∃ s v, p.2 = [(s, v)] ∧ (∀ e ∈ es, s ≤ e.time) ∧
    ∀ e ∈ es, ∀ v', Spec.on? e = some (p.1.1, p.1.2, v') → e.time ≠ s

theorem pending_cons_eq (prog : Nat → Nat) (opens : List ((Nat × Nat) × List (Int × Nat))) (e : Msg)
    (es : List Msg) (prog' : Nat → Nat) (hp : ∀ ch, prog' ch = Spec.progAfter ch (prog ch) e)
    (h : ∀ p ∈ opens, ∀ q ∈ p.2, Spec.closes p.1.1 p.1.2 q.1 e = false) :
    pending prog opens (e :: es) = pending prog' opens es := by
  unfold pending
  apply List.flatMap_congr
  intro p hpm
  apply List.flatMap_congr
  intro q hq
  rw [Spec.finish, h p hpm q hq, hp]
  rfl

/-- Splitting the pending notes when some entries are finished by the event. -/
theorem pending_finish (st : TrackSt) (e : Msg) (es : List Msg) (eos : Bool) (prog' : Nat → Nat)
    (hp : ∀ ch, prog' ch = Spec.progAfter ch (st.program ch) e) :
    ∀ (opens : List ((Nat × Nat) × List (Int × Nat))),
    (∀ p ∈ opens, ∃ s v, p.2 = [(s, v)] ∧
      Spec.closes p.1.1 p.1.2 s e = (decide (s < e.time) || eos)) →
    (pending st.program opens (e :: es)).Perm
      (actNotes (opens.filterMap (finishOne st e.time eos)) ++
        pending prog' (opens.filter (fun p => !finishes e.time eos p)) es) := by
  intro opens
  induction opens with
  | nil => intro _; simp [pending, actNotes]
  | cons p opens ih =>
    intro h
    obtain ⟨k, v⟩ := p
    obtain ⟨s, vel, hv, hc⟩ := h (k, v) (by simp)
    simp only at hv hc
    subst hv
    have := ih (fun q hq => h q (by simp [hq]))
    have hcons : pending st.program ((k, [(s, vel)]) :: opens) (e :: es) =
        Spec.finish k.1 k.2 vel s (st.program k.1) (e :: es) ++ pending st.program opens (e :: es) := by
      simp [pending]
    rw [hcons, Spec.finish, hc]
    by_cases hf : (decide (s < e.time) || eos) = true
    · have e1 : finishOne st e.time eos (k, [(s, vel)]) =
          some (.note ⟨st.program k.1, k.1, k.2, vel, s, e.time⟩) := by
        simp only [finishOne]; rw [if_pos hf]
      have e2 : finishes e.time eos (k, [(s, vel)]) = true := by simp only [finishes]; exact hf
      rw [if_pos hf, List.filterMap_cons_some e1, List.filter_cons_of_neg (by simp [e2])]
      simp only [actNotes, List.filterMap_cons, actNote, List.cons_append, List.nil_append]
      exact List.Perm.cons _ this
    · have e1 : finishOne st e.time eos (k, [(s, vel)]) = none := by
        simp only [finishOne]; rw [if_neg hf]
      have e2 : finishes e.time eos (k, [(s, vel)]) = false := by
        simp only [finishes]; simpa using hf
      rw [if_neg hf, List.filterMap_cons_none e1, List.filter_cons_of_pos (by simp [e2])]
      have hcons' : pending prog' ((k, [(s, vel)]) :: opens.filter (fun p => !finishes e.time eos p)) es =
          Spec.finish k.1 k.2 vel s (prog' k.1) es ++
            pending prog' (opens.filter (fun p => !finishes e.time eos p)) es := by
        simp [pending]
      rw [hcons', hp]
      refine (List.Perm.append_left _ this).trans ?_
      rw [← List.append_assoc, ← List.append_assoc]
      exact List.Perm.append_right _ List.perm_append_comm

/-- Removing one entry of a dict: the rest and the entry. -/
theorem split_key {K V : Type} [DecidableEq K] (d : List (K × V)) (hn : (dkeys d).Nodup) (k : K) (v : V)
    (h : dget d k = some v) : d.Perm ((k, v) :: d.filter (fun p => decide (p.1 ≠ k))) := by
  induction d with
  | nil => cases h
  | cons p d ih =>
    unfold dkeys at hn
    rw [List.map_cons, List.nodup_cons] at hn
    rw [dget] at h
    by_cases hp : p.1 = k
    · rw [if_pos hp] at h
      cases h
      have : d.filter (fun p => decide (p.1 ≠ k)) = d := by
        rw [List.filter_eq_self]
        intro q hq
        have : q.1 ≠ k := by
          intro hqk
          apply hn.1
          rw [hp, ← hqk]
          exact List.mem_map_of_mem hq
        simpa using this
      rw [List.filter_cons_of_neg (by simp [hp]), this]
      rw [← hp]
    · rw [if_neg hp] at h
      rw [List.filter_cons_of_pos (by simp [hp])]
      exact (List.Perm.cons p (ih hn.2 h)).trans (List.Perm.swap _ _ _)

theorem pending_perm (prog : Nat → Nat) (o o' : List ((Nat × Nat) × List (Int × Nat))) (es : List Msg)
    (h : o.Perm o') : (pending prog o es).Perm (pending prog o' es) := h.flatMap_right _

theorem progAfter_of_not (e : Msg) (h : ∀ c q, e.body ≠ .programChange c q) (ch p : Nat) :
    Spec.progAfter ch p e = p := by
  unfold Spec.progAfter
  split
  · rename_i c q hb; exact absurd hb (h c q)
  · rfl

theorem mem_filter_key {K V : Type} [DecidableEq K] (d : List (K × V)) (hn : (dkeys d).Nodup)
    (f : K × V → Bool) : (dkeys (d.filter f)).Nodup := by
  unfold dkeys at *
  exact hn.sublist (List.filter_sublist.map _)

/-- The note-off case of the loop. -/
theorem noteOff_step (st : TrackSt) (e : Msg) (es : List Msg) (ch n : Nat)
    (inv : OpenInv st.opens (e :: es)) (hprog : ∀ c p, Spec.progAfter c p e = p)
    (hcl : ∀ c m s, Spec.closes c m s e = decide (ch = c ∧ n = m ∧ e.time ≠ s)) :
    (noteOff st e.time ch n).1.prog = st.prog ∧
    OpenInv (noteOff st e.time ch n).1.opens es ∧
    (pending st.program st.opens (e :: es)).Perm
      (actNotes (noteOff st e.time ch n).2 ++ pending st.program (noteOff st e.time ch n).1.opens es) := by
  have hinv' : OpenInv st.opens es :=
    ⟨inv.nodup, fun p hp => by
      obtain ⟨s, v, h1, h2, h3⟩ := inv.single p hp
      exact ⟨s, v, h1, fun x hx => h2 x (by simp [hx]), fun x hx => h3 x (by simp [hx])⟩⟩
  unfold noteOff
  cases hg : dget st.opens (ch, n) with
  | none =>
    simp only
    refine ⟨trivial, hinv', ?_⟩
    rw [pending_cons_eq st.program st.opens e es st.program (fun c => (hprog c _).symm)]
    · simp [actNotes]
    · intro p hp q hq
      rw [hcl, decide_eq_false_iff_not]
      rintro ⟨h1, h2, _⟩
      rw [dget_eq_none] at hg
      apply hg
      have : p.1 = (ch, n) := by rw [h1, h2]
      rw [← this]
      exact List.mem_map_of_mem hp
  | some v =>
    obtain ⟨s, vel, h1, h2, h3⟩ := inv.single _ (dget_mem _ _ _ hg)
    simp only at h1
    subst h1
    simp only
    by_cases hs : s = e.time
    · have hk : [(s, vel)].filter (fun p : Int × Nat => decide (p.1 = e.time)) = [(s, vel)] := by
        simp [hs]
      have hc : [(s, vel)].filter (fun p : Int × Nat => decide (p.1 ≠ e.time)) = [] := by
        simp [hs]
      rw [hk, hc]
      simp only [ne_eq, List.cons_ne_nil, not_false_eq_true, if_true]
      rw [dset_same _ _ _ hg]
      refine ⟨trivial, hinv', ?_⟩
      rw [pending_cons_eq st.program st.opens e es st.program (fun c => (hprog c _).symm)]
      · simp [actNotes]
      · intro p hp q hq
        rw [hcl, decide_eq_false_iff_not]
        rintro ⟨g1, g2, g3⟩
        have hpe : p.1 = (ch, n) := by rw [g1, g2]
        have := dget_of_mem st.opens inv.nodup p.1 p.2 hp
        rw [hpe, hg] at this
        have hpv : [(s, vel)] = p.2 := by simpa using this
        apply g3
        rw [← hpv] at hq
        simp only [List.mem_singleton] at hq
        rw [hq, hs]
    · have hk : [(s, vel)].filter (fun p : Int × Nat => decide (p.1 = e.time)) = [] := by
        simp [hs]
      have hc : [(s, vel)].filter (fun p : Int × Nat => decide (p.1 ≠ e.time)) = [(s, vel)] := by
        simp [hs]
      rw [hk, hc]
      simp only [ne_eq, not_true_eq_false, if_false]
      refine ⟨trivial, ⟨mem_filter_key _ inv.nodup _, fun p hp => hinv'.single p (List.mem_of_mem_filter hp)⟩, ?_⟩
      refine (pending_perm _ _ _ _ (split_key st.opens inv.nodup _ _ hg)).trans ?_
      have hcons : pending st.program (((ch, n), [(s, vel)]) ::
          st.opens.filter (fun p => decide (p.1 ≠ (ch, n)))) (e :: es) =
          Spec.finish ch n vel s (st.program ch) (e :: es) ++
          pending st.program (st.opens.filter (fun p => decide (p.1 ≠ (ch, n)))) (e :: es) := by
        simp [pending]
      rw [hcons, Spec.finish, hcl, if_pos (by simpa using fun h => hs h.symm)]
      rw [pending_cons_eq st.program _ e es st.program (fun c => (hprog c _).symm)]
      · simp [actNotes, actNote]
      · intro p hp q hq
        rw [hcl, decide_eq_false_iff_not]
        rintro ⟨g1, g2, _⟩
        have := (List.mem_filter.1 hp).2
        simp only [decide_eq_true_eq] at this
        exact this (by rw [g1, g2])

theorem OpenInv.tail {opens : List ((Nat × Nat) × List (Int × Nat))} {e : Msg} {es : List Msg}
    (inv : OpenInv opens (e :: es)) : OpenInv opens es :=
  ⟨inv.nodup, fun p hp => by
    obtain ⟨s, v, h1, h2, h3⟩ := inv.single p hp
    exact ⟨s, v, h1, fun x hx => h2 x (by simp [hx]), fun x hx => h3 x (by simp [hx])⟩⟩

theorem OpenInv.ne_nil {opens : List ((Nat × Nat) × List (Int × Nat))} {es : List Msg}
    (inv : OpenInv opens es) : ∀ p ∈ opens, p.2 ≠ [] := by
  intro p hp
  obtain ⟨s, v, h, _⟩ := inv.single p hp
  rw [h]; simp

theorem loadGo_exact : ∀ (es : List Msg) (st : TrackSt), OpenInv st.opens es →
    es.Pairwise (fun a b => a.time ≤ b.time) → Spec.NoStack es →
    ∃ acts, loadGo st es = .ok acts ∧
      (actNotes acts).Perm (pending st.program st.opens es ++ Spec.trackNotesGo st.program es) := by
  intro es
  induction es with
  | nil =>
    intro st _ _ _
    refine ⟨[], rfl, ?_⟩
    simp [actNotes, pending, Spec.trackNotesGo, Spec.finish]
  | cons e es ih =>
    intro st inv hsort hns
    have hsort' := (List.pairwise_cons.1 hsort)
    have hns' : Spec.NoStack es := (List.pairwise_cons.1 hns).2
    -- any step that keeps the open notes and emits no note
    have quiet : ∀ (st' : TrackSt) (as : List Act), loadStep st e = .ok (st', as) →
        st'.opens = st.opens → actNotes as = [] →
        (∀ ch, st'.program ch = Spec.progAfter ch (st.program ch) e) → Spec.on? e = none →
        (∀ c m s, Spec.closes c m s e = false) →
        ∃ acts, loadGo st (e :: es) = .ok acts ∧
          (actNotes acts).Perm (pending st.program st.opens (e :: es) ++
            Spec.trackNotesGo st.program (e :: es)) := by
      intro st' as h1 h2 h3 h4 h5 h6
      obtain ⟨acts, g1, g2⟩ := ih st' (by rw [h2]; exact inv.tail) hsort'.2 hns'
      refine ⟨as ++ acts, by simp only [loadGo, h1, bind, Except.bind, g1], ?_⟩
      rw [actNotes_append, h3, List.nil_append]
      rw [pending_cons_eq st.program st.opens e es st'.program h4 (fun p _ q _ => h6 _ _ _),
        Spec.trackNotesGo, h5]
      simp only [List.nil_append]
      have : (fun ch => Spec.progAfter ch (st.program ch) e) = st'.program := by
        funext ch; exact (h4 ch).symm
      rw [this, ← h2]
      exact g2
    -- a note-off
    have offc : ∀ ch n, loadStep st e = .ok (noteOff st e.time ch n) →
        (∀ c p, Spec.progAfter c p e = p) → Spec.on? e = none →
        (∀ c m s, Spec.closes c m s e = decide (ch = c ∧ n = m ∧ e.time ≠ s)) →
        ∃ acts, loadGo st (e :: es) = .ok acts ∧
          (actNotes acts).Perm (pending st.program st.opens (e :: es) ++
            Spec.trackNotesGo st.program (e :: es)) := by
      intro ch n h1 h2 h3 h4
      obtain ⟨k1, k2, k3⟩ := noteOff_step st e es ch n inv h2 h4
      obtain ⟨acts, g1, g2⟩ := ih _ k2 hsort'.2 hns'
      have hprog : (noteOff st e.time ch n).1.program = st.program := by
        funext c; simp [TrackSt.program, k1]
      rw [hprog] at g2
      refine ⟨(noteOff st e.time ch n).2 ++ acts, by simp only [loadGo, h1, bind, Except.bind, g1], ?_⟩
      rw [actNotes_append, Spec.trackNotesGo, h3]
      simp only [List.nil_append, h2]
      refine (List.Perm.append_left _ g2).trans ?_
      rw [← List.append_assoc]
      exact List.Perm.append_right _ k3.symm
    obtain ⟨t, body⟩ := e
    cases body with
    | setTempo _ => exact quiet st [] rfl rfl rfl (fun _ => rfl) rfl (fun _ _ _ => rfl)
    | timeSig _ _ => exact quiet st [] rfl rfl rfl (fun _ => rfl) rfl (fun _ _ _ => rfl)
    | keySig _ => exact quiet st [] rfl rfl rfl (fun _ => rfl) rfl (fun _ _ _ => rfl)
    | lyrics _ => exact quiet st [] rfl rfl rfl (fun _ => rfl) rfl (fun _ _ _ => rfl)
    | trackName _ => exact quiet st _ rfl rfl rfl (fun _ => rfl) rfl (fun _ _ _ => rfl)
    | other _ => exact quiet st [] rfl rfl rfl (fun _ => rfl) rfl (fun _ _ _ => rfl)
    | pitchwheel ch p => exact quiet st _ rfl rfl rfl (fun _ => rfl) rfl (fun _ _ _ => rfl)
    | controlChange ch c v => exact quiet st _ rfl rfl rfl (fun _ => rfl) rfl (fun _ _ _ => rfl)
    | programChange ch p =>
      refine quiet ⟨st.opens, dset st.prog ch p⟩ [] rfl rfl rfl ?_ rfl (fun _ _ _ => rfl)
      intro c
      simp only [TrackSt.program, dget_dset, Spec.progAfter]
      split <;> rfl
    | noteOff ch n v =>
      refine offc ch n rfl (fun _ _ => rfl) rfl ?_
      intro c m s
      rfl
    | noteOn ch n v =>
      by_cases hv : 0 < v
      · -- a note-on
        have hon : Spec.on? ⟨t, .noteOn ch n v⟩ = some (ch, n, v) := by simp [Spec.on?, hv]
        have hcl : ∀ c m s, Spec.closes c m s ⟨t, .noteOn ch n v⟩ = decide (s < t) := by
          intro c m s; simp [Spec.closes, hv]
        have hf := finishNotes_eq st t false inv.ne_nil
        have hsub : OpenInv (st.opens.filter (fun p => !finishes t false p)) (⟨t, .noteOn ch n v⟩ :: es) :=
          ⟨mem_filter_key _ inv.nodup _, fun p hp => inv.single p (List.mem_of_mem_filter hp)⟩
        have hnew : (ch, n) ∉ dkeys (st.opens.filter (fun p => !finishes t false p)) := by
          intro hmem
          obtain ⟨p, hp, hpk⟩ := List.mem_map.1 hmem
          obtain ⟨s, w, h1, h2, h3⟩ := hsub.single p hp
          have hle := h2 _ (List.mem_cons_self)
          have hne := h3 _ (List.mem_cons_self) v (by rw [hon, hpk])
          have hnf := (List.mem_filter.1 hp).2
          simp only [finishes, h1, Bool.or_false, Bool.not_eq_true', decide_eq_false_iff_not] at hnf
          simp only at hle hne
          omega
        have hstep : loadStep st ⟨t, .noteOn ch n v⟩ =
            .ok (⟨st.opens.filter (fun p => !finishes t false p) ++ [((ch, n), [(t, v)])], st.prog⟩,
              st.opens.filterMap (finishOne st t false)) := by
          unfold loadStep
          simp only [hv, if_true, hf, bind, Except.bind]
          rw [(dget_eq_none _ _).2 hnew]
          simp only [Option.getD_none, List.nil_append]
          rw [dset_of_new _ _ _ hnew]
        have hinv2 : OpenInv (st.opens.filter (fun p => !finishes t false p) ++ [((ch, n), [(t, v)])]) es := by
          constructor
          · have := dset_nodup (st.opens.filter (fun p => !finishes t false p)) (ch, n) [(t, v)] hsub.nodup
            rwa [dset_of_new _ _ _ hnew] at this
          · intro p hp
            rcases List.mem_append.1 hp with hp | hp
            · exact hsub.tail.single p hp
            · simp only [List.mem_singleton] at hp
              subst hp
              refine ⟨t, v, rfl, fun x hx => hsort'.1 x hx, ?_⟩
              intro x hx v' hx2
              have := (List.pairwise_cons.1 hns).1 x hx ch n v v' hon hx2
              exact fun h => this h.symm
        obtain ⟨acts, g1, g2⟩ := ih ⟨_, st.prog⟩ hinv2 hsort'.2 hns'
        refine ⟨st.opens.filterMap (finishOne st t false) ++ acts, by simp only [loadGo, hstep, bind, Except.bind, g1], ?_⟩
        have hpf := pending_finish st ⟨t, .noteOn ch n v⟩ es false st.program (fun _ => rfl) st.opens (by
          intro p hp
          obtain ⟨s, w, h1, h2, h3⟩ := inv.single p hp
          exact ⟨s, w, h1, by rw [hcl]; simp⟩)
        rw [actNotes_append, Spec.trackNotesGo, hon]
        have hprog : TrackSt.program ⟨st.opens.filter (fun p => !finishes t false p) ++
            [((ch, n), [(t, v)])], st.prog⟩ = st.program := by
          funext c; rfl
        rw [hprog] at g2
        have hsplit : pending st.program (st.opens.filter (fun p => !finishes t false p) ++
            [((ch, n), [(t, v)])]) es =
            pending st.program (st.opens.filter (fun p => !finishes t false p)) es ++
            Spec.finish ch n v t (st.program ch) es := by
          simp [pending]
        simp only [hsplit] at g2
        refine (List.Perm.append_left _ g2).trans ?_
        simp only [List.append_assoc]
        rw [← List.append_assoc]
        exact List.Perm.append_right _ hpf.symm
      · have hv0 : v = 0 := by omega
        subst hv0
        refine offc ch n ?_ (fun _ _ => rfl) ?_ ?_
        · simp [loadStep]
        · simp [Spec.on?]
        · intro c m s
          simp [Spec.closes]
    | endOfTrack =>
      have hf := finishNotes_eq st t true inv.ne_nil
      have hall : st.opens.filter (fun p => !finishes t true p) = [] := by
        rw [List.filter_eq_nil_iff]
        intro p hp
        obtain ⟨s, w, h1, _, _⟩ := inv.single p hp
        simp [finishes, h1]
      rw [hall] at hf
      have hpf := pending_finish st ⟨t, .endOfTrack⟩ es true st.program (fun _ => rfl) st.opens (by
          intro p hp
          obtain ⟨s, w, h1, h2, h3⟩ := inv.single p hp
          exact ⟨s, w, h1, by simp [Spec.closes]⟩)
      rw [show (⟨t, Body.endOfTrack⟩ : Msg).time = t from rfl, hall] at hpf
      obtain ⟨acts, g1, g2⟩ := ih ⟨[], st.prog⟩ ⟨by simp [dkeys], by simp⟩ hsort'.2 hns'
      have hstep : loadStep st ⟨t, .endOfTrack⟩ = .ok (⟨[], st.prog⟩, st.opens.filterMap (finishOne st t true)) := hf
      refine ⟨st.opens.filterMap (finishOne st t true) ++ acts, by simp only [loadGo, hstep, bind, Except.bind, g1], ?_⟩
      rw [actNotes_append, Spec.trackNotesGo]
      have hprog : TrackSt.program ⟨[], st.prog⟩ = st.program := by funext c; rfl
      rw [hprog] at g2
      simp only [Spec.on?, List.nil_append]
      refine (List.Perm.append_left _ g2).trans ?_
      rw [← List.append_assoc]
      exact List.Perm.append_right _ hpf.symm

theorem loadTrack_exact (track : List Msg) (hs : track.Pairwise (fun a b => a.time ≤ b.time))
    (hn : Spec.NoStack track) :
    ∃ acts, loadTrack track = .ok acts ∧ (actNotes acts).Perm (Spec.trackNotes track) := by
  obtain ⟨acts, h1, h2⟩ := loadGo_exact track ⟨[], []⟩ ⟨by simp [dkeys], by simp⟩ hs hn
  refine ⟨acts, h1, ?_⟩
  have : TrackSt.program ⟨[], []⟩ = fun _ => 0 := by funext c; rfl
  rw [this] at h2
  exact h2

/-! ### From actions to instruments -/

/-- All notes of the instruments, with program and drum flag. -/
def allNotes (drum : Nat) (st : LoadSt) : List (Nat × Bool × PNote) :=
  st.insts.flatMap (fun p => p.2.notes.map (fun n => (p.1.1, decide (p.1.2.1 = drum), n)))

/-- What an instrument of the map says of itself agrees with its key. -/
structure InstInv (drum : Nat) (st : LoadSt) : Prop where
  nodup : (dkeys st.insts).Nodup
  prog : ∀ p ∈ st.insts, p.2.program = p.1.1 ∧ p.2.isDrum = decide (p.1.2.1 = drum)

theorem addNote_inv (drum track : Nat) (st : LoadSt) (h : InstInv drum st) (p ch : Nat) (n : PNote) :
    InstInv drum (st.addNote drum track p ch n) ∧
    (allNotes drum (st.addNote drum track p ch n)).Perm
      (allNotes drum st ++ [(p, decide (ch = drum), n)]) := by
  unfold LoadSt.addNote
  cases hg : dget st.insts (p, ch, track) with
  | some i =>
    simp only
    have hm := dget_mem _ _ _ hg
    have hset : (dset st.insts (p, ch, track) { i with notes := i.notes ++ [n] }).Perm
        (((p, ch, track), { i with notes := i.notes ++ [n] }) ::
          st.insts.filter (fun q => decide (q.1 ≠ (p, ch, track)))) := by
      have hnd := dset_nodup st.insts (p, ch, track) { i with notes := i.notes ++ [n] } h.nodup
      refine (split_key _ hnd _ _ (dget_dset_self _ _ _)).trans ?_
      refine List.Perm.cons _ ?_
      have : ∀ (d : List ((Nat × Nat × Nat) × LInst)) (v : LInst),
          (dset d (p, ch, track) v).filter (fun q => decide (q.1 ≠ (p, ch, track))) =
          d.filter (fun q => decide (q.1 ≠ (p, ch, track))) := by
        intro d v
        induction d with
        | nil => simp [dset]
        | cons q d ih =>
          rw [dset]
          split
          · rename_i hq
            rw [List.filter_cons_of_neg (by simp), List.filter_cons_of_neg (by simp [hq])]
          · rw [List.filter_cons, List.filter_cons, ih]
      rw [this]
    constructor
    · refine ⟨dset_nodup _ _ _ h.nodup, ?_⟩
      intro q hq
      rcases List.mem_cons.1 (hset.mem_iff.1 hq) with rfl | hq
      · exact h.prog ((p, ch, track), i) hm
      · exact h.prog q (List.mem_of_mem_filter hq)
    · unfold allNotes
      refine (hset.flatMap_right _).trans ?_
      refine List.Perm.trans ?_ (((split_key _ h.nodup _ _ hg).flatMap_right _).append_right _).symm
      simp only [List.flatMap_cons, List.map_append, List.map_cons, List.map_nil]
      simp only [List.append_assoc]
      exact List.Perm.append_left _ List.perm_append_comm
  | none =>
    have hnew := (dget_eq_none _ _).1 hg
    have key : ∀ (r : Nat) (hp : List (List (Int × ℚ) × List (Nat × Nat × ℚ))) (nm : String),
        InstInv drum { st with insts := dset st.insts (p, ch, track) ⟨p, decide (ch = drum), nm, [n], r⟩,
                               heap := hp } ∧
        (allNotes drum { st with insts := dset st.insts (p, ch, track) ⟨p, decide (ch = drum), nm, [n], r⟩,
                                 heap := hp }).Perm (allNotes drum st ++ [(p, decide (ch = drum), n)]) := by
      intro r hp nm
      constructor
      · refine ⟨dset_nodup _ _ _ h.nodup, ?_⟩
        intro q hq
        simp only at hq
        rw [dset_of_new _ _ _ hnew] at hq
        rcases List.mem_append.1 hq with hq | hq
        · exact h.prog q hq
        · simp only [List.mem_singleton] at hq
          subst hq
          exact ⟨rfl, rfl⟩
      · unfold allNotes
        simp only
        rw [dset_of_new _ _ _ hnew]
        simp
    simp only
    cases dget st.strag (ch, track) with
    | some r => exact key r st.heap _
    | none => exact key st.heap.length _ _

theorem act_inv (drum track : Nat) (tt : Int → ℚ) (st : LoadSt) (h : InstInv drum st) (a : Act) :
    InstInv drum (st.act drum track tt a) ∧
    (allNotes drum (st.act drum track tt a)).Perm
      (allNotes drum st ++ (actNotes [a]).map (fun e =>
        (e.program, decide (e.channel = drum), ⟨e.velocity, e.pitch, tt e.start, tt e.stop⟩))) := by
  have href : ∀ p ch, (st.eventRef track p ch).1.insts = st.insts := by
    intro p ch
    unfold LoadSt.eventRef
    split
    · rfl
    · split <;> rfl
  cases a with
  | note e =>
    have := addNote_inv drum track st h e.program e.channel ⟨e.velocity, e.pitch, tt e.start, tt e.stop⟩
    simpa [LoadSt.act, actNotes, actNote] using this
  | bend p ch pitch tick =>
    have hi := href p ch
    refine ⟨⟨?_, ?_⟩, ?_⟩
    · simp only [LoadSt.act]; rw [hi]; exact h.nodup
    · simp only [LoadSt.act]; rw [hi]; exact h.prog
    · rw [show actNotes [Act.bend p ch pitch tick] = [] from rfl, List.map_nil, List.append_nil]
      simp only [LoadSt.act, allNotes]; rw [hi]
  | control p ch num value tick =>
    have hi := href p ch
    refine ⟨⟨?_, ?_⟩, ?_⟩
    · simp only [LoadSt.act]; rw [hi]; exact h.nodup
    · simp only [LoadSt.act]; rw [hi]; exact h.prog
    · rw [show actNotes [Act.control p ch num value tick] = [] from rfl, List.map_nil, List.append_nil]
      simp only [LoadSt.act, allNotes]; rw [hi]
  | name s => exact ⟨⟨h.nodup, h.prog⟩, by
    rw [show actNotes [Act.name s] = [] from rfl, List.map_nil, List.append_nil]
    exact List.Perm.refl _⟩

/-- A note as the instrument list shows it. -/
def showEmit (drum : Nat) (tt : Int → ℚ) (e : Emit) : Nat × Bool × PNote :=
  (e.program, decide (e.channel = drum), ⟨e.velocity, e.pitch, tt e.start, tt e.stop⟩)

theorem acts_inv (drum track : Nat) (tt : Int → ℚ) (acts : List Act) : ∀ (st : LoadSt), InstInv drum st →
    InstInv drum (acts.foldl (fun st a => st.act drum track tt a) st) ∧
    (allNotes drum (acts.foldl (fun st a => st.act drum track tt a) st)).Perm
      (allNotes drum st ++ (actNotes acts).map (showEmit drum tt)) := by
  induction acts with
  | nil => intro st h; exact ⟨h, by simp [actNotes]⟩
  | cons a acts ih =>
    intro st h
    obtain ⟨h1, h2⟩ := act_inv drum track tt st h a
    obtain ⟨g1, g2⟩ := ih _ h1
    refine ⟨g1, g2.trans ?_⟩
    refine (h2.append_right _).trans ?_
    rw [List.append_assoc, show a :: acts = [a] ++ acts from rfl, actNotes_append, List.map_append]
    exact List.Perm.refl _

theorem loadTracks_inv (drum : Nat) (tt : Int → ℚ) (f : List Msg → List Emit) :
    ∀ (tracks : List (List Msg)) (k : Nat) (st : LoadSt), InstInv drum st →
    (∀ t ∈ tracks, ∃ acts, loadTrack t = .ok acts ∧ (actNotes acts).Perm (f t)) →
    ∃ st', loadTracks drum tt k st tracks = .ok st' ∧ InstInv drum st' ∧
      (allNotes drum st').Perm (allNotes drum st ++ (tracks.flatMap f).map (showEmit drum tt)) := by
  intro tracks
  induction tracks with
  | nil => intro k st h _; exact ⟨st, rfl, h, by simp⟩
  | cons t ts ih =>
    intro k st h hf
    obtain ⟨acts, e1, e2⟩ := hf t (by simp)
    obtain ⟨a1, a2⟩ := acts_inv drum k tt acts st h
    obtain ⟨st', g1, g2, g3⟩ := ih (k + 1) _ a1 (fun x hx => hf x (by simp [hx]))
    refine ⟨st', by simp only [loadTracks, e1, bind, Except.bind]; exact g1, g2, g3.trans ?_⟩
    refine (a2.append_right _).trans ?_
    rw [List.flatMap_cons, List.map_append, List.append_assoc]
    exact List.Perm.append_left _ ((e2.map _).append_right _)

theorem allNotes_freeze (drum : Nat) (st : LoadSt) (h : InstInv drum st) :
    ((st.insts.map (fun p => p.2.freeze st.heap)).flatMap
      (fun i => i.notes.map (fun n => (i.program, i.isDrum, n)))) = allNotes drum st := by
  unfold allNotes
  rw [List.flatMap_map]
  apply List.flatMap_congr
  intro p hp
  obtain ⟨h1, h2⟩ := h.prog p hp
  simp [LInst.freeze, h1, h2]

/-- **C58, exact notes of a file.** For every file whose tracks have ticks in order and no two note-ons
of the same channel and pitch at the same tick, loading never raises, and the notes of the loaded
instruments (with program and drum flag of their instrument) are exactly the notes of the
specification, each once: one for every note-on that some later event closes. -/
theorem C58_exact_no_stack (drum : Nat) (tt : Int → ℚ) (tracks : List (List Msg))
    (hs : ∀ t ∈ tracks, t.Pairwise (fun a b => a.time ≤ b.time))
    (hn : ∀ t ∈ tracks, Spec.NoStack t) :
    ∃ insts, loadInstruments drum tt tracks = .ok insts ∧
      (insts.flatMap (fun i => i.notes.map (fun n => (i.program, i.isDrum, n)))).Perm
        ((tracks.flatMap Spec.trackNotes).map (showEmit drum tt)) := by
  obtain ⟨st, h1, h2, h3⟩ := loadTracks_inv drum tt Spec.trackNotes tracks 0 ⟨[], [], [], []⟩
    ⟨by simp [dkeys], by simp⟩ (fun t ht => loadTrack_exact t (hs t ht) (hn t ht))
  refine ⟨st.insts.map (fun p => p.2.freeze st.heap),
    by simp only [loadInstruments, h1, bind, Except.bind], ?_⟩
  rw [allNotes_freeze drum st h2]
  simpa [allNotes] using h3

/-- A concrete track with an overlap, a program change and an end of track. -/
def exNoteTrack : List Msg :=
  [⟨0, .programChange 0 5⟩, ⟨0, .noteOn 0 60 64⟩, ⟨10, .noteOn 0 64 70⟩, ⟨20, .noteOff 0 60 0⟩,
   ⟨30, .noteOn 0 64 0⟩, ⟨40, .noteOn 9 35 100⟩, ⟨50, .endOfTrack⟩]

example : Spec.trackNotes exNoteTrack =
    [⟨5, 0, 60, 64, 0, 10⟩, ⟨5, 0, 64, 70, 10, 30⟩, ⟨0, 9, 35, 100, 40, 50⟩] := by decide

example : (loadInstruments 9 (fun t => t) [exNoteTrack]).map (fun l => l.map (fun i => (i.program, i.isDrum,
    i.notes.length))) = .ok [(5, false, 2), (0, true, 1)] := by decide +kernel

example : exNoteTrack.Pairwise (fun a b => a.time ≤ b.time) := by decide

example : Spec.NoStack exNoteTrack := by
  unfold Spec.NoStack exNoteTrack
  simp [Spec.on?]

/-! ### Consequences and counterexamples -/

theorem finish_props (ch n v : Nat) (s : Int) : ∀ (es : List Msg) (p : Nat) (x : Emit),
    x ∈ Spec.finish ch n v s p es → x.channel = ch ∧ x.pitch = n ∧ x.velocity = v ∧ x.start = s ∧
      ∃ e ∈ es, e.time = x.stop ∧ Spec.closes ch n s e = true := by
  intro es
  induction es with
  | nil => intro p x hx; simp [Spec.finish] at hx
  | cons e es ih =>
    intro p x hx
    rw [Spec.finish] at hx
    split at hx
    · rename_i hc
      simp only [List.mem_singleton] at hx
      subst hx
      exact ⟨rfl, rfl, rfl, rfl, e, by simp, rfl, hc⟩
    · obtain ⟨h1, h2, h3, h4, e', he', h5, h6⟩ := ih _ x hx
      exact ⟨h1, h2, h3, h4, e', by simp [he'], h5, h6⟩

theorem finish_length (ch n v : Nat) (s : Int) : ∀ (es : List Msg) (p : Nat),
    (Spec.finish ch n v s p es).length = if es.any (Spec.closes ch n s) then 1 else 0 := by
  intro es
  induction es with
  | nil => intro p; rfl
  | cons e es ih =>
    intro p
    rw [Spec.finish]
    cases hc : Spec.closes ch n s e with
    | true => simp [hc]
    | false => simp [hc, ih]

/-- **C58, one note per note-on.** In a track that ends with an end-of-track message, the
specification has exactly one note per note-on. With `C58_exact_no_stack`: loading loses and invents
none. -/
theorem C58_one_note_per_note_on (es : List Msg) (t : Int) :
    (Spec.trackNotes (es ++ [⟨t, .endOfTrack⟩])).map (fun x => (x.channel, x.pitch, x.velocity, x.start)) =
      es.filterMap (fun e => (Spec.on? e).map (fun k => (k.1, k.2.1, k.2.2, e.time))) := by
  suffices gen : ∀ (es : List Msg) (prog : Nat → Nat),
      (Spec.trackNotesGo prog (es ++ [⟨t, .endOfTrack⟩])).map
        (fun x => (x.channel, x.pitch, x.velocity, x.start)) =
      es.filterMap (fun e => (Spec.on? e).map (fun k => (k.1, k.2.1, k.2.2, e.time))) from gen es _
  intro es
  induction es with
  | nil => intro prog; simp [Spec.trackNotesGo, Spec.on?]
  | cons e es ih =>
    intro prog
    rw [List.cons_append, Spec.trackNotesGo, List.map_append, ih, List.filterMap_cons]
    cases hon : Spec.on? e with
    | none => rfl
    | some k =>
      obtain ⟨ch, n, v⟩ := k
      simp only [Option.map_some]
      have hl := finish_length ch n v e.time (es ++ [⟨t, .endOfTrack⟩]) (prog ch)
      rw [if_pos (by simp [Spec.closes])] at hl
      obtain ⟨x, hx⟩ := List.length_eq_one_iff.1 hl
      have hp := finish_props ch n v e.time (es ++ [⟨t, .endOfTrack⟩]) (prog ch) x (by rw [hx]; simp)
      rw [hx]
      simp [hp.1, hp.2.1, hp.2.2.1, hp.2.2.2.1]

theorem trackNotesGo_mem : ∀ (es : List Msg) (prog : Nat → Nat) (x : Emit),
    x ∈ Spec.trackNotesGo prog es → ∃ l e r, es = l ++ e :: r ∧
      Spec.on? e = some (x.channel, x.pitch, x.velocity) ∧ e.time = x.start ∧
      ∃ f ∈ r, f.time = x.stop ∧ Spec.closes x.channel x.pitch x.start f = true := by
  intro es
  induction es with
  | nil => intro prog x hx; simp [Spec.trackNotesGo] at hx
  | cons e es ih =>
    intro prog x hx
    rw [Spec.trackNotesGo] at hx
    rcases List.mem_append.1 hx with hx | hx
    · cases hon : Spec.on? e with
      | none => rw [hon] at hx; simp at hx
      | some k =>
        obtain ⟨ch, n, v⟩ := k
        rw [hon] at hx
        obtain ⟨h1, h2, h3, h4, f, hf, h5, h6⟩ := finish_props ch n v e.time es (prog ch) x hx
        exact ⟨[], e, es, rfl, by rw [h1, h2, h3]; exact hon, h4.symm, f, hf, h5, by rw [h1, h2, h4]; exact h6⟩
    · obtain ⟨l, e', r, h1, h2, h3, h4⟩ := ih _ x hx
      exact ⟨e :: l, e', r, by rw [h1]; rfl, h2, h3, h4⟩

/-- **C58, start before end.** In a track with ticks in order, every note of the specification starts
at a note-on and ends, at a strictly later tick, at a later event; only the end of the track may close
a note at its own tick. -/
theorem C58_start_lt_end (track : List Msg) (hs : track.Pairwise (fun a b => a.time ≤ b.time)) (x : Emit)
    (hx : x ∈ Spec.trackNotes track) :
    x.start < x.stop ∨ (x.start = x.stop ∧ ⟨x.stop, .endOfTrack⟩ ∈ track) := by
  obtain ⟨l, e, r, h1, h2, h3, f, hf, h4, h5⟩ := trackNotesGo_mem track _ x hx
  have hle : x.start ≤ x.stop := by
    rw [h1, List.pairwise_append, List.pairwise_cons] at hs
    have := hs.2.1.1 f hf
    omega
  rcases Int.lt_or_eq_of_le hle with h | h
  · exact Or.inl h
  · right
    refine ⟨h, ?_⟩
    have hfm : f ∈ track := by rw [h1]; simp [hf]
    obtain ⟨ft, fb⟩ := f
    simp only at h4
    subst h4
    unfold Spec.closes at h5
    cases fb with
    | noteOn ch' n' v =>
      exfalso
      simp only at h5
      split at h5
      · simp only [decide_eq_true_eq] at h5; omega
      · simp only [decide_eq_true_eq] at h5; exact h5.2.2 h.symm
    | noteOff ch' n' v =>
      exfalso
      simp only [decide_eq_true_eq] at h5
      exact h5.2.2 h.symm
    | endOfTrack => exact hfm
    | _ => simp at h5

/-- **C58, the claim "ends at the matching note-off" is false.** Whenever a second note starts while
the first one sounds, the first note ends at the second note-on, not at its note-off, for all channels,
pitches, velocities and ticks. -/
theorem C58_overlap_truncates (ch p ch' q v w : Nat) (a b c d z : Int) (hv : 0 < v) (hw : 0 < w)
    (hab : a < b) (hbc : b < c) (hcd : c < d) :
    loadTrack [⟨a, .noteOn ch p v⟩, ⟨b, .noteOn ch' q w⟩, ⟨c, .noteOff ch p z.toNat⟩,
      ⟨d, .noteOff ch' q 0⟩, ⟨d, .endOfTrack⟩] =
      .ok [.note ⟨0, ch, p, v, a, b⟩, .note ⟨0, ch', q, w, b, if ch = ch' ∧ p = q then c else d⟩] := by
  have e1 : ∀ k k' : Nat × Nat, dget [(k, [(b, w)])] k' = if k = k' then some [(b, w)] else none := by
    intro k k'; simp [dget]
  by_cases hk : ch = ch' ∧ p = q
  · obtain ⟨rfl, rfl⟩ := hk
    simp [loadTrack, loadGo, loadStep, hv, hw, finishNotes, finishEmits, finishes, dget, dset, noteOff,
      bind, Except.bind, hab, TrackSt.program, show b ≠ c by omega]
  · have hk' : ¬ (ch' = ch ∧ q = p) := fun h => hk ⟨h.1.symm, h.2.symm⟩
    have hk2 : ¬ ((ch', q) = (ch, p)) := by
      intro h; simp only [Prod.mk.injEq] at h; exact hk' h
    rw [if_neg hk]
    simp [loadTrack, loadGo, loadStep, hv, hw, finishNotes, finishEmits, finishes, dget, dset, noteOff,
      bind, Except.bind, hab, TrackSt.program, show b ≠ d by omega, hk']

/-- **C58, lost notes.** Two note-ons of one channel and pitch at the same tick followed by a later
note-on: the second of the two is lost. -/
theorem C58_stacked_note_lost (ch p q v v' w : Nat) (a b c : Int) (hv : 0 < v) (hv' : 0 < v') (hw : 0 < w)
    (hab : a < b) (hbc : b < c) :
    loadTrack [⟨a, .noteOn ch p v⟩, ⟨a, .noteOn ch p v'⟩, ⟨b, .noteOn ch q w⟩, ⟨c, .endOfTrack⟩] =
      .ok [.note ⟨0, ch, p, v, a, b⟩, .note ⟨0, ch, q, w, b, c⟩] := by
  simp [loadTrack, loadGo, loadStep, hv, hv', hw, finishNotes, finishEmits, finishes, dget, dset,
    bind, Except.bind, hab, TrackSt.program]

/-- **C58, dropped notes.** Without an end-of-track message the last notes are dropped. -/
theorem C58_no_end_drops (ch p v : Nat) (a : Int) : loadTrack [⟨a, .noteOn ch p v⟩] = .ok [] := by
  by_cases hv : 0 < v
  · simp [loadTrack, loadGo, loadStep, hv, finishNotes, finishEmits, bind, Except.bind]
  · simp [loadTrack, loadGo, loadStep, hv, noteOff, dget, bind, Except.bind]

end NGC
