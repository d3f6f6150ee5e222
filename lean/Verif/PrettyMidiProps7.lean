import Verif.PrettyMidiProps2

/-! Property C58 for all files with ticks in order, also with several note-ons of one channel and
pitch at one tick. -/

namespace NGC

namespace Spec

/-- A note-off, or a note-on of velocity 0. -/
def isOff (e : Msg) : Bool :=
  match e.body with
  | .noteOn _ _ v => decide (v = 0)
  | .noteOff _ _ _ => true
  | _ => false

/-- The fate of a note-on that found another note of the same channel and pitch begun at the same tick:
it is closed by the same events as the first one, but becomes a note only if the closing event is a
note-off. When a later note-on or the end of the track closes the notes, it is lost. -/
def finishStacked (ch n v : Nat) (s : Int) : Nat → List Msg → List Emit
  | _, [] => []
  | p, e :: es =>
    if closes ch n s e then (if isOff e then [⟨p, ch, n, v, s, e.time⟩] else [])
    else finishStacked ch n v s (progAfter ch p e) es

/-- The note-ons seen so far (channel, pitch, tick); an end of track forgets them. -/
def seenAfter (seen : List (Nat × Nat × Int)) (e : Msg) : List (Nat × Nat × Int) :=
  match e.body with
  | .noteOn ch n v => if 0 < v then (ch, n, e.time) :: seen else seen
  | .endOfTrack => []
  | _ => seen

/-- The notes of a track, note-on by note-on. -/
def allNotesGo (prog : Nat → Nat) (seen : List (Nat × Nat × Int)) : List Msg → List Emit
  | [] => []
  | e :: es =>
    (match on? e with
     | some (ch, n, v) =>
       if (ch, n, e.time) ∈ seen then finishStacked ch n v e.time (prog ch) es
       else finish ch n v e.time (prog ch) es
     | none => []) ++ allNotesGo (fun ch => progAfter ch (prog ch) e) (seenAfter seen e) es

/-- The notes of a track with absolute ticks. -/
def allTrackNotes (track : List Msg) : List Emit := allNotesGo (fun _ => 0) [] track

end Spec

/-- What the open notes of one key will become. -/
def pendKey (prog : Nat → Nat) (es : List Msg) (p : (Nat × Nat) × List (Int × Nat)) : List Emit :=
  match p.2 with
  | [] => []
  | q :: rest => Spec.finish p.1.1 p.1.2 q.2 q.1 (prog p.1.1) es ++
      rest.flatMap (fun q => Spec.finishStacked p.1.1 p.1.2 q.2 q.1 (prog p.1.1) es)

/-- What is still open, and will be closed by the events to come. -/
def pendAll (prog : Nat → Nat) (opens : List ((Nat × Nat) × List (Int × Nat))) (es : List Msg) : List Emit :=
  opens.flatMap (pendKey prog es)

/-- The invariant of the loop. -/
structure StackInv (opens : List ((Nat × Nat) × List (Int × Nat))) (seen : List (Nat × Nat × Int))
    (es : List Msg) : Prop where
  nodup : (dkeys opens).Nodup
  stack : ∀ p ∈ opens, ∃ s v rest, p.2 = (s, v) :: rest ∧ (∀ q ∈ rest, q.1 = s) ∧ ∀ e ∈ es, s ≤ e.time
  seen_iff : ∀ e ∈ es, ∀ ch n, (ch, n, e.time) ∈ seen ↔ ∃ v rest, ((ch, n), (e.time, v) :: rest) ∈ opens

theorem StackInv.tail {opens : List ((Nat × Nat) × List (Int × Nat))} {seen : List (Nat × Nat × Int)}
    {e : Msg} {es : List Msg} (inv : StackInv opens seen (e :: es)) : StackInv opens seen es :=
  ⟨inv.nodup, fun p hp => by
    obtain ⟨s, v, rest, h1, h2, h3⟩ := inv.stack p hp
    exact ⟨s, v, rest, h1, h2, fun x hx => h3 x (by simp [hx])⟩,
    fun x hx => inv.seen_iff x (by simp [hx])⟩

theorem StackInv.ne_nil {opens : List ((Nat × Nat) × List (Int × Nat))} {seen : List (Nat × Nat × Int)}
    {es : List Msg} (inv : StackInv opens seen es) : ∀ p ∈ opens, p.2 ≠ [] := by
  intro p hp
  obtain ⟨s, v, rest, h, _⟩ := inv.stack p hp
  rw [h]; simp

theorem pendKey_skip (prog prog' : Nat → Nat) (e : Msg) (es : List Msg) (p : (Nat × Nat) × List (Int × Nat))
    (hp : ∀ ch, prog' ch = Spec.progAfter ch (prog ch) e)
    (h : ∀ q ∈ p.2, Spec.closes p.1.1 p.1.2 q.1 e = false) :
    pendKey prog (e :: es) p = pendKey prog' es p := by
  unfold pendKey
  split
  · rfl
  · rename_i q rest hq
    rw [hq] at h
    rw [Spec.finish, h q (by simp), hp]
    simp only [Bool.false_eq_true, if_false]
    congr 1
    apply List.flatMap_congr
    intro x hx
    rw [Spec.finishStacked, h x (by simp [hx])]
    simp

theorem pendAll_skip (prog prog' : Nat → Nat) (opens : List ((Nat × Nat) × List (Int × Nat))) (e : Msg)
    (es : List Msg) (hp : ∀ ch, prog' ch = Spec.progAfter ch (prog ch) e)
    (h : ∀ p ∈ opens, ∀ q ∈ p.2, Spec.closes p.1.1 p.1.2 q.1 e = false) :
    pendAll prog opens (e :: es) = pendAll prog' opens es := by
  unfold pendAll
  apply List.flatMap_congr
  intro p hpm
  exact pendKey_skip prog prog' e es p hp (h p hpm)

theorem pendAll_perm (prog : Nat → Nat) (o o' : List ((Nat × Nat) × List (Int × Nat))) (es : List Msg)
    (h : o.Perm o') : (pendAll prog o es).Perm (pendAll prog o' es) := h.flatMap_right _

/-- The step of a later note-on or of the end of the track. -/
theorem pendAll_finish (st : TrackSt) (e : Msg) (es : List Msg) (eos : Bool) (prog' : Nat → Nat)
    (hp : ∀ ch, prog' ch = Spec.progAfter ch (st.program ch) e) (hoff : Spec.isOff e = false) :
    ∀ (opens : List ((Nat × Nat) × List (Int × Nat))),
    (∀ p ∈ opens, ∃ s v rest, p.2 = (s, v) :: rest ∧ (∀ q ∈ rest, q.1 = s) ∧
      Spec.closes p.1.1 p.1.2 s e = (decide (s < e.time) || eos)) →
    (pendAll st.program opens (e :: es)).Perm
      (actNotes (opens.filterMap (finishOne st e.time eos)) ++
        pendAll prog' (opens.filter (fun p => !finishes e.time eos p)) es) := by
  intro opens
  induction opens with
  | nil => intro _; simp [pendAll, actNotes]
  | cons p opens ih =>
    intro h
    obtain ⟨k, v⟩ := p
    obtain ⟨s, vel, rest, hv, hr, hc⟩ := h (k, v) (by simp)
    simp only at hv hc
    subst hv
    have := ih (fun q hq => h q (by simp [hq]))
    have hcons : pendAll st.program ((k, (s, vel) :: rest) :: opens) (e :: es) =
        pendKey st.program (e :: es) (k, (s, vel) :: rest) ++ pendAll st.program opens (e :: es) := by
      simp [pendAll]
    rw [hcons]
    by_cases hf : (decide (s < e.time) || eos) = true
    · have e1 : finishOne st e.time eos (k, (s, vel) :: rest) =
          some (.note ⟨st.program k.1, k.1, k.2, vel, s, e.time⟩) := by
        simp only [finishOne]; rw [if_pos hf]
      have e2 : finishes e.time eos (k, (s, vel) :: rest) = true := by simp only [finishes]; exact hf
      have e3 : pendKey st.program (e :: es) (k, (s, vel) :: rest) =
          [⟨st.program k.1, k.1, k.2, vel, s, e.time⟩] := by
        simp only [pendKey]
        rw [Spec.finish, hc, if_pos hf]
        have : rest.flatMap (fun q => Spec.finishStacked k.1 k.2 q.2 q.1 (st.program k.1) (e :: es)) = [] := by
          rw [List.flatMap_eq_nil_iff]
          intro q hq
          rw [Spec.finishStacked, hr q hq, hc, if_pos hf, hoff]
          simp
        rw [this]; rfl
      rw [e3, List.filterMap_cons_some e1, List.filter_cons_of_neg (by simp [e2])]
      simp only [actNotes, List.filterMap_cons, actNote, List.cons_append, List.nil_append]
      exact List.Perm.cons _ this
    · have e1 : finishOne st e.time eos (k, (s, vel) :: rest) = none := by
        simp only [finishOne]; rw [if_neg hf]
      have e2 : finishes e.time eos (k, (s, vel) :: rest) = false := by
        simp only [finishes]; simpa using hf
      rw [List.filterMap_cons_none e1, List.filter_cons_of_pos (by simp [e2])]
      have hcons' : pendAll prog' ((k, (s, vel) :: rest) :: opens.filter (fun p => !finishes e.time eos p)) es =
          pendKey prog' es (k, (s, vel) :: rest) ++
            pendAll prog' (opens.filter (fun p => !finishes e.time eos p)) es := by
        simp [pendAll]
      have hskip := pendKey_skip st.program prog' e es (k, (s, vel) :: rest) hp (by
        intro q hq
        have hq1 : q.1 = s := by
          rcases List.mem_cons.1 hq with rfl | hq
          · rfl
          · exact hr q hq
        rw [hq1, hc]
        simpa using hf)
      rw [hcons', hskip]
      refine (List.Perm.append_left _ this).trans ?_
      rw [← List.append_assoc, ← List.append_assoc]
      exact List.Perm.append_right _ List.perm_append_comm

theorem dset_filter_ne {K V : Type} [DecidableEq K] (d : List (K × V)) (k : K) (v : V) :
    (dset d k v).filter (fun q => decide (q.1 ≠ k)) = d.filter (fun q => decide (q.1 ≠ k)) := by
  induction d with
  | nil => simp [dset]
  | cons q d ih =>
    rw [dset]
    split
    · rename_i hq
      rw [List.filter_cons_of_neg (by simp), List.filter_cons_of_neg (by simp [hq])]
    · rw [List.filter_cons, List.filter_cons, ih]

/-- The note-off case of the loop. -/
theorem noteOff_stack (st : TrackSt) (seen : List (Nat × Nat × Int)) (e : Msg) (es : List Msg) (ch n : Nat)
    (inv : StackInv st.opens seen (e :: es)) (hsort : ∀ x ∈ es, e.time ≤ x.time)
    (hprog : ∀ c p, Spec.progAfter c p e = p) (hoff : Spec.isOff e = true)
    (hcl : ∀ c m s, Spec.closes c m s e = decide (ch = c ∧ n = m ∧ e.time ≠ s)) :
    (noteOff st e.time ch n).1.prog = st.prog ∧
    StackInv (noteOff st e.time ch n).1.opens seen es ∧
    (pendAll st.program st.opens (e :: es)).Perm
      (actNotes (noteOff st e.time ch n).2 ++ pendAll st.program (noteOff st e.time ch n).1.opens es) := by
  have hinv' := inv.tail
  unfold noteOff
  cases hg : dget st.opens (ch, n) with
  | none =>
    simp only
    refine ⟨trivial, hinv', ?_⟩
    rw [pendAll_skip st.program st.program st.opens e es (fun c => (hprog c _).symm)]
    · simp [actNotes]
    · intro p hp q hq
      rw [hcl, decide_eq_false_iff_not]
      rintro ⟨h1, h2, _⟩
      rw [dget_eq_none] at hg
      apply hg
      have : p.1 = (ch, n) := by rw [h1, h2]
      rw [← this]
      exact List.mem_map_of_mem hp
  | some v =>
    obtain ⟨s, vel, rest, h1, h2, h3⟩ := inv.stack _ (dget_mem _ _ _ hg)
    simp only at h1
    have hall : ∀ q ∈ v, q.1 = s := by
      rw [h1]
      intro q hq
      rcases List.mem_cons.1 hq with rfl | hq
      · rfl
      · exact h2 q hq
    simp only
    by_cases hs : s = e.time
    · have hk : v.filter (fun p : Int × Nat => decide (p.1 = e.time)) = v := by
        rw [List.filter_eq_self]
        intro q hq
        simp [hall q hq, hs]
      have hc : v.filter (fun p : Int × Nat => decide (p.1 ≠ e.time)) = [] := by
        rw [List.filter_eq_nil_iff]
        intro q hq
        simp [hall q hq, hs]
      rw [hk, hc, if_pos (by rw [h1]; simp)]
      simp only
      rw [dset_same _ _ _ hg]
      refine ⟨trivial, hinv', ?_⟩
      rw [pendAll_skip st.program st.program st.opens e es (fun c => (hprog c _).symm)]
      · simp [actNotes]
      · intro p hp q hq
        rw [hcl, decide_eq_false_iff_not]
        rintro ⟨g1, g2, g3⟩
        have hpe : p.1 = (ch, n) := by rw [g1, g2]
        have := dget_of_mem st.opens inv.nodup p.1 p.2 hp
        rw [hpe, hg] at this
        have hpv : v = p.2 := by simpa using this
        apply g3
        rw [← hpv] at hq
        rw [hall q hq, hs]
    · have hk : v.filter (fun p : Int × Nat => decide (p.1 = e.time)) = [] := by
        rw [List.filter_eq_nil_iff]
        intro q hq
        simp [hall q hq, hs]
      have hc : v.filter (fun p : Int × Nat => decide (p.1 ≠ e.time)) = v := by
        rw [List.filter_eq_self]
        intro q hq
        simp [hall q hq, hs]
      rw [hk, hc]
      simp only [ne_eq, not_true_eq_false, if_false]
      refine ⟨trivial, ⟨mem_filter_key _ inv.nodup _,
        fun p hp => hinv'.stack p (List.mem_of_mem_filter hp), ?_⟩, ?_⟩
      · intro x hx c m
        rw [hinv'.seen_iff x hx c m]
        constructor
        · rintro ⟨v', r', hm⟩
          refine ⟨v', r', List.mem_filter.2 ⟨hm, ?_⟩⟩
          simp only [decide_not, Bool.not_eq_true', decide_eq_false_iff_not]
          intro he
          have := dget_of_mem st.opens inv.nodup _ _ hm
          rw [he, hg, h1] at this
          simp only [Option.some.injEq, List.cons.injEq, Prod.mk.injEq] at this
          have h5 := h3 e (by simp)
          have h6 := hsort x hx
          omega
        · rintro ⟨v', r', hm⟩
          exact ⟨v', r', List.mem_of_mem_filter hm⟩
      · refine (pendAll_perm _ _ _ _ (split_key st.opens inv.nodup _ _ hg)).trans ?_
        have hcons : pendAll st.program (((ch, n), v) ::
            st.opens.filter (fun p => decide (p.1 ≠ (ch, n)))) (e :: es) =
            pendKey st.program (e :: es) ((ch, n), v) ++
            pendAll st.program (st.opens.filter (fun p => decide (p.1 ≠ (ch, n)))) (e :: es) := by
          simp [pendAll]
        have hne : e.time ≠ s := fun h => hs h.symm
        have hkey : pendKey st.program (e :: es) ((ch, n), v) =
            v.map (fun p => (⟨st.program ch, ch, n, p.2, p.1, e.time⟩ : Emit)) := by
          rw [h1]
          simp only [pendKey, List.map_cons]
          rw [Spec.finish, hcl, if_pos (by simp [hne])]
          rw [List.singleton_append]
          congr 1
          clear hg hall hk hc h1
          induction rest with
          | nil => rfl
          | cons q rest ih =>
            rw [List.flatMap_cons, ih (fun x hx => h2 x (by simp [hx])), Spec.finishStacked, hcl, hoff,
              h2 q (by simp), if_pos (by simp [hne])]
            simp [h2 q (by simp)]
        rw [hcons, hkey]
        rw [pendAll_skip st.program st.program _ e es (fun c => (hprog c _).symm)]
        · have : actNotes (v.map (fun p => Act.note ⟨st.program ch, ch, n, p.2, p.1, e.time⟩)) =
              v.map (fun p => (⟨st.program ch, ch, n, p.2, p.1, e.time⟩ : Emit)) := by
            simp [actNotes, List.filterMap_map, Function.comp_def, actNote]
          rw [this]
        · intro p hp q hq
          rw [hcl, decide_eq_false_iff_not]
          rintro ⟨g1, g2, _⟩
          have := (List.mem_filter.1 hp).2
          simp only [decide_eq_true_eq] at this
          exact this (by rw [g1, g2])

theorem loadGo_all : ∀ (es : List Msg) (st : TrackSt) (seen : List (Nat × Nat × Int)),
    StackInv st.opens seen es → es.Pairwise (fun a b => a.time ≤ b.time) →
    ∃ acts, loadGo st es = .ok acts ∧
      (actNotes acts).Perm (pendAll st.program st.opens es ++ Spec.allNotesGo st.program seen es) := by
  intro es
  induction es with
  | nil =>
    intro st seen inv _
    refine ⟨[], rfl, ?_⟩
    have : pendAll st.program st.opens [] = [] := by
      unfold pendAll
      rw [List.flatMap_eq_nil_iff]
      intro p _
      unfold pendKey
      split
      · rfl
      · simp [Spec.finish, Spec.finishStacked]
    rw [this]
    simp [actNotes, Spec.allNotesGo]
  | cons e es ih =>
    intro st seen inv hsort
    have hsort' := (List.pairwise_cons.1 hsort)
    have quiet : ∀ (st' : TrackSt) (as : List Act), loadStep st e = .ok (st', as) →
        st'.opens = st.opens → actNotes as = [] →
        (∀ ch, st'.program ch = Spec.progAfter ch (st.program ch) e) → Spec.on? e = none →
        Spec.seenAfter seen e = seen →
        (∀ c m s, Spec.closes c m s e = false) →
        ∃ acts, loadGo st (e :: es) = .ok acts ∧
          (actNotes acts).Perm (pendAll st.program st.opens (e :: es) ++
            Spec.allNotesGo st.program seen (e :: es)) := by
      intro st' as h1 h2 h3 h4 h5 hse h6
      obtain ⟨acts, g1, g2⟩ := ih st' seen (by rw [h2]; exact inv.tail) hsort'.2
      refine ⟨as ++ acts, by simp only [loadGo, h1, bind, Except.bind, g1], ?_⟩
      rw [actNotes_append, h3, List.nil_append]
      rw [pendAll_skip st.program st'.program st.opens e es h4 (fun p _ q _ => h6 _ _ _),
        Spec.allNotesGo, h5, hse]
      simp only [List.nil_append]
      have : (fun ch => Spec.progAfter ch (st.program ch) e) = st'.program := by
        funext ch; exact (h4 ch).symm
      rw [this, ← h2]
      exact g2
    have offc : ∀ ch n, loadStep st e = .ok (noteOff st e.time ch n) →
        (∀ c p, Spec.progAfter c p e = p) → Spec.on? e = none → Spec.isOff e = true →
        Spec.seenAfter seen e = seen →
        (∀ c m s, Spec.closes c m s e = decide (ch = c ∧ n = m ∧ e.time ≠ s)) →
        ∃ acts, loadGo st (e :: es) = .ok acts ∧
          (actNotes acts).Perm (pendAll st.program st.opens (e :: es) ++
            Spec.allNotesGo st.program seen (e :: es)) := by
      intro ch n h1 h2 h3 hoff hse h4
      obtain ⟨k1, k2, k3⟩ := noteOff_stack st seen e es ch n inv hsort'.1 h2 hoff h4
      obtain ⟨acts, g1, g2⟩ := ih _ seen k2 hsort'.2
      have hprog : (noteOff st e.time ch n).1.program = st.program := by
        funext c; simp [TrackSt.program, k1]
      rw [hprog] at g2
      refine ⟨(noteOff st e.time ch n).2 ++ acts, by simp only [loadGo, h1, bind, Except.bind, g1], ?_⟩
      rw [actNotes_append, Spec.allNotesGo, h3, hse]
      simp only [List.nil_append, h2]
      refine (List.Perm.append_left _ g2).trans ?_
      rw [← List.append_assoc]
      exact List.Perm.append_right _ k3.symm
    obtain ⟨t, body⟩ := e
    cases body with
    | setTempo _ => exact quiet st [] rfl rfl rfl (fun _ => rfl) rfl rfl (fun _ _ _ => rfl)
    | timeSig _ _ => exact quiet st [] rfl rfl rfl (fun _ => rfl) rfl rfl (fun _ _ _ => rfl)
    | keySig _ => exact quiet st [] rfl rfl rfl (fun _ => rfl) rfl rfl (fun _ _ _ => rfl)
    | lyrics _ => exact quiet st [] rfl rfl rfl (fun _ => rfl) rfl rfl (fun _ _ _ => rfl)
    | trackName _ => exact quiet st _ rfl rfl rfl (fun _ => rfl) rfl rfl (fun _ _ _ => rfl)
    | other _ => exact quiet st [] rfl rfl rfl (fun _ => rfl) rfl rfl (fun _ _ _ => rfl)
    | pitchwheel ch p => exact quiet st _ rfl rfl rfl (fun _ => rfl) rfl rfl (fun _ _ _ => rfl)
    | controlChange ch c v => exact quiet st _ rfl rfl rfl (fun _ => rfl) rfl rfl (fun _ _ _ => rfl)
    | programChange ch p =>
      refine quiet ⟨st.opens, dset st.prog ch p⟩ [] rfl rfl rfl ?_ rfl rfl (fun _ _ _ => rfl)
      intro c
      simp only [TrackSt.program, dget_dset, Spec.progAfter]
      split <;> rfl
    | noteOff ch n v =>
      refine offc ch n rfl (fun _ _ => rfl) rfl rfl rfl ?_
      intro c m s
      rfl
    | noteOn ch n v =>
      by_cases hv : 0 < v
      · have hon : Spec.on? ⟨t, .noteOn ch n v⟩ = some (ch, n, v) := by simp [Spec.on?, hv]
        have hoff : Spec.isOff ⟨t, .noteOn ch n v⟩ = false := by simp [Spec.isOff]; omega
        have hse : Spec.seenAfter seen ⟨t, .noteOn ch n v⟩ = (ch, n, t) :: seen := by
          simp [Spec.seenAfter, hv]
        have hcl : ∀ c m s, Spec.closes c m s ⟨t, .noteOn ch n v⟩ = decide (s < t) := by
          intro c m s; simp [Spec.closes, hv]
        have hf := finishNotes_eq st t false inv.ne_nil
        set kept := st.opens.filter (fun p => !finishes t false p) with hkept
        have hnd : (dkeys kept).Nodup := mem_filter_key _ inv.nodup _
        -- what is kept began at this very tick
        have hks : ∀ p ∈ kept, ∃ w rest, p.2 = (t, w) :: rest ∧ ∀ q ∈ rest, q.1 = t := by
          intro p hp
          obtain ⟨s, w, rest, h1, h2, h3⟩ := inv.stack p (List.mem_of_mem_filter hp)
          have hle := h3 _ (List.mem_cons_self)
          have hnf := (List.mem_filter.1 hp).2
          simp only [finishes, h1, Bool.or_false, Bool.not_eq_true', decide_eq_false_iff_not] at hnf
          have hst : s = t := by simp only at hle; omega
          subst hst
          exact ⟨w, rest, h1, h2⟩
        have hold : ∀ w rest c m, ((c, m), (t, w) :: rest) ∈ st.opens → ((c, m), (t, w) :: rest) ∈ kept := by
          intro w rest c m hm
          exact List.mem_filter.2 ⟨hm, by simp [finishes]⟩
        set old := (dget kept (ch, n)).getD [] with hold'
        have holdt : ∀ q ∈ old, q.1 = t := by
          intro q hq
          rw [hold'] at hq
          cases hg : dget kept (ch, n) with
          | none => rw [hg] at hq; simp at hq
          | some x =>
            rw [hg] at hq
            obtain ⟨w, rest, h1, h2⟩ := hks _ (dget_mem _ _ _ hg)
            simp only [Option.getD_some] at hq
            simp only at h1
            rw [h1] at hq
            rcases List.mem_cons.1 hq with rfl | hq
            · rfl
            · exact h2 q hq
        have hstep : loadStep st ⟨t, .noteOn ch n v⟩ =
            .ok (⟨dset kept (ch, n) (old ++ [(t, v)]), st.prog⟩,
              st.opens.filterMap (finishOne st t false)) := by
          unfold loadStep
          simp only [hv, if_true, hf, bind, Except.bind]
          rw [hold']
        have hnd2 := dset_nodup kept (ch, n) (old ++ [(t, v)]) hnd
        have hsplit := split_key _ hnd2 _ _ (dget_dset_self kept (ch, n) (old ++ [(t, v)]))
        rw [dset_filter_ne] at hsplit
        have hheadnew : ∃ w rest, old ++ [(t, v)] = (t, w) :: rest := by
          cases ho : old with
          | nil => exact ⟨v, [], rfl⟩
          | cons q o =>
            have : q.1 = t := holdt q (by rw [ho]; simp)
            exact ⟨q.2, o ++ [(t, v)], by rw [← this]; rfl⟩
        have hinv2 : StackInv (dset kept (ch, n) (old ++ [(t, v)])) ((ch, n, t) :: seen) es := by
          refine ⟨hnd2, ?_, ?_⟩
          · intro p hp
            rw [hsplit.mem_iff] at hp
            rcases List.mem_cons.1 hp with rfl | hp
            · obtain ⟨w, rest, he⟩ := hheadnew
              refine ⟨t, w, rest, he, ?_, fun x hx => hsort'.1 x hx⟩
              intro q hq
              have : q ∈ old ++ [(t, v)] := by rw [he]; simp [hq]
              rcases List.mem_append.1 this with h | h
              · exact holdt q h
              · simp only [List.mem_singleton] at h; rw [h]
            · obtain ⟨w, rest, h1, h2⟩ := hks p (List.mem_of_mem_filter hp)
              exact ⟨t, w, rest, h1, h2, fun x hx => hsort'.1 x hx⟩
          · intro x hx c m
            rw [List.mem_cons, inv.seen_iff x (by simp [hx]) c m]
            constructor
            · rintro (h | ⟨w, rest, hm⟩)
              · simp only [Prod.mk.injEq] at h
                obtain ⟨rfl, rfl, h⟩ := h
                obtain ⟨w, rest, he⟩ := hheadnew
                exact ⟨w, rest, by rw [hsplit.mem_iff, h, ← he]; simp⟩
              · have hxt : x.time = t := by
                  obtain ⟨s, w', r', h1, _, h3⟩ := inv.stack _ hm
                  simp only [List.cons.injEq, Prod.mk.injEq] at h1
                  have h4 := h3 _ (List.mem_cons_self)
                  have h5 := hsort'.1 x hx
                  simp only at h4 h5
                  omega
                rw [hxt] at hm ⊢
                by_cases hk : (c, m) = (ch, n)
                · obtain ⟨w', r', he⟩ := hheadnew
                  rw [hk]
                  exact ⟨w', r', by rw [hsplit.mem_iff, ← he]; simp⟩
                · exact ⟨w, rest, by
                    rw [hsplit.mem_iff]
                    refine List.mem_cons_of_mem _ (List.mem_filter.2 ⟨hold _ _ _ _ hm, ?_⟩)
                    exact decide_eq_true hk⟩
            · rintro ⟨w, rest, hm⟩
              rw [hsplit.mem_iff] at hm
              rcases List.mem_cons.1 hm with h | h
              · simp only [Prod.mk.injEq] at h
                obtain ⟨⟨rfl, rfl⟩, h⟩ := h
                left
                obtain ⟨w', r', he⟩ := hheadnew
                rw [he] at h
                simp only [List.cons.injEq, Prod.mk.injEq] at h
                rw [h.1.1]
              · right
                exact ⟨w, rest, List.mem_of_mem_filter (List.mem_of_mem_filter h)⟩
        obtain ⟨acts, g1, g2⟩ := ih ⟨_, st.prog⟩ _ hinv2 hsort'.2
        refine ⟨st.opens.filterMap (finishOne st t false) ++ acts,
          by simp only [loadGo, hstep, bind, Except.bind, g1], ?_⟩
        have hpf := pendAll_finish st ⟨t, .noteOn ch n v⟩ es false st.program (fun _ => rfl) hoff st.opens (by
          intro p hp
          obtain ⟨s, w, rest, h1, h2, h3⟩ := inv.stack p hp
          exact ⟨s, w, rest, h1, h2, by rw [hcl]; simp⟩)
        rw [actNotes_append, Spec.allNotesGo, hon, hse]
        have hprog : TrackSt.program ⟨dset kept (ch, n) (old ++ [(t, v)]), st.prog⟩ = st.program := by
          funext c; rfl
        rw [hprog] at g2
        have hseen := inv.seen_iff ⟨t, .noteOn ch n v⟩ (by simp) ch n
        simp only at hseen
        -- the new note joins what is pending
        have hnew : (pendAll st.program (dset kept (ch, n) (old ++ [(t, v)])) es).Perm
            (pendAll st.program kept es ++
              (if (ch, n, t) ∈ seen then Spec.finishStacked ch n v t (st.program ch) es
               else Spec.finish ch n v t (st.program ch) es)) := by
          refine (pendAll_perm _ _ _ _ hsplit).trans ?_
          cases hg : dget kept (ch, n) with
          | none =>
            have ho : old = [] := by rw [hold', hg]; rfl
            have hns : (ch, n, t) ∉ seen := by
              rw [hseen]
              rintro ⟨w, rest, hm⟩
              have := dget_of_mem kept hnd _ _ (hold _ _ _ _ hm)
              rw [hg] at this; cases this
            rw [if_neg hns, ho]
            have hfil : kept.filter (fun q => decide (q.1 ≠ (ch, n))) = kept := by
              rw [List.filter_eq_self]
              intro q hq
              have : q.1 ≠ (ch, n) := fun h =>
                (dget_eq_none _ _).1 hg (by rw [← h]; exact List.mem_map_of_mem hq)
              simpa using this
            rw [hfil]
            have : pendAll st.program (((ch, n), [] ++ [(t, v)]) :: kept) es =
                Spec.finish ch n v t (st.program ch) es ++ pendAll st.program kept es := by
              simp [pendAll, pendKey]
            rw [this]
            exact List.perm_append_comm
          | some x =>
            have ho : old = x := by rw [hold', hg]; rfl
            obtain ⟨w, rest, h1, h2⟩ := hks _ (dget_mem _ _ _ hg)
            simp only at h1
            have hns : (ch, n, t) ∈ seen := by
              rw [hseen]
              exact ⟨w, rest, by rw [← h1]; exact List.mem_of_mem_filter (dget_mem _ _ _ hg)⟩
            rw [if_pos hns, ho]
            have hks' := pendAll_perm st.program _ _ es (split_key kept hnd _ _ hg)
            refine List.Perm.trans ?_ (hks'.append_right _).symm
            have e1 : pendAll st.program (((ch, n), x ++ [(t, v)]) ::
                kept.filter (fun q => decide (q.1 ≠ (ch, n)))) es =
                (pendKey st.program es ((ch, n), x) ++ Spec.finishStacked ch n v t (st.program ch) es) ++
                  pendAll st.program (kept.filter (fun q => decide (q.1 ≠ (ch, n)))) es := by
              rw [h1]
              simp [pendAll, pendKey]
            have e2 : pendAll st.program (((ch, n), x) ::
                kept.filter (fun q => decide (q.1 ≠ (ch, n)))) es =
                pendKey st.program es ((ch, n), x) ++
                  pendAll st.program (kept.filter (fun q => decide (q.1 ≠ (ch, n)))) es := by
              simp [pendAll]
            rw [e1, e2, List.append_assoc, List.append_assoc]
            exact List.Perm.append_left _ List.perm_append_comm
        refine (List.Perm.append_left _ g2).trans ?_
        refine (List.Perm.append_left _ (hnew.append_right _)).trans ?_
        rw [List.append_assoc, ← List.append_assoc]
        refine (List.Perm.append_right _ hpf.symm).trans ?_
        rfl
      · have hv0 : v = 0 := by omega
        subst hv0
        refine offc ch n ?_ (fun _ _ => rfl) ?_ ?_ ?_ ?_
        · simp [loadStep]
        · simp [Spec.on?]
        · simp [Spec.isOff]
        · simp [Spec.seenAfter]
        · intro c m s
          simp [Spec.closes]
    | endOfTrack =>
      have hf := finishNotes_eq st t true inv.ne_nil
      have hall : st.opens.filter (fun p => !finishes t true p) = [] := by
        rw [List.filter_eq_nil_iff]
        intro p hp
        obtain ⟨s, w, rest, h1, _, _⟩ := inv.stack p hp
        simp [finishes, h1]
      rw [hall] at hf
      have hpf := pendAll_finish st ⟨t, .endOfTrack⟩ es true st.program (fun _ => rfl) rfl st.opens (by
          intro p hp
          obtain ⟨s, w, rest, h1, h2, h3⟩ := inv.stack p hp
          exact ⟨s, w, rest, h1, h2, by simp [Spec.closes]⟩)
      rw [show (⟨t, Body.endOfTrack⟩ : Msg).time = t from rfl, hall] at hpf
      obtain ⟨acts, g1, g2⟩ := ih ⟨[], st.prog⟩ [] ⟨by simp [dkeys], by simp, by simp⟩ hsort'.2
      have hstep : loadStep st ⟨t, .endOfTrack⟩ = .ok (⟨[], st.prog⟩, st.opens.filterMap (finishOne st t true)) := hf
      refine ⟨st.opens.filterMap (finishOne st t true) ++ acts, by simp only [loadGo, hstep, bind, Except.bind, g1], ?_⟩
      rw [actNotes_append, Spec.allNotesGo]
      have hprog : TrackSt.program ⟨[], st.prog⟩ = st.program := by funext c; rfl
      rw [hprog] at g2
      simp only [Spec.on?, List.nil_append]
      refine (List.Perm.append_left _ g2).trans ?_
      rw [← List.append_assoc]
      exact List.Perm.append_right _ hpf.symm

/-- **C58, exact notes of every file.** For every file whose tracks have ticks in order (several
note-ons of one channel and pitch at one tick included), loading never raises, and the notes of the
loaded instruments (with program and drum flag of their instrument) are exactly the notes of the
specification, each once. -/
theorem C58_exact (drum : Nat) (tt : Int → ℚ) (tracks : List (List Msg))
    (hs : ∀ t ∈ tracks, t.Pairwise (fun a b => a.time ≤ b.time)) :
    ∃ insts, loadInstruments drum tt tracks = .ok insts ∧
      (insts.flatMap (fun i => i.notes.map (fun n => (i.program, i.isDrum, n)))).Perm
        ((tracks.flatMap Spec.allTrackNotes).map (showEmit drum tt)) := by
  have one : ∀ t ∈ tracks, ∃ acts, loadTrack t = .ok acts ∧ (actNotes acts).Perm (Spec.allTrackNotes t) := by
    intro t ht
    obtain ⟨acts, h1, h2⟩ := loadGo_all t ⟨[], []⟩ [] ⟨by simp [dkeys], by simp, by simp⟩ (hs t ht)
    refine ⟨acts, h1, ?_⟩
    have : TrackSt.program ⟨[], []⟩ = fun _ => 0 := by funext c; rfl
    rw [this] at h2
    unfold Spec.allTrackNotes
    simpa [pendAll] using h2
  obtain ⟨st, h1, h2, h3⟩ := loadTracks_inv drum tt Spec.allTrackNotes tracks 0 ⟨[], [], [], []⟩
    ⟨by simp [dkeys], by simp⟩ one
  refine ⟨st.insts.map (fun p => p.2.freeze st.heap),
    by simp only [loadInstruments, h1, bind, Except.bind], ?_⟩
  rw [allNotes_freeze drum st h2]
  simpa [allNotes] using h3

/-- Two stacked note-ons, closed by a note-off (both become notes), then two closed by a note-on (the
second is lost). -/
def exStackTrack : List Msg :=
  [⟨0, .noteOn 0 60 1⟩, ⟨0, .noteOn 0 60 2⟩, ⟨5, .noteOff 0 60 0⟩,
   ⟨6, .noteOn 0 60 3⟩, ⟨6, .noteOn 0 60 4⟩, ⟨7, .noteOn 0 61 5⟩, ⟨9, .endOfTrack⟩]

example : exStackTrack.Pairwise (fun a b => a.time ≤ b.time) ∧
    Spec.allTrackNotes exStackTrack =
      [⟨0, 0, 60, 1, 0, 5⟩, ⟨0, 0, 60, 2, 0, 5⟩, ⟨0, 0, 60, 3, 6, 7⟩, ⟨0, 0, 61, 5, 7, 9⟩] := by
  decide +kernel

end NGC
