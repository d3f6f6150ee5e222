import Verif.PrettyMidiProps5

/-! C98: which instrument gets a control change or pitch bend. -/

namespace NGC

/-- **C98 is false: one control change, two instruments.** A control change that arrives on a channel
before its first note is listed by every instrument later created on that channel and track: for every
control, value, two different programs and notes, both loaded instruments hold it. -/
theorem C98_shared_control (drum : Nat) (tt : Int → ℚ) (ch num val p q n m v w : Nat) (hpq : p ≠ q)
    (hv : 0 < v) (hw : 0 < w) (a b c d e : Int) (hab : a ≠ b) (hcd : c ≠ d) :
    loadInstruments drum tt [[⟨0, .controlChange ch num val⟩, ⟨0, .programChange ch p⟩, ⟨a, .noteOn ch n v⟩,
      ⟨b, .noteOff ch n 0⟩, ⟨b, .programChange ch q⟩, ⟨c, .noteOn ch m w⟩, ⟨d, .noteOff ch m 0⟩,
      ⟨e, .endOfTrack⟩]] =
    .ok [⟨p, decide (ch = drum), "", [⟨v, n, tt a, tt b⟩], [], [(num, val, tt 0)]⟩,
         ⟨q, decide (ch = drum), "", [⟨w, m, tt c, tt d⟩], [], [(num, val, tt 0)]⟩] := by
  have hload : loadTrack [⟨0, .controlChange ch num val⟩, ⟨0, .programChange ch p⟩, ⟨a, .noteOn ch n v⟩,
      ⟨b, .noteOff ch n 0⟩, ⟨b, .programChange ch q⟩, ⟨c, .noteOn ch m w⟩, ⟨d, .noteOff ch m 0⟩,
      ⟨e, .endOfTrack⟩] =
      .ok [.control 0 ch num val 0, .note ⟨p, ch, n, v, a, b⟩, .note ⟨q, ch, m, w, c, d⟩] := by
    simp [loadTrack, loadGo, loadStep, finishNotes, finishEmits, noteOff, TrackSt.program, dget, dset, hv, hw,
      hab, hcd, bind, Except.bind]
  unfold loadInstruments
  simp only [loadTracks, hload, bind, Except.bind]
  simp [LoadSt.act, LoadSt.eventRef, LoadSt.addNote, LInst.freeze, dget, dset, hpq]

/-- **C98 is false: events of a silent channel are lost.** A control change on a channel without notes is
in no instrument. -/
theorem C98_silent_channel_lost (drum : Nat) (tt : Int → ℚ) (ch num val : Nat) (a e : Int) :
    loadInstruments drum tt [[⟨a, .controlChange ch num val⟩, ⟨e, .endOfTrack⟩]] = .ok [] := by
  simp [loadInstruments, loadTracks, loadTrack, loadGo, loadStep, finishNotes, finishEmits, LoadSt.act,
    LoadSt.eventRef, dget, dset, bind, Except.bind]

/-! ### Without program changes every event has one owner -/

namespace Spec

/-- The control changes of channel `ch` in a track, in order: number, value, time. -/
def controlsOf (tt : Int → ℚ) (ch : Nat) (track : List Msg) : List (Nat × Nat × ℚ) :=
  track.filterMap (fun e => match e.body with
    | .controlChange c num val => if c = ch then some (num, val, tt e.time) else none
    | _ => none)

/-- The pitch bends of channel `ch` in a track, in order. -/
def bendsOf (tt : Int → ℚ) (ch : Nat) (track : List Msg) : List (Int × ℚ) :=
  track.filterMap (fun e => match e.body with
    | .pitchwheel c p => if c = ch then some (p, tt e.time) else none
    | _ => none)

end Spec

/-- Events of a channel among the actions. -/
def actBend (tt : Int → ℚ) (ch : Nat) : Act → Option (Int × ℚ)
  | .bend _ c p t => if c = ch then some (p, tt t) else none
  | _ => none

def actControl (tt : Int → ℚ) (ch : Nat) : Act → Option (Nat × Nat × ℚ)
  | .control _ c num val t => if c = ch then some (num, val, tt t) else none
  | _ => none

/-- The program an action mentions is 0. -/
def actZero : Act → Prop
  | .note e => e.program = 0
  | .bend p _ _ _ => p = 0
  | .control p _ _ _ _ => p = 0
  | .name _ => True

/-- The event lists of a channel and track. -/
def refOf (st : LoadSt) (x : Nat × Nat) : Option Nat :=
  match dget st.insts (0, x.1, x.2) with
  | some i => some i.ref
  | none => dget st.strag x

/-- Every channel and track has one pair of event lists, holding the events `B`. -/
structure RefInv (st : LoadSt) (B : Nat × Nat → List (Int × ℚ) × List (Nat × Nat × ℚ)) : Prop where
  zero : ∀ p ∈ st.insts, p.1.1 = 0
  nodup : (dkeys st.insts).Nodup
  agree : ∀ x i r, dget st.insts (0, x.1, x.2) = some i → dget st.strag x = some r → i.ref = r
  held : ∀ x r, refOf st x = some r → st.heap[r]? = some (B x)
  none : ∀ x, refOf st x = Option.none → B x = ([], [])
  inj : ∀ x y r, refOf st x = some r → refOf st y = some r → x = y

/-- The events after one more action on track `k`. -/
def bump (tt : Int → ℚ) (k : Nat) (a : Act) (B : Nat × Nat → List (Int × ℚ) × List (Nat × Nat × ℚ)) :
    Nat × Nat → List (Int × ℚ) × List (Nat × Nat × ℚ) := fun x =>
  if x.2 = k then ((B x).1 ++ (actBend tt x.1 a).toList, (B x).2 ++ (actControl tt x.1 a).toList) else B x

theorem refInv_lt {st : LoadSt} {B} (h : RefInv st B) {x : Nat × Nat} {r : Nat} (hr : refOf st x = some r) :
    r < st.heap.length := (List.getElem?_eq_some_iff.1 (h.held x r hr)).1

/-- `__get_instrument(..., 0)` keeps the invariant and returns the lists of its channel and track. -/
theorem eventRef_inv (k : Nat) (st : LoadSt) (B) (h : RefInv st B) (ch : Nat) :
    RefInv (st.eventRef k 0 ch).1 B ∧ refOf (st.eventRef k 0 ch).1 (ch, k) = some (st.eventRef k 0 ch).2 := by
  unfold LoadSt.eventRef
  split
  · rename_i i hi
    exact ⟨h, by simp [refOf, hi]⟩
  · rename_i hi
    split
    · rename_i r hr
      exact ⟨h, by simp [refOf, hi, hr]⟩
    · rename_i hs
      have hnone : refOf st (ch, k) = Option.none := by simp [refOf, hi, hs]
      have href : ∀ x, refOf { st with strag := dset st.strag (ch, k) st.heap.length, heap := st.heap ++ [([], [])] } x
          = if (ch, k) = x then some st.heap.length else refOf st x := by
        intro x
        unfold refOf
        simp only [dget_dset]
        by_cases hx : (ch, k) = x
        · subst hx; simp [hi]
        · simp [hx]
      refine ⟨⟨h.zero, h.nodup, ?_, ?_, ?_, ?_⟩, by rw [href]; simp⟩
      · intro x i r h1 h2
        simp only [dget_dset] at h2
        split at h2
        · rename_i hx; subst hx; rw [hi] at h1; cases h1
        · exact h.agree x i r h1 h2
      · intro x r hr
        rw [href] at hr
        split at hr
        · rename_i hx
          obtain rfl := Option.some.inj hr
          subst hx
          simp [h.none _ hnone]
        · have := h.held x r hr
          have hlt := refInv_lt h hr
          simp only
          rw [List.getElem?_append_left hlt]; exact this
      · intro x hx
        rw [href] at hx
        split at hx
        · cases hx
        · exact h.none x hx
      · intro x y r hx hy
        rw [href] at hx hy
        split at hx
        · split at hy
          · rename_i e1 e2; rw [← e1, ← e2]
          · obtain rfl := Option.some.inj hx
            exact absurd (refInv_lt h hy) (lt_irrefl _)
        · split at hy
          · obtain rfl := Option.some.inj hy
            exact absurd (refInv_lt h hx) (lt_irrefl _)
          · exact h.inj x y r hx hy

/-- Appending to the lists of one channel and track. -/
theorem modify_inv (st : LoadSt) (B B') (h : RefInv st B) (x : Nat × Nat) (r : Nat) (hr : refOf st x = some r)
    (f : List (Int × ℚ) × List (Nat × Nat × ℚ) → List (Int × ℚ) × List (Nat × Nat × ℚ))
    (h1 : B' x = f (B x)) (h2 : ∀ y, y ≠ x → B' y = B y) :
    RefInv { st with heap := st.heap.modify r f } B' := by
  have href : ∀ y, refOf { st with heap := st.heap.modify r f } y = refOf st y := fun y => rfl
  refine ⟨h.zero, h.nodup, h.agree, ?_, ?_, ?_⟩
  · intro y s hs
    rw [href] at hs
    simp only [List.getElem?_modify]
    by_cases hy : y = x
    · subst hy
      rw [hr] at hs
      obtain rfl := Option.some.inj hs
      rw [h.held y r hr]
      simp [h1]
    · have hne : r ≠ s := by
        intro he; subst he
        exact hy (h.inj y x r hs hr)
      rw [h.held y s hs, h2 y hy]
      simp [hne]
  · intro y hy
    rw [href] at hy
    have : y ≠ x := by intro he; subst he; rw [hr] at hy; cases hy
    rw [h2 y this]; exact h.none y hy
  · exact h.inj

theorem addNote_refInv (drum k : Nat) (st : LoadSt) (B) (h : RefInv st B) (ch : Nat) (n : PNote) :
    RefInv (st.addNote drum k 0 ch n) B := by
  have key : ∀ (i : LInst) (hp : List (List (Int × ℚ) × List (Nat × Nat × ℚ))),
      (∀ x r, (if (ch, k) = x then some i.ref else refOf st x) = some r → hp[r]? = some (B x)) →
      (∀ x, (if (ch, k) = x then some i.ref else refOf st x) = Option.none → B x = ([], [])) →
      (∀ x y r, (if (ch, k) = x then some i.ref else refOf st x) = some r →
        (if (ch, k) = y then some i.ref else refOf st y) = some r → x = y) →
      (∀ r, dget st.strag (ch, k) = some r → i.ref = r) →
      RefInv { st with insts := dset st.insts (0, ch, k) i, heap := hp } B := by
    intro i hp g1 g2 g3 g4
    have href : ∀ x, refOf { st with insts := dset st.insts (0, ch, k) i, heap := hp } x =
        if (ch, k) = x then some i.ref else refOf st x := by
      intro x
      obtain ⟨a, b⟩ := x
      unfold refOf
      simp only [dget_dset, Prod.mk.injEq, true_and]
      by_cases hx : ch = a ∧ k = b
      · simp [hx]
      · simp [hx]
    refine ⟨?_, dset_nodup _ _ _ h.nodup, ?_, ?_, ?_, ?_⟩
    · intro p hp
      rcases mem_dset hp with rfl | hp
      · rfl
      · exact h.zero p hp
    · intro x j r h1 h2
      obtain ⟨a, b⟩ := x
      simp only [dget_dset, Prod.mk.injEq, true_and] at h1
      split at h1
      · rename_i hx
        obtain rfl := Option.some.inj h1
        obtain ⟨rfl, rfl⟩ := hx
        exact g4 r h2
      · exact h.agree (a, b) j r h1 h2
    · intro x r hx; rw [href] at hx; exact g1 x r hx
    · intro x hx; rw [href] at hx; exact g2 x hx
    · intro x y r hx hy; rw [href] at hx hy; exact g3 x y r hx hy
  unfold LoadSt.addNote
  split
  · rename_i i hi
    have hr : refOf st (ch, k) = some i.ref := by simp [refOf, hi]
    have hsame : ∀ x, (if (ch, k) = x then some i.ref else refOf st x) = refOf st x := by
      intro x; split
      · rename_i hx; subst hx; exact hr.symm
      · rfl
    refine key { i with notes := i.notes ++ [n] } st.heap ?_ ?_ ?_ ?_
    · intro x r hx; simp only [hsame] at hx; exact h.held x r hx
    · intro x hx; simp only [hsame] at hx; exact h.none x hx
    · intro x y r hx hy; simp only [hsame] at hx hy; exact h.inj x y r hx hy
    · intro r hs; exact h.agree (ch, k) i r hi hs
  · rename_i hi
    dsimp only
    split
    · rename_i s hs
      have hr : refOf st (ch, k) = some s := by simp [refOf, hi, hs]
      have hsame : ∀ x, (if (ch, k) = x then some s else refOf st x) = refOf st x := by
        intro x; split
        · rename_i hx; subst hx; exact hr.symm
        · rfl
      refine key _ st.heap ?_ ?_ ?_ ?_
      · intro x r hx; simp only [hsame] at hx; exact h.held x r hx
      · intro x hx; simp only [hsame] at hx; exact h.none x hx
      · intro x y r hx hy; simp only [hsame] at hx hy; exact h.inj x y r hx hy
      · intro r hs'; rw [hs] at hs'; exact Option.some.inj hs'
    · rename_i hs
      have hnone : refOf st (ch, k) = Option.none := by simp [refOf, hi, hs]
      refine key _ (st.heap ++ [([], [])]) ?_ ?_ ?_ ?_
      · intro x r hx
        split at hx
        · rename_i e; subst e
          obtain rfl := Option.some.inj hx
          simp [h.none _ hnone]
        · rw [List.getElem?_append_left (refInv_lt h hx)]; exact h.held x r hx
      · intro x hx
        split at hx
        · cases hx
        · exact h.none x hx
      · intro x y r hx hy
        split at hx
        · split at hy
          · rename_i e1 e2; rw [← e1, ← e2]
          · obtain rfl := Option.some.inj hx
            exact absurd (refInv_lt h hy) (lt_irrefl _)
        · split at hy
          · obtain rfl := Option.some.inj hy
            exact absurd (refInv_lt h hx) (lt_irrefl _)
          · exact h.inj x y r hx hy
      · intro r hs'; rw [hs] at hs'; cases hs'

theorem act_refInv (drum k : Nat) (tt : Int → ℚ) (st : LoadSt) (B) (h : RefInv st B) (a : Act) (ha : actZero a) :
    RefInv (st.act drum k tt a) (bump tt k a B) := by
  cases a with
  | note e =>
    have hb : bump tt k (.note e) B = B := by
      funext x; simp [bump, actBend, actControl]
    rw [hb]
    simp only [LoadSt.act]
    rw [show e.program = 0 from ha]
    exact addNote_refInv drum k st B h e.channel _
  | name s =>
    have hb : bump tt k (.name s) B = B := by
      funext x; simp [bump, actBend, actControl]
    rw [hb]
    exact ⟨h.zero, h.nodup, h.agree, h.held, h.none, h.inj⟩
  | bend p ch pitch t =>
    obtain rfl : p = 0 := ha
    obtain ⟨h1, h2⟩ := eventRef_inv k st B h ch
    refine modify_inv (st.eventRef k 0 ch).1 B _ h1 (ch, k) (st.eventRef k 0 ch).2 h2 _ ?_ ?_
    · simp [bump, actBend, actControl]
    · intro y hy
      unfold bump
      split
      · rename_i hk
        have hne : ch ≠ y.1 := by
          intro he; apply hy; obtain ⟨a, b⟩ := y; simp only at he hk; rw [he, hk]
        simp [actBend, actControl, hne]
      · rfl
  | control p ch num val t =>
    obtain rfl : p = 0 := ha
    obtain ⟨h1, h2⟩ := eventRef_inv k st B h ch
    refine modify_inv (st.eventRef k 0 ch).1 B _ h1 (ch, k) (st.eventRef k 0 ch).2 h2 _ ?_ ?_
    · simp [bump, actBend, actControl]
    · intro y hy
      unfold bump
      split
      · rename_i hk
        have hne : ch ≠ y.1 := by
          intro he; apply hy; obtain ⟨a, b⟩ := y; simp only at he hk; rw [he, hk]
        simp [actBend, actControl, hne]
      · rfl

theorem acts_refInv (drum k : Nat) (tt : Int → ℚ) : ∀ (acts : List Act) (st : LoadSt) (B),
    RefInv st B → (∀ a ∈ acts, actZero a) →
    RefInv (acts.foldl (fun st a => st.act drum k tt a) st) (fun x =>
      if x.2 = k then ((B x).1 ++ acts.filterMap (actBend tt x.1), (B x).2 ++ acts.filterMap (actControl tt x.1))
      else B x) := by
  intro acts
  induction acts with
  | nil =>
    intro st B h _
    have : (fun x : Nat × Nat => if x.2 = k then ((B x).1 ++ ([] : List Act).filterMap (actBend tt x.1),
        (B x).2 ++ ([] : List Act).filterMap (actControl tt x.1)) else B x) = B := by
      funext x; simp
    rw [this]; exact h
  | cons a acts ih =>
    intro st B h hz
    have := ih _ _ (act_refInv drum k tt st B h a (hz a (by simp))) (fun x hx => hz x (by simp [hx]))
    rw [List.foldl_cons]
    refine cast ?_ this
    congr 1
    funext x
    unfold bump
    by_cases hx : x.2 = k
    · simp only [hx, if_true, List.append_assoc]
      congr 2
      · cases hb : actBend tt x.1 a with
        | none => rw [List.filterMap_cons_none hb]; rfl
        | some v => rw [List.filterMap_cons_some hb]; rfl
      · cases hb : actControl tt x.1 a with
        | none => rw [List.filterMap_cons_none hb]; rfl
        | some v => rw [List.filterMap_cons_some hb]; rfl
    · simp [hx]

/-- What the events of a track without program changes do. -/
theorem loadGo_events (tt : Int → ℚ) : ∀ (es : List Msg) (st : TrackSt) (acts : List Act),
    (∀ e ∈ es, ∀ c q, e.body ≠ .programChange c q) → (∀ p ∈ st.opens, p.2 ≠ []) → st.prog = [] →
    loadGo st es = .ok acts → (∀ a ∈ acts, actZero a) ∧
      (∀ ch, acts.filterMap (actBend tt ch) = Spec.bendsOf tt ch es) ∧
      (∀ ch, acts.filterMap (actControl tt ch) = Spec.controlsOf tt ch es) := by
  intro es
  induction es with
  | nil =>
    intro st acts _ _ _ h
    simp only [loadGo, Except.ok.injEq] at h
    subst h
    exact ⟨by simp, fun ch => rfl, fun ch => rfl⟩
  | cons e es ih =>
    intro st acts hpc hne hprog hload
    have hz : ∀ ch, st.program ch = 0 := by intro ch; simp [TrackSt.program, hprog, dget]
    have key : ∀ st' as, loadStep st e = .ok (st', as) → (∀ p ∈ st'.opens, p.2 ≠ []) → st'.prog = [] →
        (∀ a ∈ as, actZero a) →
        (∀ ch, as.filterMap (actBend tt ch) = Spec.bendsOf tt ch [e]) →
        (∀ ch, as.filterMap (actControl tt ch) = Spec.controlsOf tt ch [e]) →
        (∀ a ∈ acts, actZero a) ∧
          (∀ ch, acts.filterMap (actBend tt ch) = Spec.bendsOf tt ch (e :: es)) ∧
          (∀ ch, acts.filterMap (actControl tt ch) = Spec.controlsOf tt ch (e :: es)) := by
      intro st' as h1 h2 h3 h4 h5 h6
      simp only [loadGo, h1, bind, Except.bind] at hload
      cases hm : loadGo st' es with
      | error x => rw [hm] at hload; cases hload
      | ok more =>
        rw [hm] at hload
        simp only [Except.ok.injEq] at hload
        subst hload
        obtain ⟨g1, g2, g3⟩ := ih st' more (fun x hx => hpc x (by simp [hx])) h2 h3 hm
        refine ⟨?_, ?_, ?_⟩
        · intro a ha
          rcases List.mem_append.1 ha with ha | ha
          · exact h4 a ha
          · exact g1 a ha
        · intro ch
          rw [List.filterMap_append, h5, g2, show e :: es = [e] ++ es from rfl]
          unfold Spec.bendsOf
          rw [List.filterMap_append]
        · intro ch
          rw [List.filterMap_append, h6, g3, show e :: es = [e] ++ es from rfl]
          unfold Spec.controlsOf
          rw [List.filterMap_append]
    have notes : ∀ (t : Int) (eos : Bool), (∀ a ∈ st.opens.filterMap (finishOne st t eos), actZero a) ∧
        (∀ ch, (st.opens.filterMap (finishOne st t eos)).filterMap (actBend tt ch) = []) ∧
        (∀ ch, (st.opens.filterMap (finishOne st t eos)).filterMap (actControl tt ch) = []) := by
      intro t eos
      have hform : ∀ a ∈ st.opens.filterMap (finishOne st t eos), ∃ x : Emit, a = .note x ∧ x.program = 0 := by
        intro a ha
        obtain ⟨p, hp, hpa⟩ := List.mem_filterMap.1 ha
        unfold finishOne at hpa
        split at hpa
        · cases hpa
        · split at hpa
          · simp only [Option.some.injEq] at hpa
            subst hpa
            exact ⟨_, rfl, hz _⟩
          · cases hpa
      refine ⟨?_, ?_, ?_⟩
      · intro a ha; obtain ⟨x, rfl, hx⟩ := hform a ha; exact hx
      · intro ch; rw [List.filterMap_eq_nil_iff]; intro a ha; obtain ⟨x, rfl, hx⟩ := hform a ha; rfl
      · intro ch; rw [List.filterMap_eq_nil_iff]; intro a ha; obtain ⟨x, rfl, hx⟩ := hform a ha; rfl
    have offs : ∀ (t : Int) (c n : Nat), (noteOff st t c n).1.prog = st.prog ∧
        (∀ a ∈ (noteOff st t c n).2, actZero a) ∧
        (∀ ch, ((noteOff st t c n).2).filterMap (actBend tt ch) = []) ∧
        (∀ ch, ((noteOff st t c n).2).filterMap (actControl tt ch) = []) := by
      intro t c n
      unfold noteOff
      split
      · simp
      · dsimp only
        have hform : ∀ (l : List (Int × Nat)) (a : Act),
            a ∈ l.map (fun p => Act.note ⟨st.program c, c, n, p.2, p.1, t⟩) →
            ∃ x : Emit, a = .note x ∧ x.program = 0 := by
          intro l a ha; obtain ⟨x, _, rfl⟩ := List.mem_map.1 ha; exact ⟨_, rfl, hz _⟩
        split
        · refine ⟨rfl, ?_, ?_, ?_⟩
          · intro a ha; obtain ⟨x, rfl, hx⟩ := hform _ a ha; exact hx
          · intro ch; rw [List.filterMap_eq_nil_iff]; intro a ha; obtain ⟨x, rfl, hx⟩ := hform _ a ha; rfl
          · intro ch; rw [List.filterMap_eq_nil_iff]; intro a ha; obtain ⟨x, rfl, hx⟩ := hform _ a ha; rfl
        · refine ⟨rfl, ?_, ?_, ?_⟩
          · intro a ha; obtain ⟨x, rfl, hx⟩ := hform _ a ha; exact hx
          · intro ch; rw [List.filterMap_eq_nil_iff]; intro a ha; obtain ⟨x, rfl, hx⟩ := hform _ a ha; rfl
          · intro ch; rw [List.filterMap_eq_nil_iff]; intro a ha; obtain ⟨x, rfl, hx⟩ := hform _ a ha; rfl
    obtain ⟨t, body⟩ := e
    cases body with
    | setTempo _ => exact key st [] rfl hne hprog (by simp) (fun _ => rfl) (fun _ => rfl)
    | timeSig _ _ => exact key st [] rfl hne hprog (by simp) (fun _ => rfl) (fun _ => rfl)
    | keySig _ => exact key st [] rfl hne hprog (by simp) (fun _ => rfl) (fun _ => rfl)
    | lyrics _ => exact key st [] rfl hne hprog (by simp) (fun _ => rfl) (fun _ => rfl)
    | other _ => exact key st [] rfl hne hprog (by simp) (fun _ => rfl) (fun _ => rfl)
    | trackName s => exact key st [.name s] rfl hne hprog (by simp [actZero]) (fun _ => rfl) (fun _ => rfl)
    | programChange c q => exact absurd rfl (hpc ⟨t, .programChange c q⟩ (by simp) c q)
    | pitchwheel c p =>
      refine key st _ rfl hne hprog ?_ ?_ ?_
      · intro a ha; simp only [List.mem_singleton] at ha; subst ha; exact hz c
      · intro ch; simp [actBend, Spec.bendsOf, List.filterMap_cons]
      · intro ch; simp [actControl, Spec.controlsOf]
    | controlChange c num val =>
      refine key st _ rfl hne hprog ?_ ?_ ?_
      · intro a ha; simp only [List.mem_singleton] at ha; subst ha; exact hz c
      · intro ch; simp [actBend, Spec.bendsOf]
      · intro ch; simp [actControl, Spec.controlsOf, List.filterMap_cons]
    | noteOff c n v =>
      obtain ⟨o1, o2, o3, o4⟩ := offs t c n
      exact key (noteOff st t c n).1 (noteOff st t c n).2 rfl (noteOff_nonempty st t c n hne) (by rw [o1, hprog]) o2 o3 o4
    | endOfTrack =>
      obtain ⟨o1, o2, o3⟩ := notes t true
      exact key _ _ (finishNotes_eq st t true hne) (filter_ne_nil_of _ _ hne) hprog o1 o2 o3
    | noteOn c n v =>
      by_cases hv : 0 < v
      · obtain ⟨o1, o2, o3⟩ := notes t false
        refine key ⟨dset (st.opens.filter (fun p => !finishes t false p)) (c, n)
            ((dget (st.opens.filter (fun p => !finishes t false p)) (c, n)).getD [] ++ [(t, v)]), st.prog⟩
            (st.opens.filterMap (finishOne st t false)) ?_ ?_ hprog o1 o2 o3
        · unfold loadStep
          simp only [hv, if_true, finishNotes_eq st t false hne, bind, Except.bind]
        · intro p hp
          rcases mem_dset hp with rfl | hp
          · simp
          · exact filter_ne_nil_of _ _ hne p hp
      · obtain ⟨o1, o2, o3, o4⟩ := offs t c n
        refine key (noteOff st t c n).1 (noteOff st t c n).2 ?_ (noteOff_nonempty st t c n hne)
          (by rw [o1, hprog]) o2 o3 o4
        simp only [loadStep, hv, if_false]

theorem loadTracks_refInv (drum : Nat) (tt : Int → ℚ) : ∀ (ts : List (List Msg)) (k : Nat) (st : LoadSt) (B) (st' : LoadSt),
    RefInv st B → (∀ x, k ≤ x.2 → B x = ([], [])) →
    (∀ t ∈ ts, ∀ e ∈ t, ∀ c q, e.body ≠ .programChange c q) → loadTracks drum tt k st ts = .ok st' →
    RefInv st' (fun x => if x.2 < k then B x else
      (Spec.bendsOf tt x.1 (ts.getD (x.2 - k) []), Spec.controlsOf tt x.1 (ts.getD (x.2 - k) []))) := by
  intro ts
  induction ts with
  | nil =>
    intro k st B st' h hB _ hl
    simp only [loadTracks, Except.ok.injEq] at hl
    subst hl
    refine cast ?_ h
    congr 1
    funext x
    split
    · rfl
    · rename_i hx
      rw [hB x (by omega)]; simp [Spec.bendsOf, Spec.controlsOf]
  | cons t ts ih =>
    intro k st B st' h hB hpc hl
    obtain ⟨acts, ha⟩ := loadGo_ok t ⟨[], []⟩ (by simp)
    simp only [loadTracks, loadTrack, ha, bind, Except.bind] at hl
    obtain ⟨z1, z2, z3⟩ := loadGo_events tt t ⟨[], []⟩ acts (hpc t (by simp)) (by simp) rfl ha
    have h1 := acts_refInv drum k tt acts st B h z1
    have h2 := ih (k + 1) _ _ st' h1 (by
      intro x hx
      simp only [if_neg (show ¬ x.2 = k by omega)]
      exact hB x (by omega)) (fun u hu => hpc u (by simp [hu])) hl
    refine cast ?_ h2
    congr 1
    funext x
    by_cases hlt : x.2 < k
    · simp only [show x.2 < k + 1 by omega, if_true, hlt, if_neg (show ¬ x.2 = k by omega)]
    · by_cases heq : x.2 = k
      · simp only [show x.2 < k + 1 by omega, if_true, heq, lt_irrefl, if_false, Nat.sub_self,
          List.getD_cons_zero, z2, z3]
        rw [hB x (by omega)]; simp
      · simp only [show ¬ x.2 < k + 1 by omega, hlt, if_false]
        rw [show x.2 - k = (x.2 - (k + 1)) + 1 by omega, List.getD_cons_succ]

/-- **C98, one program per channel.** In a file without program changes every loaded instrument stands for
one channel of one track (no two for the same), and its control changes and pitch bends are exactly those
of this channel in this track, in order: none shared, none taken from another channel. -/
theorem C98_single_owner (drum : Nat) (tt : Int → ℚ) (tracks : List (List Msg))
    (hpc : ∀ t ∈ tracks, ∀ e ∈ t, ∀ c q, e.body ≠ .programChange c q) :
    ∃ insts owners, loadInstruments drum tt tracks = .ok insts ∧ (owners : List (Nat × Nat)).Nodup ∧
      owners.length = insts.length ∧
      ∀ (j : Nat) (i : PInst), insts[j]? = some i → ∃ ch k, owners[j]? = some (ch, k) ∧
        i.controls = Spec.controlsOf tt ch (tracks.getD k []) ∧ i.bends = Spec.bendsOf tt ch (tracks.getD k []) := by
  obtain ⟨st, hst⟩ := loadTracks_ok drum tt tracks 0 ⟨[], [], [], []⟩
  have hinv : RefInv ⟨[], [], [], []⟩ (fun _ => ([], [])) :=
    ⟨by simp, by simp [dkeys], by simp [dget], by simp [refOf, dget], by simp, by simp [refOf, dget]⟩
  have h := loadTracks_refInv drum tt tracks 0 _ _ st hinv (fun _ _ => rfl) hpc hst
  refine ⟨st.insts.map (fun p => p.2.freeze st.heap), st.insts.map (fun p => p.1.2), ?_, ?_, by simp, ?_⟩
  · unfold loadInstruments; rw [hst]; rfl
  · have hn := h.nodup
    unfold dkeys at hn
    have : st.insts.map (fun p => p.1) = (st.insts.map (fun p => p.1.2)).map (fun x => (0, x)) := by
      rw [List.map_map]
      apply List.map_congr_left
      intro p hp
      have := h.zero p hp
      obtain ⟨⟨a, b⟩, c⟩ := p
      simp only at this
      simp [this]
    rw [this] at hn
    exact hn.of_map _
  · intro j i hj
    rw [List.getElem?_map] at hj
    cases hp : st.insts[j]? with
    | none => rw [hp] at hj; cases hj
    | some p =>
      rw [hp] at hj
      simp only [Option.map_some, Option.some.injEq] at hj
      obtain ⟨⟨z, ch, k⟩, li⟩ := p
      have hmem := List.mem_of_getElem? hp
      have hz := h.zero _ hmem
      simp only at hz
      subst hz
      have hg := dget_of_mem st.insts h.nodup (0, ch, k) li hmem
      have hr : refOf st (ch, k) = some li.ref := by simp [refOf, hg]
      have hh := h.held (ch, k) li.ref hr
      refine ⟨ch, k, by rw [List.getElem?_map, hp]; rfl, ?_⟩
      subst hj
      simp only [LInst.freeze, List.getD_eq_getElem?_getD, hh]
      simp

/-- A concrete file: two channels, no program change. -/
example : loadInstruments 9 (fun t => (t : ℚ)) [[⟨0, .controlChange 0 64 127⟩, ⟨0, .noteOn 0 60 64⟩,
    ⟨1, .pitchwheel 1 5⟩, ⟨2, .noteOn 1 50 60⟩, ⟨3, .noteOff 1 50 0⟩, ⟨4, .controlChange 0 64 0⟩, ⟨5, .endOfTrack⟩]] =
    .ok [⟨0, false, "", [⟨64, 60, 0, 2⟩], [], [(64, 127, 0), (64, 0, 4)]⟩,
         ⟨0, false, "", [⟨60, 50, 2, 3⟩], [(5, 1)], []⟩] := by decide +kernel

/-! ### C95: tempos that are not whole microseconds -/

/-- **C95, other tempos lose less than a microsecond per quarter note.** The tempo written for any positive
scale is the number of microseconds per quarter note, rounded down. -/
theorem C95_written_tempo (res : Nat) (s : ℚ) (hr : 0 < res) (hs : 0 < s) :
    ∃ t, writtenTempo res s = .ok t ∧ (t : ℚ) ≤ s * res * 1000000 ∧ s * res * 1000000 < t + 1 := by
  have h1 : (0 : ℚ) < res := by exact_mod_cast hr
  have h2 : 0 < s * res := mul_pos hs h1
  have h3 : (60000000 : ℚ) / (60 / (s * res)) = s * res * 1000000 := by field_simp; norm_num
  have h4 : (0 : ℚ) ≤ s * res * 1000000 := by positivity
  unfold writtenTempo
  rw [if_neg (ne_of_gt h2), h3]
  refine ⟨_, rfl, ?_⟩
  unfold pyInt
  rw [if_pos h4]
  have h5 : (0 : Int) ≤ ⌊s * res * 1000000⌋ := Int.floor_nonneg.2 h4
  have h6 : ((⌊s * res * 1000000⌋.toNat : Nat) : ℚ) = (⌊s * res * 1000000⌋ : ℚ) := by
    have : ((⌊s * res * 1000000⌋.toNat : Nat) : Int) = ⌊s * res * 1000000⌋ := Int.toNat_of_nonneg h5
    exact_mod_cast this
  rw [h6]
  exact ⟨Int.floor_le _, Int.lt_floor_add_one _⟩

/-- At 130 quarter notes per minute the written tempo is not the tempo of the object. -/
example : (writtenTempo 220 (60 / (130 * 220))).map (fun t => decide (Spec.perTick 220 t = 60 / (130 * 220))) =
    .ok false := by decide +kernel

end NGC
