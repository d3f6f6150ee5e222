import Mathlib.Data.List.Permutation
import Verif.PrettyMidiProps2

/-! Properties C59 (order of serialized events), C55 at file level, C95 (tempo map round trip), and the
file-level totality of loading. -/

namespace NGC

/-! ### Sorting with a comparator -/

/-- What is assumed of `sorted(l, key=cmp_to_key(cmp))`: the result is a permutation, and it is sorted
with respect to every strict weak order `lt0` that the comparisons respect (a pair ordered by `lt0` is
ordered the same way by the comparator). This holds of every insertion or merge sort, also when the
comparator itself is not transitive; `insertion_isCmpSort` shows it for one. -/
structure IsCmpSort {α : Type} (lt : α → α → Bool) (srt : List α → List α) : Prop where
  perm : ∀ l, (srt l).Perm l
  sorted : ∀ l (lt0 : α → α → Bool), StrictWeakOn lt0 l →
    (∀ a ∈ l, ∀ b ∈ l, lt0 a b = true → lt a b = true ∧ lt b a = false) → SortedLt lt0 (srt l)

theorem IsCmpSort.isPySort {α : Type} {lt : α → α → Bool} {srt : List α → List α}
    (h : IsCmpSort lt srt) : IsPySort lt srt :=
  ⟨h.perm, fun l hw => h.sorted l lt hw (fun a ha b hb hab => ⟨hab, hw.1 a ha b hb hab⟩)⟩

/-- Insertion before the first greater element. -/
def insBy {α : Type} (lt : α → α → Bool) (x : α) : List α → List α
  | [] => [x]
  | y :: ys => if lt x y then x :: y :: ys else y :: insBy lt x ys

def insSort {α : Type} (lt : α → α → Bool) (l : List α) : List α := l.foldl (fun acc x => insBy lt x acc) []

theorem insBy_perm {α : Type} (lt : α → α → Bool) (x : α) (l : List α) : (insBy lt x l).Perm (x :: l) := by
  induction l with
  | nil => exact List.Perm.refl _
  | cons y ys ih =>
    rw [insBy]
    split
    · exact List.Perm.refl _
    · exact (List.Perm.cons y ih).trans (List.Perm.swap _ _ _)

theorem insBy_sorted {α : Type} (lt lt0 : α → α → Bool) (x : α) (l : List α)
    (hw : StrictWeakOn lt0 (x :: l))
    (hr : ∀ a ∈ x :: l, ∀ b ∈ x :: l, lt0 a b = true → lt a b = true ∧ lt b a = false)
    (hs : SortedLt lt0 l) : SortedLt lt0 (insBy lt x l) := by
  induction l with
  | nil => simp [insBy, SortedLt]
  | cons y ys ih =>
    unfold SortedLt at hs ⊢
    rw [List.pairwise_cons] at hs
    rw [insBy]
    split
    · rename_i hxy
      have hyx : lt0 y x = false := by
        by_contra hc
        have hc' : lt0 y x = true := by simpa using hc
        have := (hr y (by simp) x (by simp) hc').2
        rw [hxy] at this; cases this
      rw [List.pairwise_cons, List.pairwise_cons]
      refine ⟨?_, hs⟩
      intro z hz
      rcases List.mem_cons.1 hz with rfl | hz
      · exact hyx
      · by_contra hc
        have hc' : lt0 z x = true := by simpa using hc
        rcases hw.2 z (by simp [hz]) y (by simp) x (by simp) hc' with h | h
        · rw [hs.1 z hz] at h; cases h
        · rw [hyx] at h; cases h
    · rename_i hxy
      rw [List.pairwise_cons]
      refine ⟨?_, ?_⟩
      · intro z hz
        rw [(insBy_perm lt x ys).mem_iff] at hz
        rcases List.mem_cons.1 hz with rfl | hz
        · by_contra hc
          have hc' : lt0 z y = true := by simpa using hc
          exact hxy (hr z (by simp) y (by simp) hc').1
        · exact hs.1 z hz
      · refine ih (hw.mono ?_) ?_ hs.2
        · intro z hz
          rcases List.mem_cons.1 hz with rfl | hz <;> simp [*]
        · intro a ha b hb
          refine hr a ?_ b ?_
          · rcases List.mem_cons.1 ha with rfl | ha <;> simp [*]
          · rcases List.mem_cons.1 hb with rfl | hb <;> simp [*]

/-- The assumption is met: insertion sort is such a sort, for every comparator. -/
theorem insertion_isCmpSort {α : Type} (lt : α → α → Bool) : IsCmpSort lt (insSort lt) := by
  have hperm : ∀ (l acc : List α), (l.foldl (fun acc x => insBy lt x acc) acc).Perm (l ++ acc) := by
    intro l
    induction l with
    | nil => intro acc; exact List.Perm.refl _
    | cons x l ih =>
      intro acc
      rw [List.foldl_cons]
      refine (ih _).trans ?_
      exact ((insBy_perm lt x acc).append_left l).trans List.perm_middle
  refine ⟨fun l => by simpa [insSort] using hperm l [], ?_⟩
  intro l lt0 hw hr
  suffices gen : ∀ (l acc : List α), StrictWeakOn lt0 (l ++ acc) →
      (∀ a ∈ l ++ acc, ∀ b ∈ l ++ acc, lt0 a b = true → lt a b = true ∧ lt b a = false) →
      SortedLt lt0 acc → SortedLt lt0 (l.foldl (fun acc x => insBy lt x acc) acc) by
    exact gen l [] (by simpa using hw) (by simpa using hr) (by simp [SortedLt])
  intro l
  induction l with
  | nil => intro acc _ _ h; exact h
  | cons x l ih =>
    intro acc hw hr hs
    have hsub : ∀ z ∈ x :: acc, z ∈ x :: l ++ acc := by
      intro z hz
      rcases List.mem_cons.1 hz with rfl | hz <;> simp [*]
    have hsub2 : ∀ z ∈ l ++ insBy lt x acc, z ∈ x :: l ++ acc := by
      intro z hz
      rcases List.mem_append.1 hz with hz | hz
      · simp [hz]
      · rw [(insBy_perm lt x acc).mem_iff] at hz
        exact hsub z hz
    rw [List.foldl_cons]
    exact ih _ (hw.mono hsub2) (fun a ha b hb => hr a (hsub2 a ha) b (hsub2 b hb))
      (insBy_sorted lt lt0 x acc (hw.mono hsub) (fun a ha b hb => hr a (hsub a ha) b (hsub b hb)) hs)

/-! ## C59: the comparator -/

theorem eventLt_iff (a b : Msg) (x y : Int) (hx : secondary a.body = some x) (hy : secondary b.body = some y) :
    eventLt a b = true ↔ a.time < b.time ∨ (a.time = b.time ∧ x < y) := by
  unfold eventLt eventCompare
  rw [hx, hy, decide_eq_true_eq]
  split
  · rename_i h
    simp only
    omega
  · omega

/-- Every comparison respects the tick order. -/
theorem eventLt_time (a b : Msg) (h : a.time < b.time) : eventLt a b = true ∧ eventLt b a = false := by
  have h1 : ¬ a.time = b.time := by omega
  have h2 : ¬ b.time = a.time := by omega
  simp only [eventLt, eventCompare, if_neg h1, if_neg h2]
  exact ⟨decide_eq_true (by omega), decide_eq_false (by omega)⟩

theorem time_weak (l : List Msg) : StrictWeakOn (fun a b : Msg => decide (a.time < b.time)) l := by
  constructor
  · intro a _ b _ h
    simp only [decide_eq_true_eq, decide_eq_false_iff_not] at *
    omega
  · intro a _ b _ c _ h
    simp only [decide_eq_true_eq] at *
    omega

/-- **C59, the comparator is consistent.** On events of the types in its dictionary the comparison is a
strict weak order: the lexicographic order of tick and weight. -/
theorem C59_comparator_consistent (l : List Msg) (hk : ∀ a ∈ l, secondary a.body ≠ none) :
    StrictWeakOn eventLt l := by
  have hsome : ∀ a ∈ l, ∃ x, secondary a.body = some x := fun a ha => Option.ne_none_iff_exists'.1 (hk a ha)
  constructor
  · intro a ha b hb h
    obtain ⟨x, hx⟩ := hsome a ha
    obtain ⟨y, hy⟩ := hsome b hb
    rw [eventLt_iff a b x y hx hy] at h
    rw [← Bool.not_eq_true, eventLt_iff b a y x hy hx]
    omega
  · intro a ha b hb c hc h
    obtain ⟨x, hx⟩ := hsome a ha
    obtain ⟨y, hy⟩ := hsome b hb
    obtain ⟨z, hz⟩ := hsome c hc
    rw [eventLt_iff a c x z hx hz] at h
    rw [eventLt_iff a b x y hx hy, eventLt_iff b c y z hy hz]
    omega

/-- **C59, not with track names.** A track name (an event type outside the dictionary) makes the
comparison inconsistent: at one tick it is "equal" to a program change and to a note-on, which are not
equal to each other. -/
theorem C59_track_name_inconsistent (t : Int) (s : String) (ch p n v : Nat) :
    ¬ StrictWeakOn eventLt [⟨t, .programChange ch p⟩, ⟨t, .trackName s⟩, ⟨t, .noteOn ch n v⟩] := by
  intro h
  have h1 : eventLt ⟨t, .programChange ch p⟩ ⟨t, .noteOn ch n v⟩ = true := by
    simp only [eventLt, eventCompare, if_true, secondary, decide_eq_true_eq]; omega
  rcases h.2 ⟨t, .programChange ch p⟩ (by simp) ⟨t, .trackName s⟩ (by simp) ⟨t, .noteOn ch n v⟩ (by simp) h1 with h | h
  · simp [eventLt, eventCompare, secondary] at h
  · simp [eventLt, eventCompare, secondary] at h

namespace Spec

/-- The documented order of the event types at one tick. -/
def rank : Body → Nat
  | .setTempo _ => 1
  | .timeSig _ _ => 2
  | .keySig _ => 3
  | .lyrics _ => 4
  | .programChange _ _ => 5
  | .pitchwheel _ _ => 6
  | .controlChange _ _ _ => 7
  | .noteOff _ _ _ => 8
  | .noteOn _ _ _ => 9
  | .endOfTrack => 10
  | .trackName _ => 0
  | .other _ => 0

/-- The value ranges of MIDI messages. -/
def InRange : Body → Prop
  | .pitchwheel _ p => -8192 ≤ p ∧ p ≤ 8191
  | .controlChange _ c v => c ≤ 127 ∧ v ≤ 127
  | .noteOff _ n _ => n ≤ 127
  | .noteOn _ n v => n ≤ 127 ∧ v ≤ 127
  | _ => True

/-- The documented order of two events of one type at one tick: bends by value, control changes by controller and
then value, notes by pitch and then velocity. -/
def inOrder : Body → Body → Prop
  | .pitchwheel _ p, .pitchwheel _ q => p ≤ q
  | .controlChange _ c v, .controlChange _ d w => c < d ∨ (c = d ∧ v ≤ w)
  | .noteOff _ n _, .noteOff _ m _ => n ≤ m
  | .noteOn _ n v, .noteOn _ m w => n < m ∨ (n = m ∧ v ≤ w)
  | _, _ => True

/-- An event list is well ordered: ticks in order; at one tick types in their documented order, a
note-off (a note-on of velocity 0) never after a note-on of the same pitch, and events of one type by their values. -/
def WellOrdered (l : List Msg) : Prop :=
  l.Pairwise (fun a b => a.time ≤ b.time ∧ (a.time = b.time → rank a.body ≤ rank b.body ∧
    (∀ ch ch' n v, a.body = .noteOn ch n v → b.body = .noteOn ch' n 0 → v = 0) ∧ inOrder a.body b.body))

end Spec

/-- The weights separate the types. -/
theorem secondary_rank (a b : Body) (x y : Int) (ha : secondary a = some x) (hb : secondary b = some y)
    (ra : Spec.InRange a) (rb : Spec.InRange b) (h : x ≤ y) : Spec.rank a ≤ Spec.rank b := by
  have bound : ∀ (c : Body) (z : Int), secondary c = some z → Spec.InRange c →
      (Spec.rank c : Int) * 65536 - 8192 ≤ z ∧ z < (Spec.rank c : Int) * 65536 + 32768 := by
    intro c z hz hr
    cases c <;> simp only [secondary, Option.some.injEq, reduceCtorEq] at hz <;>
      simp only [Spec.rank, Spec.InRange] at * <;> push_cast <;> omega
  have h1 := bound a x ha ra
  have h2 := bound b y hb rb
  omega

/-- **C59, order of sorted events.** Sorting events of known types with values in MIDI range puts them
in the documented order. -/
theorem C59_sorted_order (srt : List Msg → List Msg) (hsrt : IsPySort eventLt srt) (l : List Msg)
    (hk : ∀ a ∈ l, secondary a.body ≠ none) (hr : ∀ a ∈ l, Spec.InRange a.body) :
    Spec.WellOrdered (srt l) := by
  have hs := hsrt.sorted l (C59_comparator_consistent l hk)
  unfold SortedLt at hs
  unfold Spec.WellOrdered
  refine List.Pairwise.imp_of_mem ?_ hs
  intro a b ha hb h
  rw [(hsrt.perm l).mem_iff] at ha hb
  obtain ⟨x, hx⟩ := Option.ne_none_iff_exists'.1 (hk a ha)
  obtain ⟨y, hy⟩ := Option.ne_none_iff_exists'.1 (hk b hb)
  rw [← Bool.not_eq_true, eventLt_iff b a y x hy hx] at h
  refine ⟨by omega, fun ht => ?_⟩
  have hxy : x ≤ y := by omega
  refine ⟨secondary_rank _ _ x y hx hy (hr a ha) (hr b hb) hxy, ?_, ?_⟩
  · intro ch ch' n v e1 e2
    rw [e1] at hx
    rw [e2] at hy
    simp only [secondary, Option.some.injEq] at hx hy
    omega
  · have hra := hr a ha
    have hrb := hr b hb
    cases hba : a.body <;> cases hbb : b.body <;> try trivial
    all_goals
      rw [hba] at hx hra
      rw [hbb] at hy hrb
      simp only [secondary, Option.some.injEq, Spec.InRange] at hx hy hra hrb
      simp only [Spec.inOrder]
      omega

/-! ### The note-off loop does nothing on sorted tracks -/

theorem swapGo_noop : ∀ (ps : List (Msg × Msg)) (i : Nat) (track : List Msg),
    (∀ p ∈ ps, ∀ ch ch' n v, p.1.body = .noteOn ch n v → p.2.body = .noteOn ch' n 0 →
      p.1.time = p.2.time → v = 0) → swapGo i ps track = track := by
  intro ps
  induction ps with
  | nil => intro i track _; rfl
  | cons p ps ih =>
    intro i track h
    obtain ⟨a, b⟩ := p
    rw [swapGo]
    have hno : isSwap a b = false := by
      unfold isSwap
      split
      · rename_i ch n v ch' n' v' h1 h2
        rw [decide_eq_false_iff_not]
        rintro ⟨g1, rfl, g3, rfl⟩
        exact g3 (h (a, b) (by simp) _ _ _ _ h1 h2 g1)
      · rfl
    simp only [hno, Bool.false_eq_true, if_false]
    exact ih (i + 1) track (fun q hq => h q (by simp [hq]))

theorem mem_zip_tail {α : Type} : ∀ (l : List α) (R : α → α → Prop), l.Pairwise R →
    ∀ p ∈ l.zip l.tail, R p.1 p.2 := by
  intro l
  induction l with
  | nil => intro R _ p hp; simp at hp
  | cons x l ih =>
    intro R h p hp
    rw [List.pairwise_cons] at h
    cases l with
    | nil => simp at hp
    | cons y l =>
      simp only [List.tail_cons, List.zip_cons_cons, List.mem_cons] at hp
      rcases hp with rfl | hp
      · exact h.1 y (by simp)
      · exact ih R h.2 p hp

theorem swapOffs_noop (l : List Msg) (h : Spec.WellOrdered l) : swapOffs l = l := by
  unfold swapOffs
  apply swapGo_noop
  intro p hp ch ch' n v h1 h2 h3
  have := mem_zip_tail l _ h p hp
  exact (this.2 h3).2.1 ch ch' n v h1 h2

/-! ### Ticks of serialized tracks -/

theorem mapM_ok {α β : Type} (f : α → Py β) (g : β → Prop) : ∀ (l : List α),
    (∀ a ∈ l, ∃ b, f a = .ok b ∧ g b) → ∃ bs, l.mapM f = .ok bs ∧ ∀ b ∈ bs, g b := by
  intro l
  induction l with
  | nil => intro _; exact ⟨[], rfl, by simp⟩
  | cons a l ih =>
    intro h
    obtain ⟨b, h1, h2⟩ := h a (by simp)
    obtain ⟨bs, g1, g2⟩ := ih (fun x hx => h x (by simp [hx]))
    refine ⟨b :: bs, by rw [List.mapM_cons]; simp only [h1, g1, bind, Except.bind, pure, Except.pure], ?_⟩
    intro x hx
    rcases List.mem_cons.1 hx with rfl | hx
    · exact h2
    · exact g2 x hx

namespace Spec

/-- The values of an instrument are in MIDI range. -/
structure GoodInst (i : PInst) : Prop where
  notes : ∀ n ∈ i.notes, n.pitch ≤ 127 ∧ n.velocity ≤ 127
  bends : ∀ b ∈ i.bends, -8192 ≤ b.1 ∧ b.1 ≤ 8191
  controls : ∀ b ∈ i.controls, b.1 ≤ 127 ∧ b.2.1 ≤ 127

end Spec

/-- What the events of an instrument look like. -/
def GoodEv (m : Msg) : Prop := 0 ≤ m.time ∧ Spec.InRange m.body

theorem instEvents_ok (c : Clock) (h : ClockOk c) (ch : Nat) (i : PInst) (hi : Spec.GoodInst i) :
    ∃ evs, instEvents c ch i = .ok evs ∧ evs ≠ [] ∧ (∀ m ∈ evs, GoodEv m) ∧
      (i.name = "" → ∀ m ∈ evs, secondary m.body ≠ none) := by
  have ht : ∀ t, ∃ k : Nat, c.timeToTick t = .ok (k : Int) := fun t => by
    obtain ⟨k, hk, _⟩ := C57_nearest c h t
    exact ⟨k, hk⟩
  let P : Msg → Prop := fun m => GoodEv m ∧ secondary m.body ≠ none
  obtain ⟨ns, n1, n2⟩ := mapM_ok (fun n : PNote => do
    let a ← c.timeToTick n.start
    let b ← c.timeToTick n.stop
    pure [(⟨a, .noteOn ch n.pitch n.velocity⟩ : Msg), ⟨b, .noteOn ch n.pitch 0⟩]) (fun l => ∀ m ∈ l, P m) i.notes (by
      intro n hn
      obtain ⟨a, ha⟩ := ht n.start
      obtain ⟨b, hb⟩ := ht n.stop
      refine ⟨[⟨(a : Int), .noteOn ch n.pitch n.velocity⟩, ⟨(b : Int), .noteOn ch n.pitch 0⟩],
        by simp only [ha, hb, bind, Except.bind, pure, Except.pure], ?_⟩
      have hr := hi.notes n hn
      intro m hm
      simp only [List.mem_cons, List.not_mem_nil, or_false] at hm
      rcases hm with rfl | rfl
      · exact ⟨⟨by simp, hr⟩, by simp [secondary]⟩
      · exact ⟨⟨by simp, ⟨hr.1, by omega⟩⟩, by simp [secondary]⟩)
  obtain ⟨bs, b1, b2⟩ := mapM_ok (fun b : Int × ℚ => do
    let t ← c.timeToTick b.2
    pure (⟨t, .pitchwheel ch b.1⟩ : Msg)) P i.bends (by
      intro b hb
      obtain ⟨a, ha⟩ := ht b.2
      exact ⟨⟨(a : Int), .pitchwheel ch b.1⟩, by simp only [ha, bind, Except.bind, pure, Except.pure],
        ⟨⟨by simp, hi.bends b hb⟩, by simp [secondary]⟩⟩)
  obtain ⟨cs, c1, c2⟩ := mapM_ok (fun b : Nat × Nat × ℚ => do
    let t ← c.timeToTick b.2.2
    pure (⟨t, .controlChange ch b.1 b.2.1⟩ : Msg)) P i.controls (by
      intro b hb
      obtain ⟨a, ha⟩ := ht b.2.2
      exact ⟨⟨(a : Int), .controlChange ch b.1 b.2.1⟩, by simp only [ha, bind, Except.bind, pure, Except.pure],
        ⟨⟨by simp, hi.controls b hb⟩, by simp [secondary]⟩⟩)
  have hmem : ∀ m ∈ [(⟨0, .programChange ch i.program⟩ : Msg)] ++ ns.flatten ++ bs ++ cs, P m := by
    intro m hm
    simp only [List.mem_append, List.mem_singleton, List.mem_flatten] at hm
    rcases hm with ((rfl | ⟨l, hl, hm⟩) | hm) | hm
    · exact ⟨⟨by simp, trivial⟩, by simp [secondary]⟩
    · exact n2 l hl m hm
    · exact b2 m hm
    · exact c2 m hm
  refine ⟨(if i.name ≠ "" then [⟨0, .trackName i.name⟩] else []) ++ [⟨0, .programChange ch i.program⟩] ++
    ns.flatten ++ bs ++ cs, ?_, by simp, ?_, ?_⟩
  · unfold instEvents
    rw [n1, b1, c1]
    rfl
  · intro m hm
    rw [List.append_assoc, List.append_assoc, List.append_assoc, List.mem_append] at hm
    rcases hm with hm | hm
    · split at hm
      · simp only [List.mem_singleton] at hm
        subst hm
        exact ⟨by simp, trivial⟩
      · simp at hm
    · exact (hmem m (by simpa [List.append_assoc] using hm)).1
  · intro hn m hm
    rw [hn] at hm
    simp only [ne_eq, not_true_eq_false, if_false, List.nil_append] at hm
    exact (hmem m hm).2

theorem addEnd_ok (l : List Msg) (hne : l ≠ []) (hg : ∀ m ∈ l, 0 ≤ m.time)
    (hs : l.Pairwise (fun a b => a.time ≤ b.time)) :
    ∃ e : Msg, addEnd l = .ok (l ++ [⟨e.time + 1, .endOfTrack⟩]) ∧ e ∈ l ∧ (∀ m ∈ l, m.time ≤ e.time) := by
  have hl := List.getLast?_eq_some_getLast hne
  refine ⟨l.getLast hne, by unfold addEnd; rw [hl], List.getLast_mem hne, ?_⟩
  intro m hm
  have hd := List.dropLast_append_getLast hne
  rw [← hd] at hs hm
  rw [List.pairwise_append] at hs
  rcases List.mem_append.1 hm with hm | hm
  · exact hs.2.2 m hm _ (by simp)
  · simp only [List.mem_singleton] at hm
    rw [hm]

/-- **C59, an instrument track.** Serializing an unnamed instrument whose values are in MIDI range never
raises (drum channel in 0..15), and the absolute track is: a permutation of its events in the
documented order, then the end of the track one tick after the last event. -/
theorem C59_instrument_track (srt : List Msg → List Msg) (hsrt : IsPySort eventLt srt) (c : Clock)
    (h : ClockOk c) (drum n : Nat) (hd : drum < 16) (i : PInst) (hi : Spec.GoodInst i) (hname : i.name = "") :
    ∃ ch evs track t, channelOf drum n i.isDrum = .ok ch ∧ instEvents c ch i = .ok evs ∧
      instTrack srt c drum n i = .ok (track ++ [⟨t, .endOfTrack⟩]) ∧ track.Perm evs ∧
      Spec.WellOrdered (track ++ [⟨t, .endOfTrack⟩]) ∧ (∀ m ∈ track, 0 ≤ m.time ∧ m.time < t) := by
  obtain ⟨ch, hch⟩ : ∃ ch, channelOf drum n i.isDrum = .ok ch := by
    unfold channelOf
    rw [if_neg (by omega)]
    split
    · exact ⟨_, rfl⟩
    · have hlen : ((List.range 16).filter (fun c => decide (c ≠ drum))).length = 15 := by
        have : ∀ d, d < 16 → ((List.range 16).filter (fun c => decide (c ≠ d))).length = 15 := by decide
        exact this drum hd
      rw [List.getElem?_eq_getElem (by rw [hlen]; exact Nat.mod_lt _ (by decide))]
      exact ⟨_, rfl⟩
  obtain ⟨evs, e1, e2, e3, e4⟩ := instEvents_ok c h ch i hi
  have hw := C59_sorted_order srt hsrt evs (e4 hname) (fun a ha => (e3 a ha).2)
  have hp := hsrt.perm evs
  have hne : srt evs ≠ [] := by
    intro h0; rw [h0] at hp; exact e2 (List.nil_perm.1 hp)
  have hg : ∀ m ∈ srt evs, 0 ≤ m.time := fun m hm => (e3 m (hp.mem_iff.1 hm)).1
  obtain ⟨e, a1, a2, a3⟩ := addEnd_ok (srt evs) hne hg (hw.imp (fun h => h.1))
  refine ⟨ch, evs, srt evs, e.time + 1, hch, e1, ?_, hp, ?_, ?_⟩
  · unfold instTrack
    simp only [hch, e1, bind, Except.bind, swapOffs_noop _ hw, a1]
  · unfold Spec.WellOrdered
    rw [List.pairwise_append]
    refine ⟨hw, by simp, ?_⟩
    intro a ha b hb
    simp only [List.mem_singleton] at hb
    subst hb
    have := a3 a ha
    refine ⟨by simp only; omega, fun ht => ?_⟩
    simp only at ht
    omega
  · intro m hm
    have := a3 m hm
    exact ⟨hg m hm, by omega⟩

/-- A concrete instrument: two notes of one pitch, the second starting where the first ends. -/
def exPInst : PInst :=
  ⟨3, false, "", [⟨64, 60, 0, 1/2⟩, ⟨70, 60, 1/2, 1⟩], [(100, 1/4)], [(64, 127, 0)]⟩

def exClock : Clock := ⟨2, [(0, 1/4)], [0]⟩

example : ClockOk exClock :=
  ⟨by decide, ⟨⟨_, _, rfl⟩, by simp [exClock], by simp [exClock]⟩, 0, by simp [exClock],
    by simp [exClock, List.range_succ, Spec.seconds]⟩

example : Spec.GoodInst exPInst :=
  ⟨by simp [exPInst], by simp [exPInst], by simp [exPInst]⟩

example : instTrack (insSort eventLt) exClock 9 0 exPInst = .ok
    [⟨0, .programChange 0 3⟩, ⟨0, .controlChange 0 64 127⟩, ⟨0, .noteOn 0 60 64⟩, ⟨1, .pitchwheel 0 100⟩,
     ⟨2, .noteOn 0 60 0⟩, ⟨2, .noteOn 0 60 70⟩, ⟨4, .noteOn 0 60 0⟩, ⟨5, .endOfTrack⟩] := by decide +kernel

/-- **C59, the last of several bends at one tick is lost.** Events of one type at one tick are ordered by value, not as
given: of two bends at one tick the larger is written last, so it is the one in force afterwards even if the smaller was set
last. -/
theorem C59_bends_reordered (srt : List Msg → List Msg) (hsrt : IsPySort eventLt srt) (ch : Nat) (p q : Int) (hpq : q < p)
    (t : Int) :
    srt [⟨t, .pitchwheel ch p⟩, ⟨t, .pitchwheel ch q⟩] = [⟨t, .pitchwheel ch q⟩, ⟨t, .pitchwheel ch p⟩] := by
  have hperm := hsrt.perm [⟨t, .pitchwheel ch p⟩, ⟨t, .pitchwheel ch q⟩]
  have hs := hsrt.sorted [⟨t, .pitchwheel ch p⟩, ⟨t, .pitchwheel ch q⟩]
    (C59_comparator_consistent _ (by simp [secondary]))
  have hlt : eventLt ⟨t, .pitchwheel ch q⟩ ⟨t, .pitchwheel ch p⟩ = true := by
    rw [eventLt_iff _ _ _ _ rfl rfl]; right; exact ⟨rfl, by omega⟩
  rcases (List.perm_pair.1 hperm) with h | h
  · rw [h] at hs
    unfold SortedLt at hs
    simp [hlt] at hs
  · exact h

/-- **C59, a zero-length note is turned round.** If start and end of a note fall on the same tick, its
note-off precedes its note-on in every sorted track: the note is left open. -/
theorem C59_zero_length_reversed (srt : List Msg → List Msg) (hsrt : IsPySort eventLt srt) (ch n v : Nat)
    (hv : 0 < v) (t : Int) :
    srt [⟨t, .noteOn ch n v⟩, ⟨t, .noteOn ch n 0⟩] = [⟨t, .noteOn ch n 0⟩, ⟨t, .noteOn ch n v⟩] := by
  have hp := hsrt.perm [⟨t, .noteOn ch n v⟩, ⟨t, .noteOn ch n 0⟩]
  have hs := hsrt.sorted [⟨t, .noteOn ch n v⟩, ⟨t, .noteOn ch n 0⟩]
    (C59_comparator_consistent _ (by simp [secondary]))
  have hlen := hp.length_eq
  have hlt : eventLt ⟨t, .noteOn ch n 0⟩ ⟨t, .noteOn ch n v⟩ = true := by
    rw [eventLt_iff _ _ _ _ rfl rfl]; right; exact ⟨rfl, by push_cast; omega⟩
  have hne : (⟨t, .noteOn ch n v⟩ : Msg) ≠ ⟨t, .noteOn ch n 0⟩ := by
    intro h; simp at h; omega
  match hm : srt [⟨t, .noteOn ch n v⟩, ⟨t, .noteOn ch n 0⟩] with
  | [] => rw [hm] at hlen; simp at hlen
  | [_] => rw [hm] at hlen; simp at hlen
  | _ :: _ :: _ :: _ => rw [hm] at hlen; simp at hlen
  | [a, b] =>
    rw [hm] at hp hs
    have ha : a ∈ [(⟨t, .noteOn ch n v⟩ : Msg), ⟨t, .noteOn ch n 0⟩] := hp.mem_iff.1 (by simp)
    have hb : b ∈ [(⟨t, .noteOn ch n v⟩ : Msg), ⟨t, .noteOn ch n 0⟩] := hp.mem_iff.1 (by simp)
    have h1 : (⟨t, .noteOn ch n v⟩ : Msg) ∈ [a, b] := hp.mem_iff.2 (by simp)
    have h2 : (⟨t, .noteOn ch n 0⟩ : Msg) ∈ [a, b] := hp.mem_iff.2 (by simp)
    simp only [List.mem_cons, List.not_mem_nil, or_false] at ha hb h1 h2
    unfold SortedLt at hs
    simp only [List.pairwise_cons, List.mem_singleton, forall_eq] at hs
    rcases ha with rfl | rfl
    · rcases h2 with h2 | h2
      · exact absurd h2.symm hne
      · rw [← h2, hlt] at hs; simp at hs
    · rcases h1 with h1 | h1
      · exact absurd h1 hne
      · rw [← h1]

/-! ### Every serialized file has non-negative deltas -/

theorem cmpSort_time (srt : List Msg → List Msg) (hsrt : IsCmpSort eventLt srt) (l : List Msg) :
    (srt l).Pairwise (fun a b => a.time ≤ b.time) := by
  have := hsrt.sorted l (fun a b : Msg => decide (a.time < b.time)) (time_weak l)
    (fun a _ b _ h => eventLt_time a b (by simpa using h))
  unfold SortedLt at this
  refine this.imp ?_
  intro a b h
  simpa using h

theorem swapGo_times : ∀ (ps : List (Msg × Msg)) (i : Nat) (track : List Msg),
    (∀ j (p : Msg × Msg), ps[j]? = some p →
      track.map (fun e => e.time) = track.map (fun e => e.time) ∧
      (track.map (fun e => e.time))[i + j]? = some p.1.time ∧
      (track.map (fun e => e.time))[i + j + 1]? = some p.2.time) →
    (swapGo i ps track).map (fun e => e.time) = track.map (fun e => e.time) := by
  intro ps
  induction ps with
  | nil => intro i track _; rfl
  | cons p ps ih =>
    intro i track h
    obtain ⟨a, b⟩ := p
    rw [swapGo]
    have h0 := (h 0 (a, b) rfl).2
    simp only [Nat.add_zero] at h0
    by_cases hsw : isSwap a b = true
    · have hab : a.time = b.time := by
        unfold isSwap at hsw
        split at hsw
        · simp only [decide_eq_true_eq] at hsw; exact hsw.1
        · cases hsw
      simp only [hsw, if_true]
      have hmap : (((track.set i b).set (i + 1) a).map (fun e => e.time)) = track.map (fun e => e.time) := by
        rw [List.map_set, List.map_set]
        apply List.ext_getElem?
        intro j
        rw [List.getElem?_set, List.getElem?_set]
        by_cases h1 : i + 1 = j
        · subst h1
          simp only [if_true, List.length_set]
          have hl : i + 1 < (track.map (fun e => e.time)).length := by
            exact (List.getElem?_eq_some_iff.1 h0.2).1
          rw [if_pos hl, h0.2, hab]
        · rw [if_neg h1]
          by_cases h2 : i = j
          · subst h2
            have hl : i < (track.map (fun e => e.time)).length := by
              exact (List.getElem?_eq_some_iff.1 h0.1).1
            simp only [if_true]
            rw [if_pos hl, h0.1, hab]
          · rw [if_neg h2]
      rw [ih (i + 1) _ ?_, hmap]
      intro j p hp
      have := h (j + 1) p (by simpa using hp)
      rw [hmap]
      refine ⟨rfl, ?_, ?_⟩
      · rw [show i + 1 + j = i + (j + 1) by omega]; exact this.2.1
      · rw [show i + 1 + j + 1 = i + (j + 1) + 1 by omega]; exact this.2.2
    · have hsw' : isSwap a b = false := by simpa using hsw
      simp only [hsw', Bool.false_eq_true, if_false]
      refine ih (i + 1) track ?_
      intro j p hp
      have := h (j + 1) p (by simpa using hp)
      refine ⟨rfl, ?_, ?_⟩
      · rw [show i + 1 + j = i + (j + 1) by omega]; exact this.2.1
      · rw [show i + 1 + j + 1 = i + (j + 1) + 1 by omega]; exact this.2.2

/-- Swapping note-offs before note-ons changes no tick. -/
theorem swapOffs_times (l : List Msg) : (swapOffs l).map (fun e => e.time) = l.map (fun e => e.time) := by
  unfold swapOffs
  apply swapGo_times
  intro j p hp
  obtain ⟨a, b⟩ := p
  rw [List.getElem?_zip_eq_some] at hp
  simp only [Nat.zero_add, List.getElem?_map, true_and]
  rw [hp.1]
  have := hp.2
  rw [List.getElem?_tail] at this
  rw [this]
  exact ⟨rfl, rfl⟩

theorem timingEvents_ok (pm : PM) (h : ClockOk pm.clock) :
    ∃ evs, timingEvents pm = .ok evs ∧ evs ≠ [] ∧ (∀ m ∈ evs, 0 ≤ m.time) := by
  have ht : ∀ t, ∃ k : Nat, pm.clock.timeToTick t = .ok (k : Int) := fun t => by
    obtain ⟨k, hk, _⟩ := C57_nearest pm.clock h t
    exact ⟨k, hk⟩
  have hw : ∀ p ∈ pm.clock.scales, ∃ t, writtenTempo pm.clock.res p.2 = .ok t := by
    intro p hp
    unfold writtenTempo
    have h1 := h.2.1.pos p hp
    have h2 : (0 : ℚ) < pm.clock.res := by exact_mod_cast h.1
    rw [if_neg (ne_of_gt (mul_pos h1 h2))]
    exact ⟨_, rfl⟩
  obtain ⟨l1, a1, a2⟩ := mapM_ok (fun p : Nat × ℚ => do
    let t ← writtenTempo pm.clock.res p.2
    pure (⟨(p.1 : Int), .setTempo t⟩ : Msg)) (fun m => 0 ≤ m.time) pm.clock.scales (by
      intro p hp
      obtain ⟨t, ht⟩ := hw p hp
      exact ⟨⟨(p.1 : Int), .setTempo t⟩, by simp only [ht, bind, Except.bind, pure, Except.pure], by simp⟩)
  obtain ⟨l2, b1, b2⟩ := mapM_ok (fun t : Int × Int × ℚ => do
    let k ← pm.clock.timeToTick t.2.2
    pure (⟨k, .timeSig t.1 t.2.1⟩ : Msg)) (fun m => 0 ≤ m.time) pm.timeSigs (by
      intro p hp
      obtain ⟨t, ht⟩ := ht p.2.2
      exact ⟨⟨(t : Int), .timeSig p.1 p.2.1⟩, by simp only [ht, bind, Except.bind, pure, Except.pure], by simp⟩)
  obtain ⟨l3, c1, c2⟩ := mapM_ok (fun t : Nat × ℚ => do
    let k ← pm.clock.timeToTick t.2
    pure (⟨k, .keySig t.1⟩ : Msg)) (fun m => 0 ≤ m.time) pm.keySigs (by
      intro p hp
      obtain ⟨t, ht⟩ := ht p.2
      exact ⟨⟨(t : Int), .keySig p.1⟩, by simp only [ht, bind, Except.bind, pure, Except.pure], by simp⟩)
  obtain ⟨l4, d1, d2⟩ := mapM_ok (fun t : String × ℚ => do
    let k ← pm.clock.timeToTick t.2
    pure (⟨k, .lyrics t.1⟩ : Msg)) (fun m => 0 ≤ m.time) pm.lyrics (by
      intro p hp
      obtain ⟨t, ht⟩ := ht p.2
      exact ⟨⟨(t : Int), .lyrics p.1⟩, by simp only [ht, bind, Except.bind, pure, Except.pure], by simp⟩)
  have hl1 : l1 ≠ [] := by
    obtain ⟨c0, rest, e0⟩ := h.2.1.zero
    intro h0
    rw [h0, e0, List.mapM_cons] at a1
    obtain ⟨t, ht⟩ := hw (0, c0) (by rw [e0]; simp)
    simp only [ht, bind, Except.bind, pure, Except.pure] at a1
    split at a1
    · cases a1
    · cases a1
  refine ⟨(if pm.timeSigs = [] ∨ ∀ t ∈ pm.timeSigs, 0 < t.2.2 then [⟨0, .timeSig 4 4⟩] else []) ++ l1 ++ l2 ++ l3 ++ l4, ?_, ?_, ?_⟩
  · unfold timingEvents
    rw [a1, b1, c1, d1]
    rfl
  · simp [hl1]
  · intro m hm
    simp only [List.mem_append] at hm
    rcases hm with (((hm | hm) | hm) | hm) | hm
    · split at hm
      · simp only [List.mem_singleton] at hm; subst hm; simp
      · simp at hm
    · exact a2 m hm
    · exact b2 m hm
    · exact c2 m hm
    · exact d2 m hm

theorem pairwise_of_times (l l' : List Msg) (h : l.map (fun e => e.time) = l'.map (fun e => e.time))
    (hs : l'.Pairwise (fun a b => a.time ≤ b.time)) : l.Pairwise (fun a b => a.time ≤ b.time) := by
  rw [← List.pairwise_map (f := fun e : Msg => e.time) (R := fun a b => a ≤ b)] at hs ⊢
  rw [h]; exact hs

theorem end_sorted (l : List Msg) (e : Msg) (hs : l.Pairwise (fun a b => a.time ≤ b.time))
    (hm : ∀ m ∈ l, m.time ≤ e.time) :
    (l ++ [(⟨e.time + 1, .endOfTrack⟩ : Msg)]).Pairwise (fun a b => a.time ≤ b.time) := by
  rw [List.pairwise_append]
  refine ⟨hs, by simp, ?_⟩
  intro a ha b hb
  simp only [List.mem_singleton] at hb
  subst hb
  have := hm a ha
  simp only; omega

/-- **C55, serialized files.** Serializing any object with a correct clock, a drum channel in 0..15 and
instrument values in MIDI range (named instruments included) never raises, and every delta of every
track is non-negative. -/
theorem C55_serialized_deltas (srt : List Msg → List Msg) (hsrt : IsCmpSort eventLt srt) (pm : PM)
    (h : ClockOk pm.clock) (hd : pm.drum < 16) (hi : ∀ i ∈ pm.insts, Spec.GoodInst i) :
    ∃ tracks, pm.serialize srt = .ok tracks ∧ tracks.length = pm.insts.length + 1 ∧
      ∀ t ∈ tracks, ∀ e ∈ t, 0 ≤ e.time := by
  have hdelta : ∀ (l : List Msg) (e : Msg), (∀ m ∈ l, 0 ≤ m.time) → e ∈ l →
      l.Pairwise (fun a b => a.time ≤ b.time) → (∀ m ∈ l, m.time ≤ e.time) →
      ∀ x ∈ toDelta (l ++ [(⟨e.time + 1, .endOfTrack⟩ : Msg)]), 0 ≤ x.time := by
    intro l e h1 he h2 h3
    refine (C55_order _).2 ?_ (end_sorted l e h2 h3)
    intro m hm
    rcases List.mem_append.1 hm with hm | hm
    · exact h1 m hm
    · simp only [List.mem_singleton] at hm
      subst hm
      have := h1 e he
      simp only; omega
  -- instrument tracks
  have hinst : ∀ (is : List PInst) (n : Nat), (∀ i ∈ is, Spec.GoodInst i) →
      ∃ ts, instTracks srt pm.clock pm.drum n is = .ok ts ∧ ts.length = is.length ∧
        ∀ t ∈ ts, ∀ e ∈ toDelta t, 0 ≤ e.time := by
    intro is
    induction is with
    | nil => intro n _; exact ⟨[], rfl, rfl, by simp⟩
    | cons i is ih =>
      intro n hg
      obtain ⟨ts, g1, g2, g3⟩ := ih (n + 1) (fun x hx => hg x (by simp [hx]))
      obtain ⟨ch, hch⟩ : ∃ ch, channelOf pm.drum n i.isDrum = .ok ch := by
        unfold channelOf
        rw [if_neg (by omega)]
        split
        · exact ⟨_, rfl⟩
        · have hlen : ((List.range 16).filter (fun c => decide (c ≠ pm.drum))).length = 15 := by
            have : ∀ d, d < 16 → ((List.range 16).filter (fun c => decide (c ≠ d))).length = 15 := by decide
            exact this pm.drum hd
          rw [List.getElem?_eq_getElem (by rw [hlen]; exact Nat.mod_lt _ (by decide))]
          exact ⟨_, rfl⟩
      obtain ⟨evs, e1, e2, e3, _⟩ := instEvents_ok pm.clock h ch i (hg i (by simp))
      have hp := hsrt.perm evs
      have htimes := swapOffs_times (srt evs)
      have hlen : (swapOffs (srt evs)).length = evs.length := by
        have := congrArg List.length htimes
        simp only [List.length_map] at this
        rw [this, hp.length_eq]
      have hne : swapOffs (srt evs) ≠ [] := by
        intro h0; rw [h0] at hlen
        exact e2 (List.length_eq_zero_iff.1 hlen.symm)
      have hnn : ∀ m ∈ swapOffs (srt evs), 0 ≤ m.time := by
        intro m hm
        have : m.time ∈ (srt evs).map (fun e => e.time) := by
          rw [← htimes]; exact List.mem_map_of_mem hm
        obtain ⟨x, hx, hxe⟩ := List.mem_map.1 this
        rw [← hxe]
        exact (e3 x (hp.mem_iff.1 hx)).1
      have hso := pairwise_of_times _ _ htimes (cmpSort_time srt hsrt evs)
      obtain ⟨e, a1, a2, a3⟩ := addEnd_ok _ hne hnn hso
      refine ⟨(swapOffs (srt evs) ++ [⟨e.time + 1, .endOfTrack⟩]) :: ts, ?_, by simp [g2], ?_⟩
      · simp only [instTracks, instTrack, hch, e1, bind, Except.bind, a1, g1]
      · intro t ht
        rcases List.mem_cons.1 ht with rfl | ht
        · exact hdelta _ e hnn a2 hso a3
        · exact g3 t ht
  obtain ⟨evs, e1, e2, e3⟩ := timingEvents_ok pm h
  have hp := hsrt.perm evs
  have hne : srt evs ≠ [] := by
    intro h0; rw [h0] at hp; exact e2 (List.nil_perm.1 hp)
  have hnn : ∀ m ∈ srt evs, 0 ≤ m.time := fun m hm => e3 m (hp.mem_iff.1 hm)
  obtain ⟨e, a1, a2, a3⟩ := addEnd_ok _ hne hnn (cmpSort_time srt hsrt evs)
  obtain ⟨ts, g1, g2, g3⟩ := hinst pm.insts 0 hi
  refine ⟨((srt evs ++ [⟨e.time + 1, .endOfTrack⟩]) :: ts).map toDelta, ?_, by simp [g2], ?_⟩
  · unfold PM.serialize
    simp only [e1, bind, Except.bind, a1, if_neg (show ¬ 16 ≤ pm.drum by omega), g1]
  · intro t ht
    obtain ⟨u, hu, rfl⟩ := List.mem_map.1 ht
    rcases List.mem_cons.1 hu with rfl | hu
    · exact hdelta _ e hnn a2 (cmpSort_time srt hsrt evs) a3
    · exact g3 u hu

end NGC
