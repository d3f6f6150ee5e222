import Verif.PrettyMidiProps6
import Verif.PrettyMidiProps7

/-! C98: which instruments hold a control change or a pitch bend, for every file. -/

namespace NGC

namespace Spec

/-- The control changes of channel `ch`, in order, that arrive while the channel has a program in `want`;
`p` is the program of the channel before the first event. -/
def controlsBy (tt : Int → ℚ) (ch : Nat) (want : Nat → Bool) : Nat → List Msg → List (Nat × Nat × ℚ)
  | _, [] => []
  | p, e :: es =>
    (match e.body with
     | .controlChange c num val => if c = ch ∧ want p = true then [(num, val, tt e.time)] else []
     | _ => []) ++ controlsBy tt ch want (progAfter ch p e) es

/-- The pitch bends of channel `ch`, in order, that arrive while the channel has a program in `want`. -/
def bendsBy (tt : Int → ℚ) (ch : Nat) (want : Nat → Bool) : Nat → List Msg → List (Int × ℚ)
  | _, [] => []
  | p, e :: es =>
    (match e.body with
     | .pitchwheel c v => if c = ch ∧ want p = true then [(v, tt e.time)] else []
     | _ => []) ++ bendsBy tt ch want (progAfter ch p e) es

end Spec

/-- The instrument an event asks for: program, channel, track. -/
def evKey : Nat × Act → Option (Nat × Nat × Nat)
  | (k, .bend p ch _ _) => some (p, ch, k)
  | (k, .control p ch _ _ _) => some (p, ch, k)
  | _ => none

def bendIf (tt : Int → ℚ) (s : Nat × Nat × Nat → Bool) : Nat × Act → Option (Int × ℚ)
  | (k, .bend p ch v t) => if s (p, ch, k) = true then some (v, tt t) else none
  | _ => none

def ctlIf (tt : Int → ℚ) (s : Nat × Nat × Nat → Bool) : Nat × Act → Option (Nat × Nat × ℚ)
  | (k, .control p ch num val t) => if s (p, ch, k) = true then some (num, val, tt t) else none
  | _ => none

/-- The events of a history that ask for a selected instrument. -/
def content (tt : Int → ℚ) (s : Nat × Nat × Nat → Bool) (H : List (Nat × Act)) :
    List (Int × ℚ) × List (Nat × Nat × ℚ) :=
  (H.filterMap (bendIf tt s), H.filterMap (ctlIf tt s))

theorem content_append (tt : Int → ℚ) (s) (H G : List (Nat × Act)) :
    content tt s (H ++ G) = ((content tt s H).1 ++ (content tt s G).1, (content tt s H).2 ++ (content tt s G).2) := by
  simp [content]

theorem content_congr (tt : Int → ℚ) (s s') (H : List (Nat × Act))
    (h : ∀ q ∈ H.filterMap evKey, s q = s' q) : content tt s H = content tt s' H := by
  unfold content
  have hb : ∀ x ∈ H, bendIf tt s x = bendIf tt s' x ∧ ctlIf tt s x = ctlIf tt s' x := by
    rintro ⟨k, a⟩ hx
    cases a with
    | bend p ch v t =>
      have := h (p, ch, k) (List.mem_filterMap.2 ⟨_, hx, rfl⟩)
      simp [bendIf, ctlIf, this]
    | control p ch num val t =>
      have := h (p, ch, k) (List.mem_filterMap.2 ⟨_, hx, rfl⟩)
      simp [bendIf, ctlIf, this]
    | note e => simp [bendIf, ctlIf]
    | name e => simp [bendIf, ctlIf]
  rw [List.filterMap_congr (fun x hx => (hb x hx).1), List.filterMap_congr (fun x hx => (hb x hx).2)]

theorem content_nil (tt : Int → ℚ) (s) (H : List (Nat × Act)) (h : content tt s H = ([], [])) :
    ∀ q ∈ H.filterMap evKey, s q = false := by
  intro q hq
  obtain ⟨⟨k, a⟩, hx, he⟩ := List.mem_filterMap.1 hq
  unfold content at h
  obtain ⟨h1, h2⟩ := Prod.mk.inj h
  rw [List.filterMap_eq_nil_iff] at h1 h2
  cases a with
  | bend p ch v t =>
    simp only [evKey, Option.some.injEq] at he
    subst he
    have := h1 _ hx
    simpa [bendIf] using this
  | control p ch num val t =>
    simp only [evKey, Option.some.injEq] at he
    subst he
    have := h2 _ hx
    simpa [ctlIf] using this
  | note e => simp [evKey] at he
  | name e => simp [evKey] at he

/-- The instruments that share their event lists with `x`, where `own` are those that share with none. -/
def shares (own : Nat × Nat × Nat → Bool) (x q : Nat × Nat × Nat) : Bool :=
  if own x then decide (q = x) else !own q && decide (q.2 = x.2)

theorem shares_self (own) (x : Nat × Nat × Nat) : shares own x x = true := by
  unfold shares; split <;> simp_all

theorem shares_symm (own) (x y : Nat × Nat × Nat) (h : shares own x y = true) : shares own x = shares own y := by
  funext q
  unfold shares at *
  by_cases hx : own x = true
  · simp only [hx, if_true, decide_eq_true_eq] at h
    subst h; rfl
  · simp only [hx, Bool.false_eq_true, if_false, Bool.and_eq_true, Bool.not_eq_true', decide_eq_true_eq] at h
    simp [hx, h.1, h.2]

/-- The event lists `__get_instrument(..., 0)` finds. -/
def cref (st : LoadSt) (x : Nat × Nat × Nat) : Option Nat :=
  match dget st.insts x with
  | some i => some i.ref
  | none => dget st.strag x.2

/-- The invariant: every class of instruments has one pair of event lists, holding the events that ask for
a member of the class. -/
structure OwnInv (tt : Int → ℚ) (st : LoadSt) (own : Nat × Nat × Nat → Bool) (H : List (Nat × Act)) : Prop where
  nodup : (dkeys st.insts).Nodup
  isInst : ∀ x, own x = true → dget st.insts x ≠ none
  others : ∀ x, own x = false → cref st x = dget st.strag x.2
  held : ∀ x r, cref st x = some r → st.heap[r]? = some (content tt (shares own x) H)
  none : ∀ x, cref st x = Option.none → content tt (shares own x) H = ([], [])
  inj : ∀ x y r, cref st x = some r → cref st y = some r → shares own x y = true

theorem OwnInv.same {tt st own H} (h : OwnInv tt st own H) {x y : Nat × Nat × Nat} (hs : shares own x y = true) :
    cref st y = cref st x := by
  unfold shares at hs
  by_cases hx : own x = true
  · simp only [hx, if_true, decide_eq_true_eq] at hs; rw [hs]
  · simp only [hx, Bool.false_eq_true, if_false, Bool.and_eq_true, Bool.not_eq_true', decide_eq_true_eq] at hs
    rw [h.others y hs.1, h.others x (by simpa using hx), hs.2]

theorem OwnInv.lt {tt st own H} (h : OwnInv tt st own H) {x : Nat × Nat × Nat} {r : Nat}
    (hr : cref st x = some r) : r < st.heap.length := (List.getElem?_eq_some_iff.1 (h.held x r hr)).1

theorem eventRef_own (tt : Int → ℚ) (k : Nat) (st : LoadSt) (own H) (h : OwnInv tt st own H) (p ch : Nat) :
    OwnInv tt (st.eventRef k p ch).1 own H ∧
      cref (st.eventRef k p ch).1 (p, ch, k) = some (st.eventRef k p ch).2 := by
  unfold LoadSt.eventRef
  split
  · rename_i i hi
    exact ⟨h, by simp [cref, hi]⟩
  · rename_i hi
    split
    · rename_i r hr
      exact ⟨h, by simp [cref, hi, hr]⟩
    · rename_i hs
      have hnone : cref st (p, ch, k) = Option.none := by simp [cref, hi, hs]
      have hno : own (p, ch, k) = false := by
        by_contra hc
        exact h.isInst _ (by simpa using hc) hi
      have href : ∀ x, cref { st with strag := dset st.strag (ch, k) st.heap.length, heap := st.heap ++ [([], [])] } x
          = if shares own (p, ch, k) x = true then some st.heap.length else cref st x := by
        intro x
        have hsh : shares own (p, ch, k) x = true ↔ own x = false ∧ x.2 = (ch, k) := by
          simp [shares, hno]
        by_cases hx : shares own (p, ch, k) x = true
        · rw [if_pos hx]
          obtain ⟨h1, h2⟩ := hsh.1 hx
          have h3 := h.others x h1
          rw [h2, hs] at h3
          unfold cref at h3 ⊢
          cases hd : dget st.insts x with
          | some i => rw [hd] at h3; cases h3
          | none => simp [hd, dget_dset, h2]
        · rw [if_neg hx]
          unfold cref
          cases hd : dget st.insts x with
          | some i => simp [hd]
          | none =>
            have : own x = false := by
              by_contra hc
              exact h.isInst _ (by simpa using hc) hd
            have hne : ¬ (ch, k) = x.2 := fun he => hx (hsh.2 ⟨this, he.symm⟩)
            simp [hd, dget_dset, hne]
      refine ⟨⟨h.nodup, h.isInst, ?_, ?_, ?_, ?_⟩, by rw [href, shares_self]; simp⟩
      · intro x hx
        rw [href]
        by_cases hsx : shares own (p, ch, k) x = true
        · rw [if_pos hsx]
          have : x.2 = (ch, k) := by simpa [shares, hno, hx] using hsx
          simp [dget_dset, this]
        · rw [if_neg hsx, h.others x hx]
          have hne : ¬ (ch, k) = x.2 := by
            intro he; apply hsx; simp [shares, hno, hx, ← he]
          simp [dget_dset, hne]
      · intro x r hr
        rw [href] at hr
        split at hr
        · rename_i hx
          obtain rfl := Option.some.inj hr
          rw [← shares_symm own _ x hx, h.none _ hnone]
          simp
        · have := h.held x r hr
          simp only
          rw [List.getElem?_append_left (h.lt hr)]; exact this
      · intro x hx
        rw [href] at hx
        split at hx
        · cases hx
        · exact h.none x hx
      · intro x y r hx hy
        rw [href] at hx hy
        split at hx
        · rename_i e1
          split at hy
          · rename_i e2; rw [← shares_symm own _ x e1]; exact e2
          · obtain rfl := Option.some.inj hx
            exact absurd (h.lt hy) (lt_irrefl _)
        · split at hy
          · obtain rfl := Option.some.inj hy
            exact absurd (h.lt hx) (lt_irrefl _)
          · exact h.inj x y r hx hy

theorem modify_own (tt : Int → ℚ) (st : LoadSt) (own H) (h : OwnInv tt st own H) (x : Nat × Nat × Nat) (r : Nat)
    (hr : cref st x = some r) (a : Nat × Act) (hk : evKey a = some x)
    (f : List (Int × ℚ) × List (Nat × Nat × ℚ) → List (Int × ℚ) × List (Nat × Nat × ℚ))
    (hf : ∀ s l, s x = true → f l = (l.1 ++ (content tt s [a]).1, l.2 ++ (content tt s [a]).2)) :
    OwnInv tt { st with heap := st.heap.modify r f } own (H ++ [a]) := by
  have hno : ∀ s : Nat × Nat × Nat → Bool, s x = false → content tt s (H ++ [a]) = content tt s H := by
    intro s hs
    have : content tt s [a] = ([], []) := by
      rw [content_congr tt s (fun _ => false) [a] (by simp [hk, hs])]
      obtain ⟨k, a⟩ := a
      cases a <;> simp [content, bendIf, ctlIf]
    rw [content_append, this]; simp
  refine ⟨h.nodup, h.isInst, h.others, ?_, ?_, h.inj⟩
  · intro y s hs
    have hs' : cref st y = some s := hs
    simp only [List.getElem?_modify]
    rw [h.held y s hs']
    by_cases he : r = s
    · subst he
      have hyx := h.inj y x r hs' hr
      rw [content_append]
      simp only [if_true, Option.map_eq_map, Option.map_some]
      rw [hf _ _ hyx]
    · have hyx : shares own y x = false := by
        by_contra hc
        have := h.same (show shares own y x = true by simpa using hc)
        rw [hr, hs'] at this
        exact he (Option.some.inj this)
      rw [hno _ hyx]; simp [he]
  · intro y hy
    have hy' : cref st y = Option.none := hy
    have hyx : shares own y x = false := by
      by_contra hc
      have := h.same (show shares own y x = true by simpa using hc)
      rw [hr, hy'] at this; cases this
    rw [hno _ hyx]; exact h.none y hy'

theorem addNote_own (tt : Int → ℚ) (drum k : Nat) (st : LoadSt) (own H) (h : OwnInv tt st own H) (p ch : Nat)
    (n : PNote) : ∃ own', OwnInv tt (st.addNote drum k p ch n) own' H := by
  unfold LoadSt.addNote
  have samer : ∀ (i : LInst), cref st (p, ch, k) = some i.ref →
      OwnInv tt { st with insts := dset st.insts (p, ch, k) i } own H := by
    intro i hi
    have href : ∀ x, cref { st with insts := dset st.insts (p, ch, k) i } x = cref st x := by
      intro x
      by_cases hx : (p, ch, k) = x
      · subst hx; rw [hi]; simp [cref, dget_dset]
      · simp [cref, dget_dset, hx]
    refine ⟨dset_nodup _ _ _ h.nodup, ?_, ?_, ?_, ?_, ?_⟩
    · intro x hx
      simp only [dget_dset]
      split
      · simp
      · exact h.isInst x hx
    · intro x hx; rw [href]; exact h.others x hx
    · intro x r hx; rw [href] at hx; exact h.held x r hx
    · intro x hx; rw [href] at hx; exact h.none x hx
    · intro x y r hx hy; rw [href] at hx hy; exact h.inj x y r hx hy
  split
  · rename_i i hi
    exact ⟨own, samer { i with notes := i.notes ++ [n] } (by simp [cref, hi])⟩
  · rename_i hi
    dsimp only
    split
    · rename_i r hr
      exact ⟨own, samer _ (by simp [cref, hi, hr])⟩
    · rename_i hs
      have hnone : cref st (p, ch, k) = Option.none := by simp [cref, hi, hs]
      have hxo : own (p, ch, k) = false := by
        by_contra hc
        exact h.isInst _ (by simpa using hc) hi
      have hH : ∀ q ∈ H.filterMap evKey, q ≠ (p, ch, k) := by
        intro q hq he
        have := content_nil tt _ H (h.none _ hnone) q hq
        rw [he, shares_self] at this; cases this
      have hcont : ∀ y, y ≠ (p, ch, k) →
          content tt (shares (fun x => if x = (p, ch, k) then true else own x) y) H = content tt (shares own y) H := by
        intro y hy
        apply content_congr
        intro q hq
        have := hH q hq
        simp [shares, hy, this]
      refine ⟨fun x => if x = (p, ch, k) then true else own x, ?_⟩
      have href : ∀ (i : LInst) (hp : List (List (Int × ℚ) × List (Nat × Nat × ℚ))) x,
          cref { st with insts := dset st.insts (p, ch, k) i, heap := hp } x =
            if x = (p, ch, k) then some i.ref else cref st x := by
        intro i hp x
        by_cases hx : x = (p, ch, k)
        · subst hx; simp [cref, dget_dset]
        · have hx' : ¬ (p, ch, k) = x := fun e => hx e.symm
          simp [cref, dget_dset, hx, hx']
      refine ⟨dset_nodup _ _ _ h.nodup, ?_, ?_, ?_, ?_, ?_⟩
      · intro x hx
        simp only [dget_dset]
        split
        · simp
        · rename_i hne
          have : ¬ x = (p, ch, k) := fun e => hne e.symm
          rw [if_neg this] at hx
          exact h.isInst x hx
      · intro x hx
        split at hx
        · cases hx
        · rename_i hne
          rw [href, if_neg hne]; exact h.others x hx
      · intro x r hx
        rw [href] at hx
        split at hx
        · rename_i e; subst e
          obtain rfl := Option.some.inj hx
          have : content tt (shares (fun x => if x = (p, ch, k) then true else own x) (p, ch, k)) H = ([], []) := by
            rw [← h.none _ hnone]
            have e0 : content tt (shares own (p, ch, k)) H = content tt (fun _ => false) H :=
              content_congr _ _ _ _ (fun q hq => content_nil tt _ H (h.none _ hnone) q hq)
            rw [e0]
            apply content_congr
            intro q hq
            simp [shares, hH q hq]
          rw [this]; simp
        · rename_i hne
          rw [hcont x hne]
          simp only
          rw [List.getElem?_append_left (h.lt hx)]; exact h.held x r hx
      · intro x hx
        rw [href] at hx
        split at hx
        · cases hx
        · rename_i hne
          rw [hcont x hne]; exact h.none x hx
      · intro x y r hx hy
        rw [href] at hx hy
        split at hx
        · rename_i e1
          split at hy
          · rename_i e2; rw [e1, e2]; exact shares_self _ _
          · obtain rfl := Option.some.inj hx
            exact absurd (h.lt hy) (lt_irrefl _)
        · rename_i e1
          split at hy
          · obtain rfl := Option.some.inj hy
            exact absurd (h.lt hx) (lt_irrefl _)
          · rename_i e2
            have := h.inj x y r hx hy
            simpa [shares, e1, e2] using this

theorem act_own (tt : Int → ℚ) (drum k : Nat) (st : LoadSt) (own H) (h : OwnInv tt st own H) (a : Act) :
    ∃ own', OwnInv tt (st.act drum k tt a) own' (H ++ [(k, a)]) := by
  cases a with
  | note e =>
    obtain ⟨own', h'⟩ := addNote_own tt drum k st own H h e.program e.channel
      ⟨e.velocity, e.pitch, tt e.start, tt e.stop⟩
    refine ⟨own', ?_⟩
    have hc : ∀ s, content tt s (H ++ [(k, Act.note e)]) = content tt s H := by
      intro s; rw [content_append]; simp [content, bendIf, ctlIf]
    exact ⟨h'.nodup, h'.isInst, h'.others, fun x r hx => by rw [hc]; exact h'.held x r hx,
      fun x hx => by rw [hc]; exact h'.none x hx, h'.inj⟩
  | name s =>
    refine ⟨own, ?_⟩
    have hc : ∀ s', content tt s' (H ++ [(k, Act.name s)]) = content tt s' H := by
      intro s'; rw [content_append]; simp [content, bendIf, ctlIf]
    exact ⟨h.nodup, h.isInst, h.others, fun x r hx => by rw [hc]; exact h.held x r hx,
      fun x hx => by rw [hc]; exact h.none x hx, h.inj⟩
  | bend p ch pitch t =>
    obtain ⟨h1, h2⟩ := eventRef_own tt k st own H h p ch
    refine ⟨own, modify_own tt _ own H h1 (p, ch, k) _ h2 (k, .bend p ch pitch t) rfl _ ?_⟩
    intro s l hs; simp [content, bendIf, ctlIf, hs]
  | control p ch num val t =>
    obtain ⟨h1, h2⟩ := eventRef_own tt k st own H h p ch
    refine ⟨own, modify_own tt _ own H h1 (p, ch, k) _ h2 (k, .control p ch num val t) rfl _ ?_⟩
    intro s l hs; simp [content, bendIf, ctlIf, hs]

theorem acts_own (tt : Int → ℚ) (drum k : Nat) : ∀ (acts : List Act) (st : LoadSt) (own H),
    OwnInv tt st own H →
    ∃ own', OwnInv tt (acts.foldl (fun st a => st.act drum k tt a) st) own' (H ++ acts.map (fun a => (k, a))) := by
  intro acts
  induction acts with
  | nil => intro st own H h; exact ⟨own, by simpa using h⟩
  | cons a acts ih =>
    intro st own H h
    obtain ⟨o1, h1⟩ := act_own tt drum k st own H h a
    obtain ⟨o2, h2⟩ := ih _ o1 _ h1
    refine ⟨o2, ?_⟩
    simpa using h2

/-- What the events of a track do. -/
theorem loadGo_by (tt : Int → ℚ) (k ch : Nat) (want : Nat → Bool) (s : Nat × Nat × Nat → Bool)
    (hs : ∀ p c, s (p, c, k) = (decide (c = ch) && want p)) : ∀ (es : List Msg) (st : TrackSt) (acts : List Act),
    (∀ p ∈ st.opens, p.2 ≠ []) → loadGo st es = .ok acts →
    content tt s (acts.map (fun a => (k, a))) =
      (Spec.bendsBy tt ch want (st.program ch) es, Spec.controlsBy tt ch want (st.program ch) es) := by
  intro es
  induction es with
  | nil =>
    intro st acts _ h
    simp only [loadGo, Except.ok.injEq] at h
    subst h; rfl
  | cons e es ih =>
    intro st acts hne hload
    have key : ∀ st' as, loadStep st e = .ok (st', as) → (∀ p ∈ st'.opens, p.2 ≠ []) →
        st'.program ch = Spec.progAfter ch (st.program ch) e →
        content tt s (as.map (fun a => (k, a))) =
          ((match e.body with
            | .pitchwheel c v => if c = ch ∧ want (st.program ch) = true then [(v, tt e.time)] else []
            | _ => []),
           (match e.body with
            | .controlChange c num val => if c = ch ∧ want (st.program ch) = true then [(num, val, tt e.time)] else []
            | _ => [])) →
        content tt s (acts.map (fun a => (k, a))) =
          (Spec.bendsBy tt ch want (st.program ch) (e :: es), Spec.controlsBy tt ch want (st.program ch) (e :: es)) := by
      intro st' as h1 h2 h3 h4
      simp only [loadGo, h1, bind, Except.bind] at hload
      cases hm : loadGo st' es with
      | error x => rw [hm] at hload; cases hload
      | ok more =>
        rw [hm] at hload
        simp only [Except.ok.injEq] at hload
        subst hload
        rw [List.map_append, content_append, ih st' more h2 hm, h4, h3]
        rfl
    have notes : ∀ (l : List Act), (∀ a ∈ l, ∃ x : Emit, a = .note x) →
        content tt s (l.map (fun a => (k, a))) = ([], []) := by
      intro l hl
      unfold content
      refine Prod.ext ?_ ?_
      · simp only [List.filterMap_eq_nil_iff, List.mem_map]
        rintro _ ⟨a, ha, rfl⟩
        obtain ⟨x, rfl⟩ := hl a ha; rfl
      · simp only [List.filterMap_eq_nil_iff, List.mem_map]
        rintro _ ⟨a, ha, rfl⟩
        obtain ⟨x, rfl⟩ := hl a ha; rfl
    have fin : ∀ (t : Int) (eos : Bool), ∀ a ∈ st.opens.filterMap (finishOne st t eos), ∃ x : Emit, a = .note x := by
      intro t eos a ha
      obtain ⟨p, hp, hpa⟩ := List.mem_filterMap.1 ha
      unfold finishOne at hpa
      split at hpa
      · cases hpa
      · split at hpa
        · simp only [Option.some.injEq] at hpa
          exact ⟨_, hpa.symm⟩
        · cases hpa
    have offs : ∀ (t : Int) (c n : Nat), (noteOff st t c n).1.prog = st.prog ∧
        (∀ a ∈ (noteOff st t c n).2, ∃ x : Emit, a = .note x) := by
      intro t c n
      unfold noteOff
      split
      · simp
      · dsimp only
        split
        · refine ⟨rfl, ?_⟩
          intro a ha; obtain ⟨x, _, rfl⟩ := List.mem_map.1 ha; exact ⟨_, rfl⟩
        · refine ⟨rfl, ?_⟩
          intro a ha; obtain ⟨x, _, rfl⟩ := List.mem_map.1 ha; exact ⟨_, rfl⟩
    have prog : ∀ (st' : TrackSt), st'.prog = st.prog → st'.program ch = st.program ch := by
      intro st' h; unfold TrackSt.program; rw [h]
    obtain ⟨t, body⟩ := e
    cases body with
    | setTempo _ => exact key st [] rfl hne rfl rfl
    | timeSig _ _ => exact key st [] rfl hne rfl rfl
    | keySig _ => exact key st [] rfl hne rfl rfl
    | lyrics _ => exact key st [] rfl hne rfl rfl
    | other _ => exact key st [] rfl hne rfl rfl
    | trackName s => exact key st [.name s] rfl hne rfl rfl
    | programChange c q =>
      refine key ⟨st.opens, dset st.prog c q⟩ [] rfl hne ?_ rfl
      simp only [TrackSt.program, dget_dset, Spec.progAfter]
      split <;> simp_all
    | pitchwheel c p =>
      refine key st _ rfl hne rfl ?_
      by_cases hc : c = ch
      · subst hc; cases hw : want (st.program c) <;> simp [content, bendIf, ctlIf, hs, hw]
      · simp [content, bendIf, ctlIf, hs, hc]
    | controlChange c num val =>
      refine key st _ rfl hne rfl ?_
      by_cases hc : c = ch
      · subst hc; cases hw : want (st.program c) <;> simp [content, bendIf, ctlIf, hs, hw]
      · simp [content, bendIf, ctlIf, hs, hc]
    | noteOff c n v =>
      obtain ⟨o1, o2⟩ := offs t c n
      exact key (noteOff st t c n).1 (noteOff st t c n).2 rfl (noteOff_nonempty st t c n hne) (prog _ o1)
        (notes _ o2)
    | endOfTrack =>
      exact key _ _ (finishNotes_eq st t true hne) (filter_ne_nil_of _ _ hne) rfl (notes _ (fin t true))
    | noteOn c n v =>
      by_cases hv : 0 < v
      · refine key ⟨dset (st.opens.filter (fun p => !finishes t false p)) (c, n)
            ((dget (st.opens.filter (fun p => !finishes t false p)) (c, n)).getD [] ++ [(t, v)]), st.prog⟩
            (st.opens.filterMap (finishOne st t false)) ?_ ?_ rfl (notes _ (fin t false))
        · unfold loadStep
          simp only [hv, if_true, finishNotes_eq st t false hne, bind, Except.bind]
        · intro p hp
          rcases mem_dset hp with rfl | hp
          · simp
          · exact filter_ne_nil_of _ _ hne p hp
      · obtain ⟨o1, o2⟩ := offs t c n
        refine key (noteOff st t c n).1 (noteOff st t c n).2 ?_ (noteOff_nonempty st t c n hne) (prog _ o1)
          (notes _ o2)
        simp only [loadStep, hv, if_false]

theorem content_other (tt : Int → ℚ) (s : Nat × Nat × Nat → Bool) (k : Nat) (acts : List Act)
    (h : ∀ p c, s (p, c, k) = false) : content tt s (acts.map (fun a => (k, a))) = ([], []) := by
  have : content tt s (acts.map (fun a => (k, a))) = content tt (fun _ => false) (acts.map (fun a => (k, a))) := by
    apply content_congr
    intro q hq
    obtain ⟨x, hx, he⟩ := List.mem_filterMap.1 hq
    obtain ⟨a, _, rfl⟩ := List.mem_map.1 hx
    cases a <;> simp only [evKey, Option.some.injEq, reduceCtorEq] at he
    · subst he; exact h _ _
    · subst he; exact h _ _
  rw [this]
  unfold content
  refine Prod.ext ?_ ?_ <;>
  · simp only [List.filterMap_eq_nil_iff, List.mem_map]
    rintro _ ⟨a, _, rfl⟩
    cases a <;> rfl

theorem loadTracks_own (drum : Nat) (tt : Int → ℚ) : ∀ (ts : List (List Msg)) (k : Nat) (st : LoadSt) (own H)
    (st' : LoadSt), OwnInv tt st own H → loadTracks drum tt k st ts = .ok st' →
    ∃ own' H', OwnInv tt st' own' (H ++ H') ∧
      ∀ (ch j : Nat) (want : Nat → Bool) (s : Nat × Nat × Nat → Bool),
        (∀ p c l, s (p, c, l) = (decide (c = ch) && (want p && decide (l = j)))) →
        content tt s H' = if j < k then ([], []) else
          (Spec.bendsBy tt ch want 0 (ts.getD (j - k) []), Spec.controlsBy tt ch want 0 (ts.getD (j - k) [])) := by
  intro ts
  induction ts with
  | nil =>
    intro k st own H st' h hl
    simp only [loadTracks, Except.ok.injEq] at hl
    subst hl
    refine ⟨own, [], by simpa using h, ?_⟩
    intro ch j want s hs
    split <;> simp [content, Spec.bendsBy, Spec.controlsBy]
  | cons t ts ih =>
    intro k st own H st' h hl
    obtain ⟨acts, ha⟩ := loadGo_ok t ⟨[], []⟩ (by simp)
    simp only [loadTracks, loadTrack, ha, bind, Except.bind] at hl
    obtain ⟨o1, h1⟩ := acts_own tt drum k acts st own H h
    obtain ⟨o2, H', h2, h3⟩ := ih (k + 1) _ o1 _ st' h1 hl
    refine ⟨o2, acts.map (fun a => (k, a)) ++ H', by rw [← List.append_assoc]; exact h2, ?_⟩
    intro ch j want s hs
    rw [content_append, h3 ch j want s hs]
    by_cases hlt : j < k
    · rw [content_other tt s k acts (by
        intro p c; rw [hs]; simp [show k ≠ j by omega])]
      simp [hlt, show j < k + 1 by omega]
    · by_cases heq : j = k
      · subst heq
        rw [loadGo_by tt j ch want s (by intro p c; rw [hs]; simp) t ⟨[], []⟩ acts (by simp) ha]
        simp [TrackSt.program, dget]
      · rw [content_other tt s k acts (by
          intro p c; rw [hs]; simp [show k ≠ j by omega])]
        rw [show j - k = (j - (k + 1)) + 1 by omega]
        simp [hlt, show ¬ j < k + 1 by omega]

/-- **C98, the exact rule.** For every file, loading never raises and every loaded instrument stands for one
program of one channel of one track (no two for the same three). Some of the instruments are alone: their
control changes and pitch bends are exactly those that arrive on their channel and track under their own
program. All other instruments of a channel and track hold one and the same list: the events that arrive on
the channel and track under any program whose instrument is not alone. Always in file order. -/
theorem C98_owners (drum : Nat) (tt : Int → ℚ) (tracks : List (List Msg)) :
    ∃ (insts : List PInst) (owners alone : List (Nat × Nat × Nat)),
      loadInstruments drum tt tracks = .ok insts ∧ owners.Nodup ∧ owners.length = insts.length ∧
      (∀ x ∈ alone, x ∈ owners) ∧
      ∀ (j : Nat) (i : PInst), insts[j]? = some i → ∃ p ch k, owners[j]? = some (p, ch, k) ∧
        i.program = p ∧ i.isDrum = decide (ch = drum) ∧
        ∃ want : Nat → Bool, (∀ q, want q = true ↔
            if (p, ch, k) ∈ alone then q = p else (q, ch, k) ∉ alone) ∧
          i.controls = Spec.controlsBy tt ch want 0 (tracks.getD k []) ∧
          i.bends = Spec.bendsBy tt ch want 0 (tracks.getD k []) := by
  obtain ⟨st, hst, hii, -⟩ := loadTracks_inv drum tt
    (fun t => match loadTrack t with | .ok acts => actNotes acts | .error _ => []) tracks 0 ⟨[], [], [], []⟩
    ⟨by simp [dkeys], by simp⟩ (by
      intro t _
      obtain ⟨acts, ha⟩ := loadGo_ok t ⟨[], []⟩ (by simp)
      refine ⟨acts, ha, ?_⟩
      rw [show loadTrack t = .ok acts from ha])
  have hinv : OwnInv tt ⟨[], [], [], []⟩ (fun _ => false) [] :=
    ⟨by simp [dkeys], by simp, by simp [cref, dget], by simp [cref, dget], by simp [content], by simp [cref, dget]⟩
  obtain ⟨own, H, h, hH⟩ := loadTracks_own drum tt tracks 0 _ _ _ st hinv hst
  refine ⟨st.insts.map (fun p => p.2.freeze st.heap), dkeys st.insts, (dkeys st.insts).filter own, ?_, h.nodup,
    by simp [dkeys], fun x hx => List.mem_of_mem_filter hx, ?_⟩
  · unfold loadInstruments; rw [hst]; rfl
  · intro j i hj
    rw [List.getElem?_map] at hj
    cases hp : st.insts[j]? with
    | none => rw [hp] at hj; cases hj
    | some p =>
      rw [hp] at hj
      simp only [Option.map_some, Option.some.injEq] at hj
      obtain ⟨⟨z, ch, k⟩, li⟩ := p
      have hmem := List.mem_of_getElem? hp
      have hg := dget_of_mem st.insts h.nodup (z, ch, k) li hmem
      have hr : cref st (z, ch, k) = some li.ref := by simp [cref, hg]
      have hh := h.held (z, ch, k) li.ref hr
      obtain ⟨g1, g2⟩ := hii.prog _ hmem
      have hal : ∀ x, x ∈ (dkeys st.insts).filter own ↔ own x = true := by
        intro x
        simp only [List.mem_filter, and_iff_right_iff_imp]
        intro hx
        by_contra hc
        exact h.isInst x hx ((dget_eq_none _ _).2 hc)
      have hc := hH ch k (fun q => shares own (z, ch, k) (q, ch, k)) (shares own (z, ch, k)) (by
        intro q c l
        by_cases e1 : c = ch
        · by_cases e2 : l = k
          · subst e1; subst e2; simp
          · simp [shares, e1, e2]
        · simp [shares, e1])
      simp only [List.nil_append, Nat.not_lt_zero, if_false, Nat.sub_zero] at hh hc
      rw [hc] at hh
      refine ⟨z, ch, k, by simp [dkeys, hp], ?_, ?_, fun q => shares own (z, ch, k) (q, ch, k), ?_, ?_, ?_⟩
      · subst hj; exact g1
      · subst hj; exact g2
      · intro q
        simp only [hal]
        by_cases ho : own (z, ch, k) = true
        · simp [shares, ho]
        · simp [shares, ho]
      · subst hj
        simp only [LInst.freeze, List.getD_eq_getElem?_getD, hh]; simp
      · subst hj
        simp only [LInst.freeze, List.getD_eq_getElem?_getD, hh]; simp

theorem controlsBy_mono (tt : Int → ℚ) (ch : Nat) (w w' : Nat → Bool) (h : ∀ q, w q = true → w' q = true) :
    ∀ (es : List Msg) (p : Nat), (Spec.controlsBy tt ch w p es).Sublist (Spec.controlsBy tt ch w' p es) := by
  intro es
  induction es with
  | nil => intro p; exact List.Sublist.refl _
  | cons e es ih =>
    intro p
    unfold Spec.controlsBy
    refine List.Sublist.append ?_ (ih _)
    split
    · split
      · rename_i hc
        rw [if_pos ⟨hc.1, h _ hc.2⟩]
      · exact List.nil_sublist _
    · exact List.Sublist.refl _

theorem bendsBy_mono (tt : Int → ℚ) (ch : Nat) (w w' : Nat → Bool) (h : ∀ q, w q = true → w' q = true) :
    ∀ (es : List Msg) (p : Nat), (Spec.bendsBy tt ch w p es).Sublist (Spec.bendsBy tt ch w' p es) := by
  intro es
  induction es with
  | nil => intro p; exact List.Sublist.refl _
  | cons e es ih =>
    intro p
    unfold Spec.bendsBy
    refine List.Sublist.append ?_ (ih _)
    split
    · split
      · rename_i hc
        rw [if_pos ⟨hc.1, h _ hc.2⟩]
      · exact List.nil_sublist _
    · exact List.Sublist.refl _

theorem controlsBy_all (tt : Int → ℚ) (ch : Nat) : ∀ (es : List Msg) (p : Nat),
    Spec.controlsBy tt ch (fun _ => true) p es = Spec.controlsOf tt ch es := by
  intro es
  induction es with
  | nil => intro p; rfl
  | cons e es ih =>
    intro p
    unfold Spec.controlsBy
    rw [ih, show Spec.controlsOf tt ch (e :: es) = Spec.controlsOf tt ch [e] ++ Spec.controlsOf tt ch es by
      rw [show e :: es = [e] ++ es from rfl]; unfold Spec.controlsOf; rw [List.filterMap_append]]
    congr 1
    obtain ⟨t, b⟩ := e
    cases b <;> simp [Spec.controlsOf]
    split <;> simp_all

theorem bendsBy_all (tt : Int → ℚ) (ch : Nat) : ∀ (es : List Msg) (p : Nat),
    Spec.bendsBy tt ch (fun _ => true) p es = Spec.bendsOf tt ch es := by
  intro es
  induction es with
  | nil => intro p; rfl
  | cons e es ih =>
    intro p
    unfold Spec.bendsBy
    rw [ih, show Spec.bendsOf tt ch (e :: es) = Spec.bendsOf tt ch [e] ++ Spec.bendsOf tt ch es by
      rw [show e :: es = [e] ++ es from rfl]; unfold Spec.bendsOf; rw [List.filterMap_append]]
    congr 1
    obtain ⟨t, b⟩ := e
    cases b <;> simp [Spec.bendsOf]
    split <;> simp_all

/-- **C98, nothing of its own is lost, nothing foreign is taken.** In every loaded file, each instrument
holds every control change and pitch bend that arrives on its channel and track under its program, and only
such as arrive on its channel and track, in file order. -/
theorem C98_own_events_kept (drum : Nat) (tt : Int → ℚ) (tracks : List (List Msg)) (insts : List PInst)
    (hl : loadInstruments drum tt tracks = .ok insts) (i : PInst) (hi : i ∈ insts) :
    ∃ ch k, i.isDrum = decide (ch = drum) ∧
      (Spec.controlsBy tt ch (fun q => decide (q = i.program)) 0 (tracks.getD k [])).Sublist i.controls ∧
      i.controls.Sublist (Spec.controlsOf tt ch (tracks.getD k [])) ∧
      (Spec.bendsBy tt ch (fun q => decide (q = i.program)) 0 (tracks.getD k [])).Sublist i.bends ∧
      i.bends.Sublist (Spec.bendsOf tt ch (tracks.getD k [])) := by
  obtain ⟨insts', owners, alone, h1, -, -, -, h2⟩ := C98_owners drum tt tracks
  rw [hl] at h1
  obtain rfl := Except.ok.inj h1
  obtain ⟨j, hj⟩ := List.getElem?_of_mem hi
  obtain ⟨p, ch, k, -, rfl, hd, want, hw, hc, hb⟩ := h2 j i hj
  have hself : ∀ q, decide (q = i.program) = true → want q = true := by
    intro q hq
    have hq : q = i.program := by simpa using hq
    subst hq
    rw [hw]
    split
    · rfl
    · assumption
  refine ⟨ch, k, hd, ?_, ?_, ?_, ?_⟩
  · rw [hc]; exact controlsBy_mono tt ch _ _ hself _ _
  · rw [hc, ← controlsBy_all tt ch _ 0]; exact controlsBy_mono tt ch _ _ (fun _ _ => rfl) _ _
  · rw [hb]; exact bendsBy_mono tt ch _ _ hself _ _
  · rw [hb, ← bendsBy_all tt ch _ 0]; exact bendsBy_mono tt ch _ _ (fun _ _ => rfl) _ _

/-- A file with an instrument that is alone (program 5 plays before any control change), and two that share
(programs 6 and 7: the control change under program 6 comes before its first note). -/
example : loadInstruments 9 (fun t => (t : ℚ)) [[⟨0, .programChange 0 5⟩, ⟨0, .noteOn 0 60 64⟩,
    ⟨1, .noteOff 0 60 0⟩, ⟨1, .controlChange 0 7 1⟩, ⟨2, .programChange 0 6⟩, ⟨2, .controlChange 0 7 2⟩,
    ⟨3, .noteOn 0 61 64⟩, ⟨4, .noteOff 0 61 0⟩, ⟨5, .programChange 0 7⟩, ⟨5, .noteOn 0 62 64⟩,
    ⟨6, .noteOff 0 62 0⟩, ⟨6, .controlChange 0 7 3⟩, ⟨7, .endOfTrack⟩]] =
    .ok [⟨5, false, "", [⟨64, 60, 0, 1⟩], [], [(7, 1, 1)]⟩,
         ⟨6, false, "", [⟨64, 61, 3, 4⟩], [], [(7, 2, 2), (7, 3, 6)]⟩,
         ⟨7, false, "", [⟨64, 62, 5, 6⟩], [], [(7, 2, 2), (7, 3, 6)]⟩] := by decide +kernel

end NGC
