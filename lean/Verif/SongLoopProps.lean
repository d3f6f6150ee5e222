import Verif.SongLoop
import Verif.SequencesProps

/-! C172: the loop of the builder over a song. -/

namespace NGC

section
variable {V σ : Type}

/-! ### The list of track numbers -/

theorem Tracks.len_iter (t : Tracks V) (h : t.Inv) : t.len = t.iter.length := by
  unfold Tracks.len Tracks.iter SDict.len
  rw [← List.length_map (f := (·.1))]
  exact ((List.perm_ext_iff_of_nodup h.1.nodup (h.1.keys_nodup intLt_total')).2
    (fun a => (h.1.same a).symm)).length_eq

theorem Tracks.mem_iter (t : Tracks V) (h : t.Inv) (k : Int) : k ∈ t.iter ↔ t.seqs.lookup k ≠ none := by
  rw [Ne, SDict.lookup_none_iff, Tracks.iter, h.1.same, ← SDict.has_iff]; simp

theorem Tracks.iter_sorted (t : Tracks V) (h : t.Inv) : t.iter.Pairwise (· < ·) := by
  refine h.1.sorted.imp ?_
  intro a b hab
  simpa [intLt] using hab

theorem Tracks.iter_nodup (t : Tracks V) (h : t.Inv) : t.iter.Nodup := h.1.keys_nodup intLt_total'

theorem Tracks.iter_range (t : Tracks V) (h : t.Inv) (n : Nat) (hd : ∀ k, t.seqs.lookup k ≠ none ↔ 0 ≤ k ∧ k < n) :
    t.iter = (List.range n).map Int.ofNat := by
  have hp : t.iter.Perm ((List.range n).map Int.ofNat) := by
    refine (List.perm_ext_iff_of_nodup (t.iter_nodup h) (List.nodup_range.map Int.ofNat_injective)).2 (fun k => ?_)
    rw [t.mem_iter h, hd, List.mem_map]
    constructor
    · rintro ⟨h1, h2⟩
      exact ⟨k.toNat, List.mem_range.2 (by omega), by simp only [Int.ofNat_eq_natCast]; omega⟩
    · rintro ⟨m, hm, rfl⟩
      have := List.mem_range.1 hm
      simp only [Int.ofNat_eq_natCast]
      omega
  refine hp.eq_of_pairwise (fun a b _ _ h1 h2 => absurd h1 (by omega)) (t.iter_sorted h) ?_
  rw [List.pairwise_map]
  refine List.pairwise_lt_range.imp ?_
  intro a b hab
  simp only [Int.ofNat_eq_natCast]
  omega

theorem Tracks.getItem_out (t : Tracks V) (f : V) (i : Int) (hi : ¬ (0 ≤ i ∧ i < 128)) : t.getItem f i = .error .value := by
  unfold Tracks.getItem
  rw [if_pos (by omega)]

theorem Tracks.getItem_grow (t t' : Tracks V) (h : t.Inv) (h' : t'.Inv) (f : V)
    (hs : ∀ x, t'.seqs.lookup x = if x = (t.seqs.len : Int) then some f else t.seqs.lookup x) : t'.len ≤ t.len + 1 := by
  have e : t'.iter.toFinset = insert (t.seqs.len : Int) t.iter.toFinset := by
    ext x
    rw [List.mem_toFinset, t'.mem_iter h', hs, Finset.mem_insert, List.mem_toFinset, t.mem_iter h]
    by_cases hx : x = (t.seqs.len : Int)
    · simp [hx]
    · simp [hx]
  have e1 := List.toFinset_card_of_nodup (t'.iter_nodup h')
  have e2 := List.toFinset_card_of_nodup (t.iter_nodup h)
  rw [t'.len_iter h', t.len_iter h, ← e1, ← e2, e]
  exact Finset.card_insert_le _ _

/-- A second access to the same number gives the same track and changes nothing. -/
theorem Tracks.getItem_again (t : Tracks V) (h : t.Inv) (f f' : V) (i : Int) (r : V × Tracks V) (hr : t.getItem f i = .ok r) :
    r.2.getItem f' i = .ok r := by
  by_cases hi : 0 ≤ i ∧ i < 128
  · rcases t.getItem_ok h f i hi with ⟨j, hj, he⟩ | ⟨_, t', ht, he, hx, hs⟩
    · rw [he] at hr
      cases hv : t.seqs.getItem j with
      | error e => rw [hv] at hr; cases hr
      | ok v =>
        rw [hv] at hr
        cases hr
        rcases t.getItem_ok h f' i hi with ⟨j', hj', he'⟩ | ⟨hn, _⟩
        · rw [hj] at hj'
          cases hj'
          show t.getItem f' i = _
          rw [he', hv]; rfl
        · rw [hj] at hn; cases hn
    · rw [he] at hr
      cases hr
      rcases t'.getItem_ok ht f' i hi with ⟨j', hj', he'⟩ | ⟨hn, _⟩
      · rw [hx, if_pos rfl] at hj'
        cases hj'
        show t'.getItem f' i = _
        rw [he', (SDict.getItem_ok_iff _ _ f).2 (by rw [hs, if_pos rfl])]; rfl
      · rw [hx, if_pos rfl] at hn; cases hn
  · rw [t.getItem_out f i hi] at hr; cases hr

/-! ### The loop ends -/

/-- The numbers that no access has made known. -/
def Tracks.unknown (t : Tracks V) : Finset Nat := (Finset.range 128).filter (fun j => t.toIdx.lookup (j : Int) = none)

theorem Tracks.loopGo_fuel (fresh : Int → V) (body : σ → V → Py σ) (n : Nat) : ∀ (m i : Nat) (t : Tracks V) (a : σ), t.Inv →
    (t.len - i) + t.unknown.card + 1 ≤ n → (t.len - i) + t.unknown.card + 1 ≤ m →
    Tracks.loopGo fresh body n i t a = Tracks.loopGo fresh body m i t a := by
  induction n with
  | zero => intro m i t a _ h1; omega
  | succ n ih =>
    intro m i t a h h1 h2
    obtain ⟨m, rfl⟩ : ∃ m', m = m' + 1 := ⟨m - 1, by omega⟩
    rw [Tracks.loopGo, Tracks.loopGo]
    cases hk : t.iter[i]? with
    | none => rfl
    | some k =>
      have hi : i < t.len := by
        rw [t.len_iter h]
        exact (List.getElem?_eq_some_iff.1 hk).1
      simp only [bind, Except.bind]
      cases hg : t.getItem (fresh k) k with
      | error e => rfl
      | ok r =>
        simp only []
        cases hb : body a r.1 with
        | error e => rfl
        | ok a' =>
          simp only []
          have hv : 0 ≤ k ∧ k < 128 := by
            by_contra hc
            rw [t.getItem_out _ _ hc] at hg; cases hg
          rcases t.getItem_ok h (fresh k) k hv with ⟨j, hj, he⟩ | ⟨hn, t', ht, he, hx, hs⟩
          · rw [hg] at he
            cases hv' : t.seqs.getItem j with
            | error e => rw [hv'] at he; cases he
            | ok v =>
              rw [hv'] at he
              cases he
              exact ih m (i + 1) t a' h (by omega) (by omega)
          · rw [hg] at he
            cases he
            have hl := t.getItem_grow t' h ht _ hs
            have hu : t'.unknown = t.unknown.erase k.toNat := by
              ext j
              unfold Tracks.unknown
              rw [Finset.mem_erase, Finset.mem_filter, Finset.mem_filter, hx]
              by_cases hjk : (j : Int) = k
              · rw [if_pos hjk]
                constructor
                · rintro ⟨_, h⟩; cases h
                · rintro ⟨h, _⟩; omega
              · rw [if_neg hjk]
                constructor
                · rintro ⟨h1, h2⟩; exact ⟨by omega, h1, h2⟩
                · rintro ⟨_, h1, h2⟩; exact ⟨h1, h2⟩
            have hm : k.toNat ∈ t.unknown := by
              unfold Tracks.unknown
              rw [Finset.mem_filter, Finset.mem_range]
              exact ⟨by omega, by rw [Int.toNat_of_nonneg hv.1]; exact hn⟩
            have hc : t'.unknown.card + 1 = t.unknown.card := by
              rw [hu, Finset.card_erase_of_mem hm]
              have := Finset.card_pos.2 ⟨_, hm⟩
              omega
            exact ih m (i + 1) t' a' ht (by omega) (by omega)

/-- **C172, end.** The loop over a song ends, whatever the history of the song and whatever the body does: more than
`len(song) + 129` rounds change nothing. -/
theorem C172_loop_ends (ops : List (TrackOp V)) (fresh : Int → V) (body : σ → V → Py σ) (a : σ) (n : Nat) :
    let t := ((Tracks.empty : Tracks V).run ops).1
    t.len + 129 ≤ n → Tracks.loopGo fresh body n 0 t a = t.loop fresh body a := by
  intro t hn
  have h : t.Inv := Tracks.run_inv ops _ Tracks.empty_inv
  have hu : t.unknown.card ≤ 128 := by
    refine (Finset.card_filter_le _ _).trans ?_
    rw [Finset.card_range]
  exact Tracks.loopGo_fuel fresh body n (t.len + 129) 0 t a h (by omega) (by omega)

/-! ### Songs that know their numbers -/

theorem Tracks.loopGo_known (t : Tracks V) (h : t.Inv) (hk : ∀ k ∈ t.iter, (0 ≤ k ∧ k < 128) ∧ t.toIdx.lookup k = some k)
    (vs : List V) (hv : t.seqs.values = .ok vs) (fresh : Int → V) (body : σ → V → Py σ) (n : Nat) : ∀ (i : Nat) (a : σ),
    t.len - i + 1 ≤ n → Tracks.loopGo fresh body n i t a = (do let a' ← (vs.drop i).foldlM body a; .ok (a', t)) := by
  obtain ⟨ws, w1, w2⟩ := SDict.values_spec t.seqs h.1
  rw [hv] at w1
  cases w1
  have hlen : vs.length = t.len := by
    rw [t.len_iter h, Tracks.iter, ← List.length_map (f := some), w2, List.length_map]
  induction n with
  | zero => intro i a hn; omega
  | succ n ih =>
    intro i a hn
    rw [Tracks.loopGo]
    cases hi : t.iter[i]? with
    | none =>
      have : t.iter.length ≤ i := by rwa [List.getElem?_eq_none_iff] at hi
      rw [List.drop_eq_nil_of_le (by rw [hlen, t.len_iter h]; exact this)]
      rfl
    | some k =>
      obtain ⟨hlt, hki⟩ := List.getElem?_eq_some_iff.1 hi
      have hi' : i < vs.length := by rw [hlen, t.len_iter h]; exact hlt
      have hmem : k ∈ t.iter := by rw [← hki]; exact List.getElem_mem _
      have hval : t.seqs.lookup k = some vs[i] := by
        have := congrArg (fun l => l[i]?) w2
        simp only [List.getElem?_map] at this
        rw [List.getElem?_eq_getElem hi', show t.seqs.keys[i]? = some k from hi] at this
        simpa using this.symm
      obtain ⟨hr, hx⟩ := hk k hmem
      have hg : t.getItem (fresh k) k = .ok (vs[i], t) := by
        rcases t.getItem_ok h (fresh k) k hr with ⟨j, hj, he⟩ | ⟨hn, _⟩
        · rw [hx] at hj
          cases hj
          rw [he, (SDict.getItem_ok_iff _ _ _).2 hval]; rfl
        · rw [hx] at hn; cases hn
      rw [List.drop_eq_getElem_cons hi', List.foldlM_cons]
      simp only [hg, bind, Except.bind]
      cases body a vs[i] with
      | error e => rfl
      | ok a' =>
        have := ih (i + 1) a' (by rw [← hlen] at hn ⊢; omega)
        simp only [bind, Except.bind] at this
        exact this

theorem Tracks.loop_known (t : Tracks V) (h : t.Inv) (hk : ∀ k ∈ t.iter, (0 ≤ k ∧ k < 128) ∧ t.toIdx.lookup k = some k)
    (vs : List V) (hv : t.seqs.values = .ok vs) (fresh : Int → V) (body : σ → V → Py σ) (a : σ) :
    t.loop fresh body a = (do let a' ← vs.foldlM body a; .ok (a', t)) :=
  t.loopGo_known h hk vs hv fresh body _ 0 a (by omega)

theorem Tracks.own_run (ops : List (Bool × Int × Int × V)) : ∀ (done : List (Int × V)) (t : Tracks V), t.Own done →
    (∀ o ∈ ops, (0 ≤ o.2.1 ∧ o.2.1 < 128) ∧ (0 ≤ o.2.2.1 ∧ o.2.2.1 < 128)) →
    ((t.run (ownOps ops)).1).Own (done ++ ops.map (fun o => (o.2.1, o.2.2.2))) := by
  induction ops with
  | nil => intro done t h _; simpa [ownOps, Tracks.run] using h
  | cons o ops ih =>
    intro done t h hv
    obtain ⟨b, j, q, g⟩ := o
    have hvo := hv (b, j, q, g) (by simp)
    have hrest := fun o ho => hv o (List.mem_cons_of_mem _ ho)
    cases b with
    | true =>
      obtain ⟨t', h1, h2⟩ := Tracks.own_create t done h g j q hvo.2
      have := ih (done ++ [(j, g)]) t' h2 hrest
      rw [List.append_assoc] at this
      have e : (t.run (ownOps ((true, j, q, g) :: ops))).1 = (t'.run (ownOps ops)).1 := by
        simp only [ownOps, List.map_cons, Tracks.run, if_true, Tracks.step, h1]
      rw [e]; exact this
    | false =>
      obtain ⟨v, t', h1, h2, _⟩ := Tracks.own_track t done h g j q hvo.1 hvo.2
      have := ih (done ++ [(j, g)]) t' h2 hrest
      rw [List.append_assoc] at this
      have e : (t.run (ownOps ((false, j, q, g) :: ops))).1 = (t'.run (ownOps ops)).1 := by
        simp only [ownOps, List.map_cons, Tracks.run, Bool.false_eq_true, if_false, Tracks.step, h1]
      rw [e]; exact this

/-- **C172, created tracks.** In a song filled by `create_track` and `get_track` the loop visits every track once, in
ascending order of the numbers — for each number the track created first for it — and leaves the song as it was. -/
theorem C172_created (ops : List (Bool × Int × Int × V))
    (hv : ∀ o ∈ ops, (0 ≤ o.2.1 ∧ o.2.1 < 128) ∧ (0 ≤ o.2.2.1 ∧ o.2.2.1 < 128))
    (fresh : Int → V) (body : σ → V → Py σ) (a : σ) :
    let t := ((Tracks.empty : Tracks V).run (ownOps ops)).1
    ∃ (ks : List Int) (vs : List V), ks.Pairwise (· < ·) ∧ (∀ k, k ∈ ks ↔ ∃ o ∈ ops, o.2.1 = k) ∧
      vs.map some = ks.map (Spec.firstFor (ops.map (fun o => (o.2.1, o.2.2.2)))) ∧
      t.loop fresh body a = (do let a' ← vs.foldlM body a; .ok (a', t)) := by
  intro t
  have hd : (Tracks.empty : Tracks V).Own [] :=
    ⟨Tracks.empty_inv, fun i => ⟨fun _ => rfl, fun _ => rfl⟩, fun i j h => (by cases h), fun i => rfl⟩
  have ho : t.Own (ops.map (fun o => (o.2.1, o.2.2.2))) := Tracks.own_run ops [] _ hd hv
  have hmem : ∀ k, k ∈ t.iter ↔ ∃ o ∈ ops, o.2.1 = k := by
    intro k
    rw [t.mem_iter ho.inv, ho.first, Spec.firstFor, Ne, Option.map_eq_none_iff, List.find?_eq_none]
    simp only [List.mem_map, decide_eq_true_eq]
    constructor
    · intro hc
      by_contra hn
      apply hc
      rintro _ ⟨o, ho, rfl⟩ rfl
      exact hn ⟨o, ho, rfl⟩
    · rintro ⟨o, ho, rfl⟩ hc
      exact hc _ ⟨o, ho, rfl⟩ rfl
  obtain ⟨vs, h1, h2⟩ := SDict.values_spec t.seqs ho.inv.1
  refine ⟨t.iter, vs, t.iter_sorted ho.inv, hmem, ?_, ?_⟩
  · rw [h2]
    exact List.map_congr_left (fun k _ => ho.first k)
  · refine t.loop_known ho.inv (fun k hk => ?_) vs h1 fresh body a
    obtain ⟨o, hom, rfl⟩ := (hmem k).1 hk
    refine ⟨(hv o hom).1, ?_⟩
    cases hx : t.toIdx.lookup o.2.1 with
    | none => exact absurd ((ho.idx _).1 hx) ((t.mem_iter ho.inv _).1 hk)
    | some j => rw [ho.ident _ _ hx]

/-- The body that collects the tracks. -/
def collect (l : List V) (v : V) : Py (List V) := .ok (l ++ [v])

example : (((Tracks.empty : Tracks Nat).run (ownOps [(true, 7, 0, 1), (false, 3, 0, 2), (true, 3, 0, 4)])).1.loop
    (fun _ => 99) collect []).map (·.1) = .ok [2, 1] := by decide +kernel

/-! ### Imported songs -/

theorem Tracks.ofSeqs_imported (srt : List Note → List Note) (hs : IsPySort Note.lt srt) (l : List MSeq) (t : Tracks MSeq)
    (ht : Tracks.ofSeqs srt l = .ok t) : t.Imported l := by
  have h0 : (Tracks.empty : Tracks MSeq).Imported [] := by
    refine ⟨Tracks.empty_inv, fun i j h => (by cases h), fun i => ⟨fun _ => rfl, fun _ => rfl⟩,
      fun p hp => (by cases hp), List.Perm.refl _, fun k => ?_, fun k s h => (by cases h),
      fun k s h => (by cases h)⟩
    simp [Tracks.empty, SDict.empty, SDict.lookup]
  rcases Tracks.ofSeqs_aux srt hs l [] Tracks.empty h0 List.Pairwise.nil with ⟨t', h1, h2, _⟩ | ⟨⟨e, he⟩, _⟩
  · unfold Tracks.ofSeqs at ht
    rw [h1] at ht
    cases ht
    rwa [List.nil_append] at h2
  · unfold Tracks.ofSeqs at ht
    rw [he] at ht; cases ht

/-- **C172, imported sequences.** In a song made of sequences with instrument numbers 0 to 127 the loop visits every
track of the song once, in order, and leaves the song as it was. -/
theorem C172_imported (srt : List Note → List Note) (hs : IsPySort Note.lt srt) (l : List MSeq) (t : Tracks MSeq)
    (ht : Tracks.ofSeqs srt l = .ok t) (hn : ∀ s ∈ l, 0 ≤ s.instr.num ∧ s.instr.num < 128) (fresh : Int → MSeq)
    (body : σ → MSeq → Py σ) (a : σ) :
    ∃ vs, t.allSeqs = .ok vs ∧ t.loop fresh body a = (do let a' ← vs.foldlM body a; .ok (a', t)) := by
  have hi := Tracks.ofSeqs_imported srt hs l t ht
  obtain ⟨vs, h1, _⟩ := SDict.values_spec t.seqs hi.inv.1
  refine ⟨vs, h1, t.loop_known hi.inv (fun k hk => ?_) vs h1 fresh body a⟩
  have hk' := (t.mem_iter hi.inv k).1 hk
  obtain ⟨s, hsl, rfl⟩ := (hi.dom k).1 hk'
  refine ⟨hn s hsl, ?_⟩
  cases hx : t.toIdx.lookup s.instr.num with
  | none => exact absurd ((hi.idx _).1 hx) hk'
  | some j => rw [hi.ident _ _ hx]

/-- As long as a number of the song lies outside 0 to 127 and the numbers are known, the loop does not end well. -/
theorem Tracks.loopGo_bad (t : Tracks V) (h : t.Inv)
    (hk : ∀ k ∈ t.iter, t.toIdx.lookup k = some k) (fresh : Int → V) (body : σ → V → Py σ)
    (hb : ∀ a v, ∃ a', body a v = .ok a') (p : Nat) (k₀ : Int) (hp : t.iter[p]? = some k₀) (hk₀ : ¬ (0 ≤ k₀ ∧ k₀ < 128))
    (n : Nat) : ∀ (i : Nat) (a : σ), i ≤ p → p - i + 1 ≤ n → Tracks.loopGo fresh body n i t a = .error .value := by
  induction n with
  | zero => intro i a _ hn; omega
  | succ n ih =>
    intro i a hip hn
    rw [Tracks.loopGo]
    have hp' := (List.getElem?_eq_some_iff.1 hp).1
    have hi : t.iter[i]? = some (t.iter[i]'(by omega)) := List.getElem?_eq_getElem (by omega)
    rw [hi]
    simp only [bind, Except.bind]
    generalize hkd : t.iter[i]'(by omega) = k at hi
    by_cases hr : 0 ≤ k ∧ k < 128
    · have hmem : k ∈ t.iter := by rw [← hkd]; exact List.getElem_mem _
      have hip' : i ≠ p := by
        rintro rfl
        rw [hp] at hi
        cases hi
        exact hk₀ hr
      have hx := hk k hmem
      cases hv : t.seqs.lookup k with
      | none => exact absurd hv ((t.mem_iter h k).1 hmem)
      | some v =>
        have hg : t.getItem (fresh k) k = .ok (v, t) := by
          rcases t.getItem_ok h (fresh k) k hr with ⟨j, hj, he⟩ | ⟨hn, _⟩
          · rw [hx] at hj
            cases hj
            rw [he, (SDict.getItem_ok_iff _ _ _).2 hv]; rfl
          · rw [hx] at hn; cases hn
        obtain ⟨a', ha⟩ := hb a v
        simp only [hg, ha]
        exact ih (i + 1) a' (by omega) (by omega)
    · rw [t.getItem_out _ _ hr]

/-- **C172, large instrument numbers.** Instruments may have numbers up to 255 and such sequences can be imported, but
the loop over the song then raises ValueError. -/
theorem C172_imported_large (srt : List Note → List Note) (hs : IsPySort Note.lt srt) (l : List MSeq) (t : Tracks MSeq)
    (ht : Tracks.ofSeqs srt l = .ok t) (hn : ∃ s ∈ l, ¬ (0 ≤ s.instr.num ∧ s.instr.num < 128)) (fresh : Int → MSeq)
    (body : σ → MSeq → Py σ) (hb : ∀ a v, ∃ a', body a v = .ok a') (a : σ) :
    t.loop fresh body a = .error .value := by
  have hi := Tracks.ofSeqs_imported srt hs l t ht
  obtain ⟨s, hsl, hbad⟩ := hn
  have hmem : s.instr.num ∈ t.iter := (t.mem_iter hi.inv _).2 ((hi.dom _).2 ⟨s, hsl, rfl⟩)
  obtain ⟨p, hp, hpe⟩ := List.mem_iff_getElem.1 hmem
  have hp' : t.iter[p]? = some s.instr.num := by rw [List.getElem?_eq_getElem hp, hpe]
  refine t.loopGo_bad hi.inv (fun k hk => ?_) fresh body hb p _ hp' hbad _ 0 a (by omega) ?_
  · have hk' := (t.mem_iter hi.inv k).1 hk
    cases hx : t.toIdx.lookup k with
    | none => exact absurd ((hi.idx _).1 hx) hk'
    | some j => rw [hi.ident _ _ hx]
  · rw [t.len_iter hi.inv]
    omega

example : ((Tracks.ofSeqs id [MSeq.mk' [exNote] { num := 0, name := "Piano", isDrum := false },
      MSeq.mk' [{ exNote with instrument := 4 }] { num := 4, name := "Organ", isDrum := false },
      MSeq.mk' [{ exNote with pitch := 64 }] { num := 0, name := "Piano", isDrum := false }]).bind
      (fun t => t.loop (fun _ => MSeq.mk' [] { num := 0, name := "", isDrum := false }) collect [])).map
        (fun r => r.1.map (fun s => s.notes.length)) = .ok [2, 1] := by
  decide +kernel

example : ((Tracks.ofSeqs id [MSeq.mk' [exNote] { num := 0, name := "Piano", isDrum := false },
      MSeq.mk' [{ exNote with instrument := 200 }] { num := 200, name := "Organ", isDrum := false }]).bind
      (fun t => t.loop (fun _ => MSeq.mk' [] { num := 0, name := "", isDrum := false }) collect [])).map
        (fun r => r.1.map (fun s => s.notes.length)) = .error .value := by
  decide +kernel

/-! ### Songs made by `[]` -/

theorem firstFor_none (ops : List (Int × V)) (i : Int) : Spec.firstFor ops i = none ↔ i ∉ ops.map (·.1) := by
  unfold Spec.firstFor
  rw [Option.map_eq_none_iff, List.find?_eq_none, List.mem_map]
  simp only [decide_eq_true_eq]
  constructor
  · rintro h ⟨p, hp, rfl⟩; exact h p hp rfl
  · intro h p hp he; exact h ⟨p, hp, he⟩

/-- A table reached by `[]` alone has one track for each number accessed. -/
structure Tracks.Full (t : Tracks V) (ops : List (Int × V)) : Prop where
  dense : t.Dense ops
  count : t.seqs.len = (ops.map (·.1)).toFinset.card

theorem Tracks.full_get (t : Tracks V) (ops : List (Int × V)) (h : t.Full ops) (f : V) (i : Int) (hi : 0 ≤ i ∧ i < 128) :
    ∃ v t', t.getItem f i = .ok (v, t') ∧ t'.Full (ops ++ [(i, f)]) ∧ v = (Spec.firstFor ops i).getD f := by
  obtain ⟨v, t', h1, h2, h3⟩ := t.dense_get ops h.dense f i hi
  refine ⟨v, t', h1, ⟨h2, ?_⟩, ?_⟩
  · rw [List.map_append, List.toFinset_append]
    have e : (ops.map (·.1)).toFinset ∪ ([(i, f)].map (·.1)).toFinset = insert i (ops.map (·.1)).toFinset := by
      ext x; simp [or_comm]
    rw [e]
    rcases t.getItem_ok h.dense.inv f i hi with ⟨j, hj, he⟩ | ⟨hn, t'', ht, he, hx, hs⟩
    · have hmem : i ∈ ops.map (·.1) := by
        by_contra hc
        have := (firstFor_none ops i).2 hc
        rw [← h.dense.first, hj] at this
        exact absurd this ((h.dense.dom j).2 (h.dense.rng i j hj))
      rw [Finset.insert_eq_of_mem (List.mem_toFinset.2 hmem), ← h.count]
      rw [h1] at he
      cases hv : t.seqs.getItem j with
      | error e => rw [hv] at he; cases he
      | ok w => rw [hv] at he; cases he; rfl
    · rw [h1] at he
      cases he
      have hmem : i ∉ ops.map (·.1) := by
        rw [← firstFor_none, ← h.dense.first, hn]; rfl
      rw [Finset.card_insert_of_notMem (by rwa [List.mem_toFinset]), ← h.count]
      have key : ∀ k : Int, (0 ≤ k ∧ k < t'.seqs.len) ↔ (0 ≤ k ∧ k < (t.seqs.len : Int) + 1) := by
        intro k
        rw [← h2.dom, hs]
        by_cases hk : k = (t.seqs.len : Int)
        · rw [if_pos hk]; simp; omega
        · rw [if_neg hk, h.dense.dom]; omega
      have k1 := key t'.seqs.len
      have k3 := key (t.seqs.len + 1)
      have k2 := key t.seqs.len
      omega
  · rw [firstFor_append] at h3
    cases hf : Spec.firstFor ops i with
    | some w => rw [hf] at h3; simp only [Option.some.injEq] at h3; simp [h3]
    | none => rw [hf, if_pos rfl] at h3; simp only [Option.some.injEq] at h3; simp [h3]

theorem Tracks.full_run (ops : List (Int × V)) : ∀ (done : List (Int × V)) (t : Tracks V), t.Full done →
    (∀ p ∈ ops, 0 ≤ p.1 ∧ p.1 < 128) → ((t.run (bracketOps ops)).1).Full (done ++ ops) := by
  induction ops with
  | nil => intro done t h _; simpa [bracketOps, Tracks.run] using h
  | cons p ops ih =>
    intro done t h hv
    obtain ⟨v, t', h1, h2, _⟩ := Tracks.full_get t done h p.2 p.1 (hv p (by simp))
    have := ih (done ++ [p]) t' h2 (fun q hq => hv q (List.mem_cons_of_mem _ hq))
    rw [List.append_assoc] at this
    have e : (t.run (bracketOps (p :: ops))).1 = (t'.run (bracketOps ops)).1 := by
      simp only [bracketOps, List.map_cons, Tracks.run, Tracks.step, h1]
    rw [e]
    exact this

theorem Tracks.empty_full : (Tracks.empty : Tracks V).Full [] := by
  refine ⟨⟨Tracks.empty_inv, ?_, ?_, ?_, ?_⟩, rfl⟩
  · intro k
    simp only [Tracks.empty, SDict.empty, SDict.lookup, SDict.len, List.find?_nil, List.length_nil]
    simp
  · intro i j h; cases h
  · intro i i' j h; cases h
  · intro i; rfl

theorem firstFor_extra (ops : List (Int × V)) (extra : List (Int × V)) (i : Int) (h : i ∉ extra.map (·.1)) :
    Spec.firstFor (ops ++ extra) i = Spec.firstFor ops i := by
  have := (firstFor_none extra i).2 h
  unfold Spec.firstFor at this ⊢
  rw [List.find?_append]
  rw [Option.map_eq_none_iff] at this
  rw [this, Option.or_none]

theorem Tracks.loopGo_full (ops : List (Int × V)) (hv : ∀ p ∈ ops, 0 ≤ p.1 ∧ p.1 < 128) (m : Nat)
    (hm : (m : Int) ∈ ops.map (·.1)) (hmax : ∀ p ∈ ops, p.1 ≤ m) (fresh : Int → V) (body : σ → V → Py σ) (n : Nat) :
    ∀ (i : Nat) (t : Tracks V) (a : σ), i ≤ m + 1 → t.Full (ops ++ (List.range i).map (fun k : Nat => ((k : Int), fresh k))) →
      m + 2 - i ≤ n →
      ∃ t', t'.Full (ops ++ (List.range (m + 1)).map (fun k : Nat => ((k : Int), fresh k))) ∧
        Tracks.loopGo fresh body n i t a =
          (do let a' ← ((List.range' i (m + 1 - i)).map (fun k : Nat => (Spec.firstFor ops k).getD (fresh k))).foldlM body a
              .ok (a', t')) := by
  have hm128 : (m : Int) < 128 := by
    obtain ⟨p, hp, hpm⟩ := List.mem_map.1 hm
    have := (hv p hp).2
    omega
  induction n with
  | zero => intro i t a h1 _ h2; omega
  | succ n ih =>
    intro i t a hi hf hn
    have hcount := hf.count
    rw [List.map_append, List.toFinset_append, List.map_map] at hcount
    have hiter := t.iter_range hf.dense.inv t.seqs.len hf.dense.dom
    rw [Tracks.loopGo]
    by_cases hend : i = m + 1
    · subst hend
      have hset : (ops.map (·.1)).toFinset ∪ (((List.range (m + 1)).map ((·.1) ∘ fun k : Nat => ((k : Int), fresh k)))).toFinset =
          (Finset.range (m + 1)).image (fun k : Nat => (k : Int)) := by
        ext x
        simp only [Finset.mem_union, List.mem_toFinset, List.mem_map, Finset.mem_image, Finset.mem_range, List.mem_range,
          Function.comp]
        constructor
        · rintro (⟨p, hp, rfl⟩ | ⟨k, hk, rfl⟩)
          · exact ⟨p.1.toNat, by have := hmax p hp; have := (hv p hp).1; omega, by have := (hv p hp).1; omega⟩
          · exact ⟨k, hk, rfl⟩
        · rintro ⟨k, hk, rfl⟩
          exact .inr ⟨k, hk, rfl⟩
      rw [hset, Finset.card_image_of_injective _ (fun a b h => by simpa using h), Finset.card_range] at hcount
      have hnone : t.iter[m + 1]? = none := by
        rw [List.getElem?_eq_none_iff, hiter, List.length_map, List.length_range]
        omega
      rw [hnone]
      refine ⟨t, hf, ?_⟩
      rw [Nat.sub_self]
      rfl
    · have hlt : i < t.seqs.len := by
        rw [hcount]
        have hsub : insert (m : Int) ((Finset.range i).image (fun k : Nat => (k : Int))) ⊆
            (ops.map (·.1)).toFinset ∪ (((List.range i).map ((·.1) ∘ fun k : Nat => ((k : Int), fresh k)))).toFinset := by
          intro x hx
          rw [Finset.mem_insert, Finset.mem_image] at hx
          simp only [Finset.mem_union, List.mem_toFinset]
          rcases hx with rfl | ⟨k, hk, rfl⟩
          · exact .inl hm
          · exact .inr (List.mem_map.2 ⟨k, List.mem_range.2 (Finset.mem_range.1 hk), rfl⟩)
        have := Finset.card_le_card hsub
        rw [Finset.card_insert_of_notMem, Finset.card_image_of_injective _ (fun a b h => by simpa using h), Finset.card_range] at this
        · omega
        · rw [Finset.mem_image]
          rintro ⟨k, hk, hkm⟩
          have := Finset.mem_range.1 hk
          omega
      have hsome : t.iter[i]? = some (i : Int) := by
        rw [hiter, List.getElem?_map, List.getElem?_range hlt]
        rfl
      rw [hsome]
      obtain ⟨v, t', h1, h2, h3⟩ := t.full_get _ hf (fresh i) i (by omega)
      rw [firstFor_extra _ _ _ (by
        rw [List.map_map, List.mem_map]
        rintro ⟨k, hk, hki⟩
        have := List.mem_range.1 hk
        simp only [Function.comp] at hki
        omega)] at h3
      have h2' : t'.Full (ops ++ (List.range (i + 1)).map (fun k : Nat => ((k : Int), fresh k))) := by
        rw [List.range_succ, List.map_append, ← List.append_assoc]
        exact h2
      have hr : List.range' i (m + 1 - i) = i :: List.range' (i + 1) (m + 1 - (i + 1)) := by
        rw [show m + 1 - i = (m + 1 - (i + 1)) + 1 by omega, List.range'_succ]
      rw [hr, List.map_cons, List.foldlM_cons]
      simp only [h1, bind, Except.bind, ← h3]
      cases hbd : body a v with
      | error e =>
        obtain ⟨t'', q1, _⟩ := ih (i + 1) t' a (by omega) h2' (by omega)
        exact ⟨t'', q1, rfl⟩
      | ok a' =>
        obtain ⟨t'', q1, q2⟩ := ih (i + 1) t' a' (by omega) h2' (by omega)
        refine ⟨t'', q1, ?_⟩
        simp only [bind, Except.bind] at q2
        exact q2

/-- **C172, `[]` alone.** After accesses `song[i]` alone, the largest number accessed being `m`, the loop runs over all
the numbers 0 to `m`: for a number accessed before it visits the track handed out then, for every other number an empty
track created by the loop, and the song then has `m + 1` tracks. -/
theorem C172_brackets (ops : List (Int × V)) (hv : ∀ p ∈ ops, 0 ≤ p.1 ∧ p.1 < 128) (m : Nat)
    (hm : ∃ p ∈ ops, p.1 = m) (hmax : ∀ p ∈ ops, p.1 ≤ m) (fresh : Int → V) (body : σ → V → Py σ) (a : σ) :
    let t := ((Tracks.empty : Tracks V).run (bracketOps ops)).1
    ∃ t', t'.len = m + 1 ∧ t.loop fresh body a =
      (do let a' ← ((List.range (m + 1)).map (fun k : Nat => (Spec.firstFor ops k).getD (fresh k))).foldlM body a
          .ok (a', t')) := by
  intro t
  have hf : t.Full ops := by simpa using Tracks.full_run ops [] _ Tracks.empty_full hv
  have hm' : (m : Int) ∈ ops.map (·.1) := by
    obtain ⟨p, hp, h⟩ := hm
    exact List.mem_map.2 ⟨p, hp, h⟩
  have hm128 : (m : Int) < 128 := by
    obtain ⟨p, hp, hpm⟩ := hm
    have := (hv p hp).2
    omega
  obtain ⟨t', h1, h2⟩ := Tracks.loopGo_full ops hv m hm' hmax fresh body (t.len + 129) 0 t a (by omega) (by simpa using hf) (by omega)
  refine ⟨t', ?_, ?_⟩
  · show t'.seqs.len = _
    rw [h1.count, List.map_append, List.toFinset_append, List.map_map]
    have hset : (ops.map (·.1)).toFinset ∪ (((List.range (m + 1)).map ((·.1) ∘ fun k : Nat => ((k : Int), fresh k)))).toFinset =
        (Finset.range (m + 1)).image (fun k : Nat => (k : Int)) := by
      ext x
      simp only [Finset.mem_union, List.mem_toFinset, List.mem_map, Finset.mem_image, Finset.mem_range, List.mem_range,
        Function.comp]
      constructor
      · rintro (⟨p, hp, rfl⟩ | ⟨k, hk, rfl⟩)
        · exact ⟨p.1.toNat, by have := hmax p hp; have := (hv p hp).1; omega, by have := (hv p hp).1; omega⟩
        · exact ⟨k, hk, rfl⟩
      · rintro ⟨k, hk, rfl⟩
        exact .inr ⟨k, hk, rfl⟩
    rw [hset, Finset.card_image_of_injective _ (fun a b h => by simpa using h), Finset.card_range]
  · rw [Nat.sub_zero, ← List.range_eq_range'] at h2
    exact h2

example : (((Tracks.empty : Tracks Nat).run (bracketOps [(3, 1), (1, 2), (3, 4)])).1.loop
    (fun k => 100 + k.toNat) collect []).map (fun r => (r.1, r.2.len)) = .ok ([100, 2, 102, 1], 4) := by decide +kernel

/-! ### Songs made by assignment -/

/-- A history of assignments `song[i] = v`. -/
def assignOps (ops : List (Int × V)) : List (TrackOp V) := ops.map (fun p => .set p.1 p.2)

theorem Tracks.assign_run (ops : List (Int × V)) : ∀ t : Tracks V, t.Inv → (∀ p ∈ ops, 0 ≤ p.1 ∧ p.1 < 128) →
    ((t.run (assignOps ops)).1).Inv ∧ ((t.run (assignOps ops)).1).toIdx = t.toIdx ∧
      ∀ x, ((t.run (assignOps ops)).1).seqs.lookup x ≠ none ↔ t.seqs.lookup x ≠ none ∨ ∃ p ∈ ops, p.1 = x := by
  induction ops with
  | nil => intro t h _; exact ⟨h, rfl, fun x => by simp [assignOps, Tracks.run]⟩
  | cons p ops ih =>
    intro t h hv
    obtain ⟨t', h1, h2, h3, h4⟩ := t.setItem_ok h p.1 p.2 (hv p (by simp))
    obtain ⟨g1, g2, g3⟩ := ih t' h2 (fun q hq => hv q (List.mem_cons_of_mem _ hq))
    have e : (t.run (assignOps (p :: ops))).1 = (t'.run (assignOps ops)).1 := by
      simp only [assignOps, List.map_cons, Tracks.run, Tracks.step, h1]
    rw [e]
    refine ⟨g1, g2.trans h3, fun x => ?_⟩
    rw [g3, h4]
    by_cases hx : x = p.1
    · simp [hx]
    · simp [hx, Ne.symm hx]

/-- Every known number leads to a track created on demand. -/
def Tracks.AllFresh (fresh : Int → V) (t : Tracks V) : Prop :=
  ∀ x j, t.toIdx.lookup x = some j → ∃ k, t.seqs.lookup j = some (fresh k)

theorem Tracks.getItem_allFresh (fresh : Int → V) (t : Tracks V) (h : t.Inv) (hf : t.AllFresh fresh) (i : Int) (r : V × Tracks V)
    (hr : t.getItem (fresh i) i = .ok r) : r.2.Inv ∧ r.2.AllFresh fresh ∧ ∃ k, r.1 = fresh k := by
  by_cases hi : 0 ≤ i ∧ i < 128
  · rcases t.getItem_ok h (fresh i) i hi with ⟨j, hj, he⟩ | ⟨_, t', ht, he, hx, hs⟩
    · rw [he] at hr
      cases hv : t.seqs.getItem j with
      | error e => rw [hv] at hr; cases hr
      | ok v =>
        rw [hv] at hr
        cases hr
        obtain ⟨k, hk⟩ := hf i j hj
        rw [(SDict.getItem_ok_iff _ _ _).1 hv] at hk
        cases hk
        exact ⟨h, hf, k, rfl⟩
    · rw [he] at hr
      cases hr
      refine ⟨ht, ?_, i, rfl⟩
      intro x j hxj
      rw [hx] at hxj
      rw [hs]
      by_cases hjl : j = (t.seqs.len : Int)
      · exact ⟨i, if_pos hjl⟩
      · by_cases hxi : x = i
        · rw [if_pos hxi] at hxj
          cases hxj
          exact absurd rfl hjl
        · rw [if_neg hxi] at hxj
          rw [if_neg hjl]
          exact hf x j hxj
  · rw [t.getItem_out _ i hi] at hr; cases hr

theorem Tracks.loopGo_allFresh (fresh : Int → V) (body : σ → V → Py σ) (n : Nat) : ∀ (i : Nat) (t : Tracks V) (a : σ) (r : σ × Tracks V),
    t.Inv → t.AllFresh fresh → Tracks.loopGo fresh body n i t a = .ok r →
    ∃ ks : List Int, ks.foldlM (fun a k => body a (fresh k)) a = .ok r.1 := by
  induction n with
  | zero => intro i t a r _ _ h; cases h; exact ⟨[], rfl⟩
  | succ n ih =>
    intro i t a r hi hf h
    rw [Tracks.loopGo] at h
    cases hk : t.iter[i]? with
    | none => rw [hk] at h; cases h; exact ⟨[], rfl⟩
    | some k =>
      rw [hk] at h
      simp only [bind, Except.bind] at h
      cases hg : t.getItem (fresh k) k with
      | error e => rw [hg] at h; cases h
      | ok q =>
        rw [hg] at h
        simp only [] at h
        obtain ⟨q1, q2, x, q3⟩ := t.getItem_allFresh fresh hi hf k q hg
        cases hb : body a q.1 with
        | error e => rw [hb] at h; cases h
        | ok a' =>
          rw [hb] at h
          obtain ⟨ks, hks⟩ := ih (i + 1) q.2 a' r q1 q2 h
          refine ⟨x :: ks, ?_⟩
          rw [List.foldlM_cons, ← q3, hb]
          exact hks

/-- **C172 is false of assigned tracks.** In a song filled by assignments `song[i] = track` alone, the loop never visits
an assigned track: if it ends without exception, its result is that of a run over tracks created on demand. -/
theorem C172_assigned (ops : List (Int × V)) (hv : ∀ p ∈ ops, 0 ≤ p.1 ∧ p.1 < 128) (fresh : Int → V) (body : σ → V → Py σ)
    (a : σ) (r : σ × Tracks V) (hr : ((Tracks.empty : Tracks V).run (assignOps ops)).1.loop fresh body a = .ok r) :
    ∃ ks : List Int, ks.foldlM (fun a k => body a (fresh k)) a = .ok r.1 := by
  obtain ⟨h1, h2, _⟩ := Tracks.assign_run ops (Tracks.empty : Tracks V) Tracks.empty_inv hv
  refine Tracks.loopGo_allFresh fresh body _ 0 _ a r h1 ?_ hr
  intro x j hx
  rw [h2] at hx
  cases hx

example : (((Tracks.empty : Tracks Nat).run (assignOps [(5, 1), (9, 2)])).1.loop
    (fun k => 100 + k.toNat) collect []).map (·.1) = .ok [105, 105, 109, 109] := by decide +kernel

/-- Tables met by the loop over a song in which the numbers below `n` were assigned, after `i` rounds. -/
structure Tracks.Chain (n i : Nat) (t : Tracks V) : Prop where
  inv : t.Inv
  dom : ∀ k, t.seqs.lookup k ≠ none ↔ 0 ≤ k ∧ k < (n + i : Nat)
  new : ∀ x : Int, (i : Int) ≤ x → t.toIdx.lookup x = none

theorem Tracks.loopGo_chain (n : Nat) (hn : 0 < n) (fresh : Int → V) (body : σ → V → Py σ)
    (P : σ → Prop) (hb : ∀ a k, P a → ∃ a', body a (fresh k) = .ok a' ∧ P a') (fuel : Nat) :
    ∀ (i : Nat) (t : Tracks V) (a : σ), P a → i ≤ 128 → t.Chain n i →
    129 - i ≤ fuel → Tracks.loopGo fresh body fuel i t a = .error .value := by
  induction fuel with
  | zero => intro i t a _ h1 _ h2; omega
  | succ fuel ih =>
    intro i t a hP hi hc hf
    have hiter := t.iter_range hc.inv (n + i) hc.dom
    have hsome : t.iter[i]? = some (i : Int) := by
      rw [hiter, List.getElem?_map, List.getElem?_range (by omega)]
      rfl
    rw [Tracks.loopGo, hsome]
    simp only [bind, Except.bind]
    by_cases he : i = 128
    · subst he
      rw [t.getItem_out _ _ (by simp)]
    · rcases t.getItem_ok hc.inv (fresh i) i (by omega) with ⟨j, hj, _⟩ | ⟨_, t', ht, hg, hx, hs⟩
      · rw [hc.new i (le_refl _)] at hj; cases hj
      · obtain ⟨a', ha, hP'⟩ := hb a i hP
        simp only [hg, ha]
        have hlen : t.seqs.len = n + i := by
          have := t.len_iter hc.inv
          rw [hiter, List.length_map, List.length_range] at this
          exact this
        refine ih (i + 1) t' a' hP' (by omega) ⟨ht, ?_, ?_⟩ (by omega)
        · intro k
          rw [hs, hlen]
          by_cases hk : k = ((n + i : Nat) : Int)
          · rw [if_pos hk]; simp; omega
          · rw [if_neg hk, hc.dom]; omega
        · intro x hxi
          rw [hx, if_neg (by omega)]
          exact hc.new x (by omega)

theorem Tracks.assign_chain (ops : List (Int × V)) (n : Nat) (hn' : n ≤ 128)
    (hd : ∀ k : Int, (∃ p ∈ ops, p.1 = k) ↔ 0 ≤ k ∧ k < n) : ((Tracks.empty : Tracks V).run (assignOps ops)).1.Chain n 0 := by
  obtain ⟨h1, h2, h3⟩ := Tracks.assign_run ops (Tracks.empty : Tracks V) Tracks.empty_inv
    (fun p hp => by have := (hd p.1).1 ⟨p, hp, rfl⟩; omega)
  refine ⟨h1, ?_, ?_⟩
  · intro k
    rw [h3, hd]
    simp [Tracks.empty, SDict.empty, SDict.lookup]
  · intro x _
    rw [h2]
    rfl

/-- **C172 is false of assigned tracks.** When the numbers assigned are 0, 1, …, n − 1, the loop runs up to number 128
and raises ValueError. -/
theorem C172_assigned_raises (ops : List (Int × V)) (n : Nat) (hn : 0 < n) (hn' : n ≤ 128)
    (hd : ∀ k : Int, (∃ p ∈ ops, p.1 = k) ↔ 0 ≤ k ∧ k < n) (fresh : Int → V) (body : σ → V → Py σ)
    (hb : ∀ a k, ∃ a', body a (fresh k) = .ok a') (a : σ) :
    ((Tracks.empty : Tracks V).run (assignOps ops)).1.loop fresh body a = .error .value :=
  Tracks.loopGo_chain n hn fresh body (fun _ => True) (fun a k _ => (hb a k).imp (fun _ h => ⟨h, trivial⟩)) _ 0 _ a trivial
    (by omega) (Tracks.assign_chain ops n hn' hd) (by omega)

example : (((Tracks.empty : Tracks Nat).run (assignOps [(1, 1), (0, 2)])).1.loop (fun k => 100 + k.toNat) collect []).map (·.1) =
    .error .value := by decide +kernel

end

/-! ### The builder -/

theorem buildTrack_fresh (env : PyEnv) (o : BuildOpts) (p : Bool) (st : Builder × Option MGraph) (s : Song) (k : Int)
    (hst : ∀ g, st.2 = some g → g.nodes = []) :
    buildTrack env o p st (s.defaultTrack k) = if o.ok then .ok st else .error .value := by
  have hn : (s.defaultTrack k).notes = [] := by unfold Song.defaultTrack MSeq.mk' MSeq.notes; rfl
  have hd : (s.defaultTrack k).instr.isDrum = false := by unfold Song.defaultTrack MSeq.mk'; rfl
  have hc : ∀ tol f a, computeData env (s.defaultTrack k) tol f a = .ok ([], 0) := by
    intro tol f a
    unfold computeData
    rw [hn]
    cases f <;> rfl
  unfold buildTrack buildSequence
  rw [hd, hn]
  simp only [Bool.false_eq_true, if_false, List.length_nil, hc]
  by_cases ho : o.ok = true
  · simp only [ho, Bool.not_true, Bool.false_eq_true, if_false, bind, Except.bind, if_true]
    have : ((if p = true then none else st.2).getD DiGraph.empty : MGraph).nodes = [] := by
      by_cases hp : p = true
      · rw [if_pos hp]; rfl
      · rw [if_neg hp]
        cases h2 : st.2 with
        | none => rfl
        | some g => exact hst g h2
    rw [if_pos this, if_neg (by decide)]
  · simp only [ho, Bool.not_false, if_true, bind, Except.bind]
    simp

/-- **C172, building assigned songs.** A song filled by assignments gives no graph: `build` raises, or it ends with the
graphs the builder had before. -/
theorem C172_assigned_build (env : PyEnv) (b : Builder) (s : Song) (o : BuildOpts) (p : Bool) (ops : List (Int × MSeq))
    (hv : ∀ q ∈ ops, 0 ≤ q.1 ∧ q.1 < 128) (hs : s.tracks = ((Tracks.empty : Tracks MSeq).run (assignOps ops)).1)
    (r : Builder × Song) (hr : buildSong env b s o p = .ok r) : r.1 = b := by
  unfold buildSong at hr
  simp only [bind, Except.bind] at hr
  cases hl : s.tracks.loop s.defaultTrack (buildTrack env o p) (b, none) with
  | error e => rw [hl] at hr; cases hr
  | ok q =>
    rw [hl] at hr
    rw [hs] at hl
    obtain ⟨ks, hk⟩ := C172_assigned ops hv _ _ _ _ hl
    have key : ∀ ks : List Int, ks.foldlM (fun a k => buildTrack env o p a (s.defaultTrack k)) (b, none) = .ok q.1 → q.1 = (b, none) := by
      intro ks
      induction ks with
      | nil => intro h; exact (Except.ok.inj h).symm
      | cons k ks ih =>
        intro h
        rw [List.foldlM_cons, buildTrack_fresh env o p (b, none) s k (by simp)] at h
        by_cases ho : o.ok = true
        · rw [if_pos ho] at h
          exact ih h
        · rw [if_neg ho] at h
          cases h
    have e := key ks hk
    simp only [e] at hr
    cases hr
    rfl

/-- **C172, building assigned songs.** When the assigned numbers are 0, 1, …, n − 1, `build` raises ValueError. -/
theorem C172_assigned_build_raises (env : PyEnv) (b : Builder) (s : Song) (o : BuildOpts) (p : Bool) (ops : List (Int × MSeq))
    (n : Nat) (hn : 0 < n) (hn' : n ≤ 128) (hd : ∀ k : Int, (∃ q ∈ ops, q.1 = k) ↔ 0 ≤ k ∧ k < n)
    (hs : s.tracks = ((Tracks.empty : Tracks MSeq).run (assignOps ops)).1) : buildSong env b s o p = .error .value := by
  have hc := Tracks.assign_chain ops n hn' hd
  rw [← hs] at hc
  have hl : s.tracks.loop s.defaultTrack (buildTrack env o p) (b, none) = .error .value := by
    by_cases ho : o.ok = true
    · refine Tracks.loopGo_chain n hn s.defaultTrack (buildTrack env o p) (fun a => a = (b, none)) ?_ _ 0 _ _ rfl (by omega) hc
        (by omega)
      rintro a k rfl
      rw [buildTrack_fresh env o p (b, none) s k (by simp), if_pos ho]
      exact ⟨_, rfl, rfl⟩
    · have hiter := s.tracks.iter_range hc.inv (n + 0) hc.dom
      have hsome : s.tracks.iter[0]? = some (0 : Int) := by
        rw [hiter, List.getElem?_map, List.getElem?_range (by omega)]
        rfl
      unfold Tracks.loop
      rw [show s.tracks.len + 129 = s.tracks.len + 128 + 1 from rfl, Tracks.loopGo, hsome]
      rcases s.tracks.getItem_ok hc.inv (s.defaultTrack 0) 0 (by omega) with ⟨j, hj, _⟩ | ⟨_, t', ht, hg, hx, _⟩
      · rw [hc.new 0 (le_refl _)] at hj; cases hj
      · simp only [hg, bind, Except.bind]
        rw [buildTrack_fresh env o p (b, none) s 0 (by simp), if_neg ho]
  unfold buildSong
  rw [hl]
  rfl

theorem buildSong_visits (env : PyEnv) (b : Builder) (s : Song) (o : BuildOpts) (p : Bool) (vs : List MSeq) (t' : Tracks MSeq)
    (h : s.tracks.loop s.defaultTrack (buildTrack env o p) (b, none) = (do let a' ← vs.foldlM (buildTrack env o p) (b, none); .ok (a', t'))) :
    buildSong env b s o p = (do let b' ← build env b vs o p; .ok (b', { s with tracks := t' })) := by
  unfold buildSong build
  rw [h]
  simp only [bind, Except.bind]
  cases vs.foldlM (buildTrack env o p) (b, none) with
  | error e => rfl
  | ok q =>
    obtain ⟨b1, large⟩ := q
    cases large with
    | none => rfl
    | some g =>
      simp only []
      by_cases hp : p = true
      · simp [hp]
      · simp only [hp, Bool.false_eq_true, if_false]
        cases fromNetworkx g <;> rfl

/-- **C172, building.** Of a song whose tracks were made by accesses `song[i]` alone, the largest number accessed being
`m`, `build` uses those tracks and an empty one for every other number up to `m`; these stay in the song. -/
theorem C172_brackets_build (env : PyEnv) (b : Builder) (s : Song) (o : BuildOpts) (p : Bool) (ops : List (Int × MSeq))
    (hv : ∀ q ∈ ops, 0 ≤ q.1 ∧ q.1 < 128) (m : Nat) (hm : ∃ q ∈ ops, q.1 = m) (hmax : ∀ q ∈ ops, q.1 ≤ m)
    (hs : s.tracks = ((Tracks.empty : Tracks MSeq).run (bracketOps ops)).1) :
    ∃ t', t'.len = m + 1 ∧ buildSong env b s o p =
      (do let b' ← build env b ((List.range (m + 1)).map (fun k : Nat => (Spec.firstFor ops k).getD (s.defaultTrack k))) o p
          .ok (b', { s with tracks := t' })) := by
  obtain ⟨t', h1, h2⟩ := C172_brackets ops hv m hm hmax s.defaultTrack (buildTrack env o p) (b, none)
  refine ⟨t', h1, buildSong_visits env b s o p _ t' ?_⟩
  rw [hs]
  exact h2

/-- **C172, building.** Of a song whose tracks were created by `create_track` and `get_track`, `build` uses exactly those
tracks, in ascending order of the numbers, and leaves the song as it was. -/
theorem C172_created_build (env : PyEnv) (b : Builder) (s : Song) (o : BuildOpts) (p : Bool) (ops : List (Bool × Int × Int × MSeq))
    (hv : ∀ o ∈ ops, (0 ≤ o.2.1 ∧ o.2.1 < 128) ∧ (0 ≤ o.2.2.1 ∧ o.2.2.1 < 128))
    (hs : s.tracks = ((Tracks.empty : Tracks MSeq).run (ownOps ops)).1) :
    ∃ (ks : List Int) (vs : List MSeq), ks.Pairwise (· < ·) ∧ (∀ k, k ∈ ks ↔ ∃ o ∈ ops, o.2.1 = k) ∧
      vs.map some = ks.map (Spec.firstFor (ops.map (fun o => (o.2.1, o.2.2.2)))) ∧
      buildSong env b s o p = (do let b' ← build env b vs o p; .ok (b', s)) := by
  obtain ⟨ks, vs, h1, h2, h3, h4⟩ := C172_created ops hv s.defaultTrack (buildTrack env o p) (b, none)
  refine ⟨ks, vs, h1, h2, h3, buildSong_visits env b s o p vs s.tracks ?_⟩
  rw [hs]
  exact h4

/-- **C172, building.** Of a song made of sequences with instrument numbers 0 to 127, `build` uses exactly the tracks, in
order, and leaves the song as it was. -/
theorem C172_imported_build (srt : List Note → List Note) (hsrt : IsPySort Note.lt srt) (l : List MSeq) (env : PyEnv) (b : Builder)
    (s : Song) (o : BuildOpts) (p : Bool) (ht : Tracks.ofSeqs srt l = .ok s.tracks)
    (hn : ∀ q ∈ l, 0 ≤ q.instr.num ∧ q.instr.num < 128) :
    ∃ vs, s.tracks.allSeqs = .ok vs ∧ buildSong env b s o p = (do let b' ← build env b vs o p; .ok (b', s)) := by
  obtain ⟨vs, h1, h2⟩ := C172_imported srt hsrt l s.tracks ht hn s.defaultTrack (buildTrack env o p) (b, none)
  exact ⟨vs, h1, buildSong_visits env b s o p vs s.tracks h2⟩

/-- The hypotheses of the theorems about `build` are met by songs of their kind. -/
example : ∃ s : Song, s.tracks = ((Tracks.empty : Tracks MSeq).run (assignOps [(1, MSeq.mk' [exNote] { num := 0, name := "a", isDrum := false }),
      (0, MSeq.mk' [exNote] { num := 0, name := "b", isDrum := false })])).1 ∧
    ∀ k : Int, (∃ q ∈ [((1 : Int), MSeq.mk' [exNote] { num := 0, name := "a", isDrum := false }),
      (0, MSeq.mk' [exNote] { num := 0, name := "b", isDrum := false })], q.1 = k) ↔ 0 ≤ k ∧ k < (2 : Nat) :=
  ⟨{ Song.new 480 with tracks := _ }, rfl, fun k => by simp; omega⟩

end NGC
