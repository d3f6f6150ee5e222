import Verif.Sequences
import Verif.SignatureProps
import Mathlib.Data.List.Induction
import Mathlib.Tactic.Linarith

/-! Properties C34, C35, C82: signature lists of a sequence set. -/

namespace NGC

section
variable {S : Type} [Sig S]

namespace Spec

/-- Two times are equal or clearly apart: at least the 1e-6 replacement distance and more than the
1e-9 relative comparison tolerance. -/
def Apart (a b : ℚ) : Prop :=
  a = b ∨ (1/1000000 ≤ |a - b| ∧ 1/1000000000 * max |a| |b| < |a - b|)

/-- A signature up to its internal sequence number. -/
def Same (a b : S) : Prop := Sig.setSeq a 0 = Sig.setSeq b 0

end Spec

/-- A history of additions. -/
def addSigs (l : List S) (vs : List S) : Py (List S) := vs.foldlM addSig l

/-- On times that are equal or apart the order is lexicographic in time and sequence number. -/
theorem sigLt_lex (a b : S) (h : Spec.Apart (Sig.time a) (Sig.time b)) :
    Sig.lt a b = true ↔ Sig.time a < Sig.time b ∨ (Sig.time a = Sig.time b ∧ Sig.seq a < Sig.seq b) := by
  unfold Sig.lt
  rcases h with h | ⟨_, h⟩
  · rw [h, (C78_sig_order (Sig.time b) (Sig.time b) (Sig.seq a) (Sig.seq b)).2.2.2]
    simp
  · rw [(C78_sig_order (Sig.time a) (Sig.time b) (Sig.seq a) (Sig.seq b)).2.2.1 h]
    constructor
    · exact Or.inl
    · rintro (h1 | ⟨h1, _⟩)
      · exact h1
      · exfalso
        rw [h1] at h
        simp only [sub_self, abs_zero] at h
        have : (0 : ℚ) ≤ 1/1000000000 * max |Sig.time b| |Sig.time b| := by positivity
        linarith

theorem sigLt_strictWeak (l : List S)
    (h : ∀ a ∈ l, ∀ b ∈ l, Spec.Apart (Sig.time a) (Sig.time b)) : StrictWeakOn Sig.lt l := by
  refine ⟨?_, ?_⟩
  · intro a ha b hb hab
    rw [sigLt_lex a b (h a ha b hb)] at hab
    rw [← Bool.not_eq_true, sigLt_lex b a (h b hb a ha)]
    rintro (h1 | ⟨h1, h2⟩)
    · rcases hab with h3 | ⟨h3, _⟩ <;> linarith
    · rcases hab with h3 | ⟨_, h3⟩
      · linarith
      · omega
  · intro a ha b hb c hc hac
    rw [sigLt_lex a c (h a ha c hc)] at hac
    rw [sigLt_lex a b (h a ha b hb), sigLt_lex b c (h b hb c hc)]
    rcases lt_trichotomy (Sig.time a) (Sig.time b) with h1 | h1 | h1
    · exact Or.inl (Or.inl h1)
    · rcases lt_trichotomy (Sig.time b) (Sig.time c) with h2 | h2 | h2
      · exact Or.inr (Or.inl h2)
      · rcases hac with h3 | ⟨_, h3⟩
        · linarith
        · rcases lt_or_ge (Sig.seq a) (Sig.seq b) with h4 | h4
          · exact Or.inl (Or.inr ⟨h1, h4⟩)
          · exact Or.inr (Or.inr ⟨h2, by omega⟩)
      · rcases hac with h3 | ⟨h3, _⟩ <;> linarith
    · right; left
      rcases hac with h3 | ⟨h3, _⟩ <;> linarith

/-! ## C34 -/

/-- The signature in force at time 0 after the additions: the last one added at time 0. -/
def Spec.lastAtZero (d : S) (vs : List S) : S :=
  vs.foldl (fun acc v => if Sig.time v = 0 then v else acc) d

/-- Invariant of the list during a history. -/
structure SigInv (d : S) (vs l : List S) : Prop where
  head : ∃ h rest, l = h :: rest ∧ Sig.time h = 0 ∧ Spec.Same h (Spec.lastAtZero d vs) ∧
    (∀ r ∈ rest, 0 < Sig.time r) ∧
    (rest.map (fun s => Sig.setSeq s 0)).Perm
      ((vs.filter (fun v => decide (Sig.time v ≠ 0))).map (fun s => Sig.setSeq s 0))
  sorted : SortedLt Sig.lt l
  seqs : ∀ s ∈ l, 0 ≤ Sig.seq s
  pos : ∀ s ∈ l.tail, 1 ≤ Sig.seq s
  zero : ∀ s, l.head? = some s → (Sig.seq s = 0 ↔ ∀ v ∈ vs, Sig.time v ≠ 0)

theorem addSig_head (h : S) (rest : List S) (v : S) :
    ∃ k, (k = Sig.seq ((h :: rest).getLast (by simp)) + 1) ∧ addSig (h :: rest) v =
      .ok (if isCloseToZero (Sig.time h) (Sig.time v) then Sig.setSeq v k :: rest
        else insortLeft Sig.lt (h :: rest) (Sig.setSeq v k)) := by
  refine ⟨_, rfl, ?_⟩
  unfold addSig
  rw [List.getLast?_eq_getLast (by simp)]
  simp only [Sig.time_setSeq]
  split_ifs <;> rfl

theorem mem_times (l : List S) (vs : List S) (d : S) (h0 : Sig.time d = 0)
    (h : SigInv d vs l) : ∀ s ∈ l, Sig.time s = 0 ∨ Sig.time s ∈ vs.map Sig.time := by
  obtain ⟨hd, rest, rfl, h1, _, _, h4⟩ := h.head
  intro s hs
  rcases List.mem_cons.1 hs with rfl | hs
  · exact Or.inl h1
  · right
    have : Sig.setSeq s 0 ∈ rest.map (fun s => Sig.setSeq s 0) := List.mem_map.2 ⟨s, hs, rfl⟩
    rw [h4.mem_iff] at this
    obtain ⟨w, hw, he⟩ := List.mem_map.1 this
    refine List.mem_map.2 ⟨w, (List.mem_filter.1 hw).1, ?_⟩
    rw [← Sig.time_setSeq w 0, he, Sig.time_setSeq]

theorem lastAtZero_append (d : S) (vs : List S) (v : S) :
    Spec.lastAtZero d (vs ++ [v]) = if Sig.time v = 0 then v else Spec.lastAtZero d vs := by
  unfold Spec.lastAtZero
  rw [List.foldl_append]; rfl

theorem addSig_inv (d : S) (vs l : List S) (v : S) (h0 : Sig.time d = 0) (h : SigInv d vs l)
    (hv : 0 ≤ Sig.time v)
    (hap : ∀ a ∈ (0 : ℚ) :: (vs ++ [v]).map Sig.time, ∀ b ∈ (0 : ℚ) :: (vs ++ [v]).map Sig.time,
      Spec.Apart a b) :
    ∃ l', addSig l v = .ok l' ∧ SigInv d (vs ++ [v]) l' := by
  obtain ⟨hd, rest, rfl, h1, h2, h3, h4⟩ := h.head
  obtain ⟨k, hk, he⟩ := addSig_head hd rest v
  have hk1 : 1 ≤ k := by
    have := h.seqs _ (List.getLast_mem (l := hd :: rest) (by simp))
    omega
  refine ⟨_, he, ?_⟩
  have htimes := mem_times _ vs d h0 h
  have hmem : ∀ s ∈ hd :: rest, Sig.time s ∈ (0 : ℚ) :: (vs ++ [v]).map Sig.time := by
    intro s hs
    rcases htimes s hs with h | h
    · rw [h]; simp
    · rw [List.map_append]; simp [h]
  have hvmem : Sig.time v ∈ (0 : ℚ) :: (vs ++ [v]).map Sig.time := by simp
  by_cases hv0 : Sig.time v = 0
  · have hc : isCloseToZero (Sig.time hd) (Sig.time v) = true := by
      rw [h1, hv0]; simp [isCloseToZero]
    rw [if_pos hc]
    refine ⟨⟨_, _, rfl, by rw [Sig.time_setSeq, hv0], ?_, h3, ?_⟩, ?_, ?_, ?_, ?_⟩
    · rw [lastAtZero_append, if_pos hv0]
      unfold Spec.Same
      rw [Sig.setSeq_setSeq]
    · rw [List.filter_append, List.filter_cons_of_neg (by simpa using hv0)]
      simpa using h4
    · have hs := h.sorted
      unfold SortedLt at hs ⊢
      rw [List.pairwise_cons] at hs ⊢
      refine ⟨?_, hs.2⟩
      intro b hb
      rw [← Bool.not_eq_true, sigLt_lex _ _ (by
        rw [Sig.time_setSeq]
        exact hap _ (hmem b (List.mem_cons_of_mem _ hb)) _ hvmem), Sig.time_setSeq, hv0]
      have := h3 b hb
      rintro (h | ⟨h, _⟩) <;> linarith
    · intro s hs
      rcases List.mem_cons.1 hs with rfl | hs
      · rw [Sig.seq_setSeq]; omega
      · exact h.seqs s (List.mem_cons_of_mem _ hs)
    · exact h.pos
    · intro s hs
      simp only [List.head?_cons, Option.some.injEq] at hs
      subst hs
      rw [Sig.seq_setSeq]
      constructor
      · intro h; omega
      · intro h; exact absurd hv0 (h v (by simp))
  · have hvpos : 0 < Sig.time v := lt_of_le_of_ne hv (Ne.symm hv0)
    have hc : ¬ isCloseToZero (Sig.time hd) (Sig.time v) = true := by
      rw [h1]
      simp only [isCloseToZero, decide_eq_true_eq, not_lt]
      rcases hap 0 (by simp) (Sig.time v) hvmem with h | h
      · exact absurd h.symm hv0
      · exact h.1
    rw [if_neg hc]
    have hwk : StrictWeakOn Sig.lt (Sig.setSeq v k :: hd :: rest) := by
      apply sigLt_strictWeak
      have hm : ∀ a ∈ Sig.setSeq v k :: hd :: rest, Sig.time a ∈ (0 : ℚ) :: (vs ++ [v]).map Sig.time := by
        intro a ha
        rcases List.mem_cons.1 ha with rfl | ha
        · rw [Sig.time_setSeq]; exact hvmem
        · exact hmem a ha
      exact fun a ha b hb => hap _ (hm a ha) _ (hm b hb)
    have hsorted := insortLeft_sorted Sig.lt (hd :: rest) (Sig.setSeq v k) hwk h.sorted
    have hlt : Sig.lt hd (Sig.setSeq v k) = true := by
      rw [sigLt_lex _ _ (by rw [Sig.time_setSeq]; exact hap _ (hmem hd (by simp)) _ hvmem),
        Sig.time_setSeq, h1]
      exact Or.inl hvpos
    obtain ⟨hle, _, hb2⟩ := bisectLeft_spec Sig.lt (hd :: rest) (Sig.setSeq v k) hwk h.sorted
    have hpos : 1 ≤ bisectLeft Sig.lt (hd :: rest) (Sig.setSeq v k) := by
      by_contra hc
      have := hb2 0 (by simp) (by omega)
      simp only [List.getElem_cons_zero] at this
      rw [this] at hlt; cases hlt
    obtain ⟨m, hm⟩ : ∃ m, bisectLeft Sig.lt (hd :: rest) (Sig.setSeq v k) = m + 1 :=
      ⟨_, (Nat.succ_pred_eq_of_pos hpos).symm⟩
    have hform : insortLeft Sig.lt (hd :: rest) (Sig.setSeq v k) =
        hd :: pyInsert rest m (Sig.setSeq v k) := by
      unfold insortLeft
      rw [hm]; rfl
    rw [hform] at hsorted ⊢
    refine ⟨⟨hd, _, rfl, h1, ?_, ?_, ?_⟩, hsorted, ?_, ?_, ?_⟩
    · rw [lastAtZero_append, if_neg hv0]; exact h2
    · intro r hr
      rw [mem_pyInsert] at hr
      rcases hr with rfl | hr
      · rw [Sig.time_setSeq]; exact hvpos
      · exact h3 r hr
    · refine ((pyInsert_perm rest m (Sig.setSeq v k)).map _).trans ?_
      rw [List.filter_append, List.filter_cons_of_pos (by simpa using hv0), List.map_append,
        List.filter_nil, List.map_cons, List.map_cons, List.map_nil, Sig.setSeq_setSeq]
      refine (h4.cons _).trans ?_
      exact (List.perm_append_singleton _ _).symm
    · intro s hs
      rcases List.mem_cons.1 hs with rfl | hs
      · exact h.seqs s (by simp)
      · rw [mem_pyInsert] at hs
        rcases hs with rfl | hs
        · rw [Sig.seq_setSeq]; omega
        · exact h.seqs s (List.mem_cons_of_mem _ hs)
    · intro s hs
      change s ∈ pyInsert rest m _ at hs
      rw [mem_pyInsert] at hs
      rcases hs with rfl | hs
      · rw [Sig.seq_setSeq]; exact hk1
      · exact h.pos s hs
    · intro s hs
      rw [h.zero s hs]
      constructor
      · intro h' w hw
        rcases List.mem_append.1 hw with hw | hw
        · exact h' w hw
        · rw [List.mem_singleton] at hw; subst hw; exact hv0
      · intro h' w hw; exact h' w (by simp [hw])

theorem addSigs_inv (d : S) (h0 : Sig.time d = 0) (hd : Sig.seq d = 0) (vs : List S)
    (hv : ∀ v ∈ vs, 0 ≤ Sig.time v)
    (hap : ∀ a ∈ (0 : ℚ) :: vs.map Sig.time, ∀ b ∈ (0 : ℚ) :: vs.map Sig.time, Spec.Apart a b) :
    ∃ l, addSigs [d] vs = .ok l ∧ SigInv d vs l := by
  induction vs using List.reverseRecOn with
  | nil =>
    refine ⟨[d], rfl, ⟨d, [], rfl, h0, rfl, by simp, List.Perm.refl _⟩, by simp [SortedLt],
      by simp [hd], by simp, by rintro s ⟨⟩; simp [hd]⟩
  | append_singleton vs v ih =>
    obtain ⟨l, h1, h2⟩ := ih (fun w hw => hv w (by simp [hw])) (fun a ha b hb => hap a (by
        rw [List.map_append]; rcases List.mem_cons.1 ha with rfl | ha <;> simp_all) b (by
        rw [List.map_append]; rcases List.mem_cons.1 hb with rfl | hb <;> simp_all))
    obtain ⟨l', g1, g2⟩ := addSig_inv d vs l v h0 h2 (hv v (by simp)) hap
    refine ⟨l', ?_, g2⟩
    unfold addSigs at h1 ⊢
    rw [List.foldlM_append, h1]
    show (List.foldlM addSig l [v]) = _
    rw [List.foldlM_cons, g1]; rfl

/-- C34: start from the default list (one signature at time 0) and add any signatures at
non-negative times that are pairwise equal or apart (Spec.Apart). Then no addition raises; the list is
sorted by time; its first entry is at time 0 and is the signature added last at time 0 (or the
default); all other entries are at least 1e-6 later and are exactly the signatures added at other
times, none lost and none twice. Boundary: times closer than that (`C34_drift_loses`), the empty
list (`C34_empty_raises`) and negative times. -/
theorem C34_history (d : S) (h0 : Sig.time d = 0) (hd : Sig.seq d = 0) (vs : List S)
    (hv : ∀ v ∈ vs, 0 ≤ Sig.time v)
    (hap : ∀ a ∈ (0 : ℚ) :: vs.map Sig.time, ∀ b ∈ (0 : ℚ) :: vs.map Sig.time, Spec.Apart a b) :
    ∃ l, addSigs [d] vs = .ok l ∧ l.Pairwise (fun a b => Sig.time a ≤ Sig.time b) ∧
      ∃ h rest, l = h :: rest ∧ Sig.time h = 0 ∧ Spec.Same h (Spec.lastAtZero d vs) ∧
        (∀ r ∈ rest, 1/1000000 ≤ Sig.time r) ∧
        (rest.map (fun s => Sig.setSeq s 0)).Perm
          ((vs.filter (fun v => decide (Sig.time v ≠ 0))).map (fun s => Sig.setSeq s 0)) := by
  obtain ⟨l, h1, h2⟩ := addSigs_inv d h0 hd vs hv hap
  have htimes := mem_times l vs d h0 h2
  have hmem : ∀ s ∈ l, Sig.time s ∈ (0 : ℚ) :: vs.map Sig.time := by
    intro s hs
    rcases htimes s hs with h | h
    · rw [h]; simp
    · simp [h]
  refine ⟨l, h1, ?_, ?_⟩
  · refine List.Pairwise.imp_of_mem ?_ h2.sorted
    intro a b ha hb hba
    rw [← Bool.not_eq_true, sigLt_lex b a (hap _ (hmem b hb) _ (hmem a ha))] at hba
    by_contra hc
    exact hba (Or.inl (not_le.1 hc))
  · obtain ⟨h, rest, rfl, g1, g2, g3, g4⟩ := h2.head
    refine ⟨h, rest, rfl, g1, g2, ?_, g4⟩
    intro r hr
    rcases hap 0 (by simp) _ (hmem r (List.mem_cons_of_mem _ hr)) with e | e
    · have := g3 r hr; linarith
    · have h3 := g3 r hr
      have := e.1
      rwa [zero_sub, abs_neg, abs_of_pos h3] at this

end

example : addSigs [({ time := 0, numer := 4, denom := 4 } : TimeSig)]
    [{ time := 5, numer := 3, denom := 4 }, { time := 0, numer := 6, denom := 8 },
     { time := 2, numer := 2, denom := 4 }, { time := 5, numer := 5, denom := 4 }] =
    .ok [{ time := 0, numer := 6, denom := 8, seq := 2 }, { time := 2, numer := 2, denom := 4, seq := 2 },
      { time := 5, numer := 3, denom := 4, seq := 1 }, { time := 5, numer := 5, denom := 4, seq := 2 }] := by
  decide +kernel

example : ∀ a ∈ [(0 : ℚ), 5, 0, 2, 5], ∀ b ∈ [(0 : ℚ), 5, 0, 2, 5], Spec.Apart a b := by
  intro a ha b hb
  simp only [List.mem_cons, List.not_mem_nil, or_false] at ha hb
  unfold Spec.Apart
  rcases ha with rfl | rfl | rfl | rfl | rfl <;> rcases hb with rfl | rfl | rfl | rfl | rfl <;>
    first
    | (left; rfl)
    | (right; decide +kernel)

/-- C34 is false for close times: additions at 0.9e-6 and 1.8e-6 each replace the first entry, so the
first signature is lost and the list no longer has an entry within 1e-6 of time 0. -/
theorem C34_drift_loses :
    addSigs [({ time := 0, numer := 4, denom := 4 } : TimeSig)]
      [{ time := 9/10000000, numer := 3, denom := 4 }, { time := 18/10000000, numer := 2, denom := 4 }] =
      .ok [{ time := 18/10000000, numer := 2, denom := 4, seq := 2 }] := by decide +kernel

/-- C34: with an empty list (which the constructor accepts) every addition raises IndexError. -/
theorem C34_empty_raises {S : Type} [Sig S] (v : S) (vs : List S) :
    addSigs [] (v :: vs) = .error .index := rfl

/-! ## C82 order of signatures at equal times -/

/-- C82 is false: of two signatures added for the same time the later one can be listed first
(the sequence number is derived from the last list entry, not from the last addition). -/
theorem C82_received_order_reversed :
    addSigs [({ time := 0, numer := 4, denom := 4 } : TimeSig)]
      [{ time := 5, numer := 1, denom := 4 }, { time := 3, numer := 2, denom := 4 },
       { time := 3, numer := 3, denom := 4 }] =
    .ok [{ time := 0, numer := 4, denom := 4 }, { time := 3, numer := 3, denom := 4, seq := 2 },
      { time := 3, numer := 2, denom := 4, seq := 2 }, { time := 5, numer := 1, denom := 4, seq := 1 }] := by
  decide +kernel

section
variable {S : Type} [Sig S]

/-- C82: if signatures are added in order of time (as a file reader does), at positive times
that are equal or apart, the list is the default followed by the additions in the order received.
Boundary: additions out of time order (`C82_received_order_reversed`). -/
theorem C82_in_order (d : S) (h0 : Sig.time d = 0) (hd : Sig.seq d = 0) (vs : List S)
    (hv : ∀ v ∈ vs, 0 < Sig.time v) (hs : vs.Pairwise (fun a b => Sig.time a ≤ Sig.time b))
    (hap : ∀ a ∈ (0 : ℚ) :: vs.map Sig.time, ∀ b ∈ (0 : ℚ) :: vs.map Sig.time, Spec.Apart a b) :
    ∃ l, addSigs [d] vs = .ok l ∧
      l.map (fun s => Sig.setSeq s 0) = (d :: vs).map (fun s => Sig.setSeq s 0) := by
  have key : ∀ vs : List S, (∀ v ∈ vs, 0 < Sig.time v) → vs.Pairwise (fun a b => Sig.time a ≤ Sig.time b) →
      (∀ a ∈ (0 : ℚ) :: vs.map Sig.time, ∀ b ∈ (0 : ℚ) :: vs.map Sig.time, Spec.Apart a b) →
      ∃ l, addSigs [d] vs = .ok l ∧ SigInv d vs l ∧
        l.map (fun s => Sig.setSeq s 0) = (d :: vs).map (fun s => Sig.setSeq s 0) ∧
        ∃ lst, l.getLast? = some lst ∧ ∀ s ∈ l, Sig.time s < Sig.time lst ∨
          (Sig.time s = Sig.time lst ∧ Sig.seq s ≤ Sig.seq lst) := by
    intro vs
    induction vs using List.reverseRecOn with
    | nil =>
      intro _ _ _
      refine ⟨[d], rfl, ⟨⟨d, [], rfl, h0, rfl, by simp, List.Perm.refl _⟩, by simp [SortedLt],
        by simp [hd], by simp, by rintro s ⟨⟩; simp [hd]⟩, rfl, d, rfl, ?_⟩
      intro s hs
      simp at hs; subst hs
      exact Or.inr ⟨rfl, le_refl _⟩
    | append_singleton vs v ih =>
      intro hv hs hap
      have hap' : ∀ a ∈ (0 : ℚ) :: vs.map Sig.time, ∀ b ∈ (0 : ℚ) :: vs.map Sig.time, Spec.Apart a b :=
        fun a ha b hb => hap a (by
          rw [List.map_append]; rcases List.mem_cons.1 ha with rfl | ha <;> simp_all) b (by
          rw [List.map_append]; rcases List.mem_cons.1 hb with rfl | hb <;> simp_all)
      rw [List.pairwise_append] at hs
      obtain ⟨l, h1, h2, h3, lst, hl, hmax⟩ := ih (fun w hw => hv w (by simp [hw])) hs.1 hap'
      have hvp := hv v (by simp)
      obtain ⟨l', g1, g2⟩ := addSig_inv d vs l v h0 h2 (le_of_lt hvp) hap
      have htimes := mem_times l vs d h0 h2
      have hmem : ∀ s ∈ l, Sig.time s ∈ (0 : ℚ) :: (vs ++ [v]).map Sig.time := by
        intro s hs
        rcases htimes s hs with h | h
        · rw [h]; simp
        · rw [List.map_append]; simp [h]
      have hvmem : Sig.time v ∈ (0 : ℚ) :: (vs ++ [v]).map Sig.time := by simp
      -- every stored signature is before the new one
      have hlstle : Sig.time lst ≤ Sig.time v := by
        rcases htimes lst (List.mem_of_getLast? hl) with h | h
        · linarith
        · obtain ⟨w, hw, he⟩ := List.mem_map.1 h
          rw [← he]; exact hs.2.2 w hw v (by simp)
      obtain ⟨h, rest, rfl, e1, _, _, _⟩ := h2.head
      obtain ⟨k, hk, he⟩ := addSig_head h rest v
      have hlast : (h :: rest).getLast (by simp) = lst := by
        rw [List.getLast?_eq_getLast (by simp)] at hl
        exact Option.some.inj hl
      rw [hlast] at hk
      have hc : ¬ isCloseToZero (Sig.time h) (Sig.time v) = true := by
        rw [e1]
        simp only [isCloseToZero, decide_eq_true_eq, not_lt]
        rcases hap 0 (by simp) (Sig.time v) hvmem with h | h
        · linarith
        · exact h.1
      rw [if_neg hc] at he
      have hall : ∀ s ∈ h :: rest, Sig.lt s (Sig.setSeq v k) = true := by
        intro s hs
        rw [sigLt_lex _ _ (by rw [Sig.time_setSeq]; exact hap _ (hmem s hs) _ hvmem),
          Sig.time_setSeq, Sig.seq_setSeq]
        rcases hmax s hs with h | ⟨h, h'⟩
        · left; linarith
        · rcases lt_or_eq_of_le hlstle with h'' | h''
          · left; linarith
          · right; exact ⟨h.trans h'', by omega⟩
      have hw : StrictWeakOn Sig.lt (Sig.setSeq v k :: h :: rest) := by
        apply sigLt_strictWeak
        have hm : ∀ a ∈ Sig.setSeq v k :: h :: rest, Sig.time a ∈ (0 : ℚ) :: (vs ++ [v]).map Sig.time := by
          intro a ha
          rcases List.mem_cons.1 ha with rfl | ha
          · rw [Sig.time_setSeq]; exact hvmem
          · exact hmem a ha
        exact fun a ha b hb => hap _ (hm a ha) _ (hm b hb)
      obtain ⟨hle, _, hb2⟩ := bisectLeft_spec Sig.lt (h :: rest) (Sig.setSeq v k) hw h2.sorted
      have hidx : bisectLeft Sig.lt (h :: rest) (Sig.setSeq v k) = (h :: rest).length := by
        rcases Nat.lt_or_ge (bisectLeft Sig.lt (h :: rest) (Sig.setSeq v k)) (h :: rest).length with hlt | hge
        · have h5 := hb2 _ hlt (le_refl _)
          have h6 := hall ((h :: rest)[bisectLeft Sig.lt (h :: rest) (Sig.setSeq v k)]) (List.getElem_mem hlt)
          rw [h6] at h5; cases h5
        · omega
      have hins : insortLeft Sig.lt (h :: rest) (Sig.setSeq v k) = (h :: rest) ++ [Sig.setSeq v k] := by
        unfold insortLeft pyInsert
        rw [hidx, List.take_length, List.drop_length]
      rw [hins] at he
      rw [he] at g1
      cases g1
      refine ⟨_, ?_, g2, ?_, Sig.setSeq v k, List.getLast?_concat, ?_⟩
      · unfold addSigs at h1 ⊢
        rw [List.foldlM_append, h1]
        show (List.foldlM addSig (h :: rest) [v]) = _
        rw [List.foldlM_cons, he]; rfl
      · rw [List.map_append, h3]
        simp [Sig.setSeq_setSeq]
      · intro s hs
        rw [List.mem_append, List.mem_singleton] at hs
        rw [Sig.time_setSeq, Sig.seq_setSeq]
        rcases hs with hs | rfl
        · rcases hmax s hs with h | ⟨h, h'⟩
          · left; linarith
          · rcases lt_or_eq_of_le hlstle with h'' | h''
            · left; linarith
            · right; exact ⟨h.trans h'', by omega⟩
        · right; rw [Sig.time_setSeq, Sig.seq_setSeq]; exact ⟨rfl, le_refl _⟩
  obtain ⟨l, h1, _, h3, _⟩ := key vs hv hs hap
  exact ⟨l, h1, h3⟩

/-! ## C35 lookup -/

/-- What the lookup really selects on a sorted list: the last entry of the longest prefix of entries
that start before the time, or start exactly at it with sequence number at most 0; and the last
entry of the whole list if there is no such entry. -/
theorem sigAt_exact (l : List S) (probe : S) (hs : SortedLt Sig.lt l)
    (hap : ∀ a ∈ probe :: l, ∀ b ∈ probe :: l, Spec.Apart (Sig.time a) (Sig.time b)) :
    ∃ pre post, l = pre ++ post ∧
      (∀ p ∈ pre, Sig.time p < Sig.time probe ∨ (Sig.time p = Sig.time probe ∧ Sig.seq p ≤ Sig.seq probe)) ∧
      (∀ p ∈ post, Sig.time probe < Sig.time p ∨ (Sig.time p = Sig.time probe ∧ Sig.seq probe < Sig.seq p)) ∧
      sigAt l probe = if pre = [] then l.getLast? else pre.getLast? := by
  obtain ⟨hle, h1, h2⟩ := bisectRight_spec Sig.lt l probe (sigLt_strictWeak _ hap) hs
  refine ⟨l.take (bisectRight Sig.lt l probe), l.drop (bisectRight Sig.lt l probe),
    (List.take_append_drop _ _).symm, ?_, ?_, ?_⟩
  · intro p hp
    have hpl := List.mem_of_mem_take hp
    obtain ⟨i, hi, rfl⟩ := List.getElem_of_mem hp
    rw [List.length_take] at hi
    rw [List.getElem_take] at hpl ⊢
    have := h1 i (by omega) (by omega)
    rw [← Bool.not_eq_true, sigLt_lex _ _ (hap _ (by simp) _ (List.mem_cons_of_mem _ hpl))] at this
    push Not at this
    rcases lt_or_eq_of_le this.1 with h | h
    · exact Or.inl h
    · exact Or.inr ⟨h, this.2 h.symm⟩
  · intro p hp
    have hpl := List.mem_of_mem_drop hp
    obtain ⟨i, hi, rfl⟩ := List.getElem_of_mem hp
    rw [List.length_drop] at hi
    rw [List.getElem_drop] at hpl ⊢
    have := h2 _ (by omega : bisectRight Sig.lt l probe + i < l.length) (by omega)
    rw [sigLt_lex _ _ (hap _ (by simp) _ (List.mem_cons_of_mem _ hpl))] at this
    rcases this with h | ⟨h, h'⟩
    · exact Or.inl h
    · exact Or.inr ⟨h.symm, h'⟩
  · unfold sigAt atPred
    by_cases h0 : bisectRight Sig.lt l probe = 0
    · rw [if_pos h0, if_pos (by rw [h0]; rfl)]
    · have hne : l.take (bisectRight Sig.lt l probe) ≠ [] := by
        intro he
        have := congrArg List.length he
        rw [List.length_take, List.length_nil] at this
        omega
      rw [if_neg h0, if_neg hne, List.getLast?_eq_getElem?, List.length_take,
        Nat.min_eq_left hle, List.getElem?_take, if_pos (by omega)]

/-- C35: after any history as in C34, looking up a positive time at which no signature starts
selects a signature that starts before the time and such that no other one starts between it and the
time. Boundary: the start times themselves (`C35_lookup_at_start`). -/
theorem C35_lookup (d : S) (h0 : Sig.time d = 0) (hd : Sig.seq d = 0) (vs : List S)
    (hv : ∀ v ∈ vs, 0 ≤ Sig.time v) (probe : S) (hpos : 0 < Sig.time probe)
    (hnot : ∀ v ∈ vs, Sig.time v ≠ Sig.time probe)
    (hap : ∀ a ∈ (0 : ℚ) :: Sig.time probe :: vs.map Sig.time,
      ∀ b ∈ (0 : ℚ) :: Sig.time probe :: vs.map Sig.time, Spec.Apart a b) :
    ∃ l s, addSigs [d] vs = .ok l ∧ sigAt l probe = some s ∧ s ∈ l ∧ Sig.time s < Sig.time probe ∧
      ∀ x ∈ l, Sig.time x ≤ Sig.time s ∨ Sig.time probe < Sig.time x := by
  obtain ⟨l, h1, h2⟩ := addSigs_inv d h0 hd vs hv (fun a ha b hb => hap a (by
      rcases List.mem_cons.1 ha with rfl | ha <;> simp_all) b (by
      rcases List.mem_cons.1 hb with rfl | hb <;> simp_all))
  have htimes := mem_times l vs d h0 h2
  have hmem : ∀ s ∈ probe :: l, Sig.time s ∈ (0 : ℚ) :: Sig.time probe :: vs.map Sig.time := by
    intro s hs
    rcases List.mem_cons.1 hs with rfl | hs
    · simp
    · rcases htimes s hs with h | h
      · rw [h]; simp
      · simp [h]
  obtain ⟨pre, post, e1, e2, e3, e4⟩ := sigAt_exact l probe h2.sorted
    (fun a ha b hb => hap _ (hmem a ha) _ (hmem b hb))
  have hne : ∀ s ∈ l, Sig.time s ≠ Sig.time probe := by
    intro s hs
    rcases htimes s hs with h | h
    · rw [h]; exact ne_of_lt hpos
    · obtain ⟨v, hv', he⟩ := List.mem_map.1 h
      rw [← he]; exact hnot v hv'
  obtain ⟨h, rest, hl, g1, _⟩ := h2.head
  have hpre : pre ≠ [] := by
    rintro rfl
    rw [List.nil_append] at e1
    have hm : h ∈ post := by rw [← e1, hl]; simp
    rcases e3 h hm with h' | ⟨h', _⟩
    · rw [g1] at h'; linarith
    · exact hne h (by rw [hl]; simp) h'
  rw [if_neg hpre] at e4
  have hlast := List.getLast?_eq_getLast hpre
  have hsp := List.getLast_mem hpre
  set s := pre.getLast hpre with hs
  have hsl : s ∈ l := by rw [e1]; simp [hsp]
  have hst : Sig.time s < Sig.time probe := by
    rcases e2 s hsp with h' | ⟨h', _⟩
    · exact h'
    · exact absurd h' (hne s hsl)
  refine ⟨l, s, h1, by rw [e4, hlast], hsl, hst, ?_⟩
  intro x hx
  rw [e1, List.mem_append] at hx
  rcases hx with hx | hx
  · left
    have hsort := h2.sorted
    rw [e1] at hsort
    unfold SortedLt at hsort
    rw [List.pairwise_append] at hsort
    have hsplit : pre = pre.dropLast ++ [s] := (List.dropLast_append_getLast hpre).symm
    rw [hsplit, List.mem_append, List.mem_singleton] at hx
    rcases hx with hx | rfl
    · have hp := hsort.1
      rw [hsplit, List.pairwise_append] at hp
      have := hp.2.2 x hx s (by simp)
      have hxl : x ∈ l := by
        rw [e1, hsplit]; simp [hx]
      rw [← Bool.not_eq_true, sigLt_lex s x (hap _ (hmem s (List.mem_cons_of_mem _ hsl)) _
        (hmem x (List.mem_cons_of_mem _ hxl)))] at this
      by_contra hc
      exact this (Or.inl (not_le.1 hc))
    · exact le_refl _
  · right
    rcases e3 x hx with h' | ⟨h', _⟩
    · exact h'
    · exact absurd h' (hne x (by rw [e1]; simp [hx]))

/-- C35 is false at the start times: looking up exactly the time at which an added signature starts
never selects a signature that starts there; it selects one that starts earlier. -/
theorem C35_lookup_at_start (d : S) (h0 : Sig.time d = 0) (hd : Sig.seq d = 0) (vs : List S)
    (hv : ∀ v ∈ vs, 0 ≤ Sig.time v) (probe v : S) (hp : Sig.seq probe = 0) (hmem : v ∈ vs)
    (hpos : 0 < Sig.time v) (heq : Sig.time probe = Sig.time v)
    (hap : ∀ a ∈ (0 : ℚ) :: vs.map Sig.time, ∀ b ∈ (0 : ℚ) :: vs.map Sig.time, Spec.Apart a b) :
    ∃ l s, addSigs [d] vs = .ok l ∧ sigAt l probe = some s ∧ Sig.time s < Sig.time v ∧
      ∃ x ∈ l, Sig.time x = Sig.time v := by
  obtain ⟨l, h1, h2⟩ := addSigs_inv d h0 hd vs hv hap
  have htimes := mem_times l vs d h0 h2
  have hm : ∀ s ∈ probe :: l, Sig.time s ∈ (0 : ℚ) :: vs.map Sig.time := by
    intro s hs
    rcases List.mem_cons.1 hs with rfl | hs
    · rw [heq]; exact List.mem_cons_of_mem _ (List.mem_map.2 ⟨v, hmem, rfl⟩)
    · rcases htimes s hs with h | h
      · rw [h]; simp
      · simp [h]
  obtain ⟨pre, post, e1, e2, e3, e4⟩ := sigAt_exact l probe h2.sorted
    (fun a ha b hb => hap _ (hm a ha) _ (hm b hb))
  obtain ⟨h, rest, hl, g1, _, g3, g4⟩ := h2.head
  have hpre : pre ≠ [] := by
    rintro rfl
    rw [List.nil_append] at e1
    have hm : h ∈ post := by rw [← e1, hl]; simp
    rcases e3 h hm with h' | ⟨h', _⟩
    · rw [g1, heq] at h'; linarith
    · rw [g1, heq] at h'; linarith
  rw [if_neg hpre, List.getLast?_eq_getLast hpre] at e4
  refine ⟨l, _, h1, e4, ?_, ?_⟩
  · have hsp := List.getLast_mem hpre
    have hsl : pre.getLast hpre ∈ l := by rw [e1]; simp [hsp]
    rcases e2 _ hsp with h' | ⟨h', h''⟩
    · rw [← heq]; exact h'
    · rw [hl] at hsl
      rcases List.mem_cons.1 hsl with hh | hh
      · rw [hh, g1]; exact hpos
      · have := h2.pos (pre.getLast hpre) (by rw [hl]; exact hh)
        omega
  · have : Sig.setSeq v 0 ∈ rest.map (fun s => Sig.setSeq s 0) := by
      rw [g4.mem_iff]
      exact List.mem_map.2 ⟨v, List.mem_filter.2 ⟨hmem, by simpa using hpos.ne'⟩, rfl⟩
    obtain ⟨x, hx, he⟩ := List.mem_map.1 this
    refine ⟨x, by rw [hl]; exact List.mem_cons_of_mem _ hx, ?_⟩
    rw [← Sig.time_setSeq x 0, he, Sig.time_setSeq]

/-- C35 at time 0, exactly: as long as nothing was added at time 0 the lookup gives the default;
once a signature has been added at time 0 the lookup gives the LAST signature of the list, whatever
was added. -/
theorem C35_lookup_at_zero (d : S) (h0 : Sig.time d = 0) (hd : Sig.seq d = 0) (vs : List S)
    (hv : ∀ v ∈ vs, 0 ≤ Sig.time v) (probe : S) (hp : Sig.seq probe = 0) (hz : Sig.time probe = 0)
    (hap : ∀ a ∈ (0 : ℚ) :: vs.map Sig.time, ∀ b ∈ (0 : ℚ) :: vs.map Sig.time, Spec.Apart a b) :
    ∃ l, addSigs [d] vs = .ok l ∧
      ((∀ v ∈ vs, Sig.time v ≠ 0) → ∃ s, sigAt l probe = some s ∧ Spec.Same s d) ∧
      ((∃ v ∈ vs, Sig.time v = 0) → sigAt l probe = l.getLast?) := by
  obtain ⟨l, h1, h2⟩ := addSigs_inv d h0 hd vs hv hap
  have htimes := mem_times l vs d h0 h2
  have hm : ∀ s ∈ probe :: l, Sig.time s ∈ (0 : ℚ) :: vs.map Sig.time := by
    intro s hs
    rcases List.mem_cons.1 hs with rfl | hs
    · rw [hz]; simp
    · rcases htimes s hs with h | h
      · rw [h]; simp
      · simp [h]
  obtain ⟨pre, post, e1, e2, e3, e4⟩ := sigAt_exact l probe h2.sorted
    (fun a ha b hb => hap _ (hm a ha) _ (hm b hb))
  obtain ⟨h, rest, hl, g1, g2, g3, g4⟩ := h2.head
  have hzero := h2.zero h (by rw [hl]; rfl)
  have hge := h2.seqs h (by rw [hl]; simp)
  -- only the first entry can be at time 0
  have hpre : ∀ x ∈ pre, x = h → Sig.seq h = 0 := by
    rintro x hx rfl
    rcases e2 x hx with h' | ⟨_, h'⟩
    · rw [g1, hz] at h'; exact absurd h' (lt_irrefl _)
    · omega
  have honly : ∀ x ∈ pre, x ∉ rest := by
    intro x hx hr
    have := g3 x hr
    rcases e2 x hx with h' | ⟨h', _⟩ <;> rw [hz] at h' <;> linarith
  refine ⟨l, h1, ?_, ?_⟩
  · intro hno
    have hs0 := hzero.2 hno
    have hne : pre ≠ [] := by
      rintro rfl
      rw [List.nil_append] at e1
      rcases e3 h (by rw [← e1, hl]; simp) with h' | ⟨_, h'⟩
      · rw [g1, hz] at h'; exact absurd h' (lt_irrefl _)
      · omega
    rw [if_neg hne, List.getLast?_eq_getLast hne] at e4
    refine ⟨_, e4, ?_⟩
    have hmem := List.getLast_mem hne
    have hl' : pre.getLast hne ∈ l := by rw [e1]; simp [hmem]
    rw [hl] at hl'
    rcases List.mem_cons.1 hl' with hh | hh
    · rw [hh]
      have hlz : Spec.lastAtZero d vs = d := by
        unfold Spec.lastAtZero
        clear * - hno
        induction vs with
        | nil => rfl
        | cons v vs ih =>
          rw [List.foldl_cons, if_neg (hno v (by simp))]
          exact ih (fun w hw => hno w (by simp [hw]))
      rw [hlz] at g2
      exact g2
    · exact absurd hh (honly _ hmem)
  · rintro ⟨v, hvm, hv0⟩
    have hs0 : Sig.seq h ≠ 0 := fun hs => hzero.1 hs v hvm hv0
    have hnil : pre = [] := by
      cases pre with
      | nil => rfl
      | cons x pre =>
        exfalso
        rw [hl, List.cons_append] at e1
        have hx : h = x := (List.cons.inj e1).1
        exact hs0 (hpre x (by simp) hx.symm)
    rw [e4, if_pos hnil]

end

/-- C35 is false at time 0 once the default has been replaced: the lookup then wraps around to the
LAST signature of the piece. A 3/4 piece that changes to 2/4 at time 10 reports 2/4 at time 0, and
3/4 at time 10. -/
theorem C35_lookup_wraps :
    (addSigs [({ time := 0, numer := 4, denom := 4 } : TimeSig)]
      [{ time := 0, numer := 3, denom := 4 }, { time := 10, numer := 2, denom := 4 }]).map
      (fun l => (timeSignature l 0, timeSignature l 5, timeSignature l 10, timeSignature l 11)) =
    .ok ((2, 4), (3, 4), (3, 4), (2, 4)) := by decide +kernel

example : (addSigs [({ time := 0, numer := 4, denom := 4 } : TimeSig)]
      [{ time := 7, numer := 3, denom := 4 }, { time := 3, numer := 2, denom := 4 }]).map
      (fun l => (timeSignature l 0, timeSignature l 5, timeSignature l 8, timeSignature l (-1))) =
    .ok ((4, 4), (2, 4), (3, 4), (480, 120)) := by decide +kernel

/-- One use of a memoised signature table. -/
inductive SigOp (S : Type) where
  | add (v : S)
  | find (t : ℚ)

/-- A history of additions and lookups; a raising addition leaves the table unchanged (it raises
before anything is changed). -/
def SigTable.run {S R : Type} [Sig S] (f : List S → ℚ → R) :
    SigTable S R → List (SigOp S) → SigTable S R
  | t, [] => t
  | t, .add v :: ops => SigTable.run f (match t.add v with | .ok t' => t' | .error _ => t) ops
  | t, .find x :: ops => SigTable.run f (t.find f x).2 ops

/-- C35: memoised lookups are never stale: after every history of additions and lookups, a lookup
returns what the undecorated method returns on the current list. -/
theorem C35_memo_fresh {S R : Type} [Sig S] (f : List S → ℚ → R) (l : List S) (ops : List (SigOp S))
    (x : ℚ) :
    let t := SigTable.run f { sigs := l, memo := [] } ops
    (t.find f x).1 = f t.sigs x := by
  have key : ∀ (ops : List (SigOp S)) (t : SigTable S R), (∀ p ∈ t.memo, p.2 = f t.sigs p.1) →
      ∀ p ∈ (SigTable.run f t ops).memo, p.2 = f (SigTable.run f t ops).sigs p.1 := by
    intro ops
    induction ops with
    | nil => intro t h; exact h
    | cons op ops ih =>
      intro t h
      cases op with
      | add v =>
        rw [SigTable.run]
        apply ih
        unfold SigTable.add
        cases hc : addSig t.sigs v with
        | error e => exact h
        | ok l' => simp [bind, Except.bind]
      | find y =>
        rw [SigTable.run]
        apply ih
        unfold SigTable.find
        cases hc : t.memo.find? (fun p => decide (p.1 = y)) with
        | some p => exact h
        | none =>
          intro p hp
          rcases List.mem_cons.1 hp with rfl | hp
          · rfl
          · exact h p hp
  intro t
  have h := key ops { sigs := l, memo := [] } (by simp)
  unfold SigTable.find
  cases hc : t.memo.find? (fun p => decide (p.1 = x)) with
  | some p =>
    have h1 := List.find?_some hc
    have h2 := List.mem_of_find?_eq_some hc
    simp only [decide_eq_true_eq] at h1
    rw [← h1]
    exact h p h2
  | none => rfl

/-- C35 is false for `initial_tempo`: its memo is never cleared, so once asked it gives the same
answer whatever tempo is added at time 0. -/
theorem C35_initial_tempo_stale (t t' : TempoTable) (v : TempoSig)
    (h : t.initialTempo.2.add v = .ok t') : t'.initialTempo.1 = t.initialTempo.1 := by
  have hm : t.initialTempo.2.initialMemo = some t.initialTempo.1 := by
    unfold TempoTable.initialTempo
    cases hc : t.initialMemo with
    | some q => simp [hc]
    | none => rfl
  unfold TempoTable.add at h
  simp only [bind, Except.bind] at h
  cases hc : t.initialTempo.2.table.add v with
  | error e => rw [hc] at h; cases h
  | ok tab =>
    rw [hc] at h
    cases h
    rw [TempoTable.initialTempo]
    simp [hm]

/-- Default tempo 120, asked, then 60 added at time 0: still 120, while the list starts with 60. -/
example :
    let t : TempoTable := { table := { sigs := [{ time := 0, qpm := 120, resolution := 480 }], memo := [] }, initialMemo := none }
    (t.initialTempo.2.add { time := 0, qpm := 60, resolution := 480 }).map
      (fun t' => (t'.initialTempo.1, initialTempo t'.table.sigs)) = .ok (120, 60) := by decide +kernel

/-- C35. The tempo is added to the list all the same, asked before or not; and as long as `initial_tempo` was never asked
its first answer is the tempo of the list as it is then. -/
theorem C35_initial_tempo_first (t t' : TempoTable) (v : TempoSig) (h : t.add v = .ok t') :
    t.table.add v = .ok t'.table ∧
    (t.initialMemo = none → t'.initialTempo.1 = initialTempo t'.table.sigs ∧
      ∀ w t'', t'.initialTempo.2.add w = .ok t'' → t''.initialTempo.1 = initialTempo t'.table.sigs) := by
  unfold TempoTable.add at h
  simp only [bind, Except.bind] at h
  cases hc : t.table.add v with
  | error e => rw [hc] at h; cases h
  | ok tab =>
    rw [hc] at h
    cases h
    refine ⟨rfl, fun hn => ?_⟩
    have h1 : (TempoTable.initialTempo { t with table := tab }).1 = initialTempo tab.sigs := by
      unfold TempoTable.initialTempo
      simp only [hn]
    exact ⟨h1, fun w t'' hw => (C35_initial_tempo_stale _ _ _ hw).trans h1⟩

/-- 60 added before asking: 60. -/
example :
    let t : TempoTable := { table := { sigs := [{ time := 0, qpm := 120, resolution := 480 }], memo := [] }, initialMemo := none }
    (t.add { time := 0, qpm := 60, resolution := 480 }).map (fun t' => t'.initialTempo.1) = .ok 60 := by decide +kernel

end NGC
