import Verif.BeatStart
import Verif.BeatsProps2
import Verif.TimesProps2
import Verif.DatasetProps
import Verif.Float64

/-!
C157: `estimate_beat_start` returns the earliest best candidate.
-/

namespace NGC

namespace Spec

/-- The onsets that count as new: the first one, and those more than a millisecond after the onset before (a list in order). -/
def newOnsets : Option ℚ → List ℚ → List ℚ
  | _, [] => []
  | prev, x :: xs => if ∀ p ∈ prev, p + 1/1000 < x then x :: newOnsets (some x) xs else newOnsets (some x) xs

/-- All onsets of an object, in order. -/
def onsetList (pm : PM) : List ℚ := sortByKey id (pm.insts.flatMap (fun i => i.notes.map PNote.start))

/-- The millisecond `i` is in the window of a beat at `b`. -/
def covers (tol b : ℚ) (i : Int) : Prop :=
  if b < tol then i < ⌊(b + tol) * 1000⌋ else ⌊(b - tol) * 1000⌋ ≤ i ∧ i < ⌊(b - tol) * 1000⌋ + ⌊2000 * tol⌋

instance (tol b : ℚ) (i : Int) : Decidable (covers tol b i) := by unfold covers; infer_instance

/-- The velocities of the notes that begin in the window of time 0 or of a beat, per beat. -/
def beatValue (tol : ℚ) (notes : List PNote) (beats : List ℚ) : ℚ :=
  ((notes.filter (fun n => decide (∃ b ∈ 0 :: beats, covers tol b ⌊n.start * 1000⌋))).map (fun n => (n.velocity : ℚ))).sum / beats.length

end Spec

/-- **C157, what the windows mean**: a note is not counted for a beat it is more than the tolerance and a millisecond away from, and is counted if it is at least 2 ms
nearer than the tolerance. -/
theorem C157_window (tol b t : ℚ) (h0 : 0 ≤ b) (ht : 0 ≤ t) :
    (Spec.covers tol b ⌊t * 1000⌋ → |t - b| < tol + 1/1000) ∧ (|t - b| ≤ tol - 2/1000 → Spec.covers tol b ⌊t * 1000⌋) := by
  have f1 := Int.floor_le (t * 1000)
  have f2 := Int.lt_floor_add_one (t * 1000)
  have g1 := Int.floor_le ((b + tol) * 1000)
  have g2 := Int.lt_floor_add_one ((b + tol) * 1000)
  have k1 := Int.floor_le ((b - tol) * 1000)
  have k2 := Int.lt_floor_add_one ((b - tol) * 1000)
  have m1 := Int.floor_le (2000 * tol)
  have m2 := Int.lt_floor_add_one (2000 * tol)
  unfold Spec.covers
  by_cases hb : b < tol
  · rw [if_pos hb]
    constructor
    · intro h
      have : ((⌊t * 1000⌋ + 1 : Int) : ℚ) ≤ ⌊(b + tol) * 1000⌋ := by exact_mod_cast h
      push_cast at this
      rw [abs_lt]
      constructor <;> linarith
    · intro h
      rw [abs_le] at h
      by_contra hc
      have : ((⌊(b + tol) * 1000⌋ : Int) : ℚ) ≤ ⌊t * 1000⌋ := by exact_mod_cast not_lt.1 hc
      linarith [h.1, h.2]
  · rw [if_neg hb]
    constructor
    · rintro ⟨h, h'⟩
      have e1 : ((⌊(b - tol) * 1000⌋ : Int) : ℚ) ≤ ⌊t * 1000⌋ := by exact_mod_cast h
      have e2 : ((⌊t * 1000⌋ + 1 : Int) : ℚ) ≤ ((⌊(b - tol) * 1000⌋ + ⌊2000 * tol⌋ : Int) : ℚ) := by exact_mod_cast h'
      push_cast at e2
      rw [abs_lt]
      constructor <;> linarith
    · intro h
      rw [abs_le] at h
      constructor
      · by_contra hc
        have : ((⌊t * 1000⌋ + 1 : Int) : ℚ) ≤ ((⌊(b - tol) * 1000⌋ : Int) : ℚ) := by exact_mod_cast not_le.1 hc
        push_cast at this
        linarith [h.1, h.2]
      · by_contra hc
        have : ((⌊(b - tol) * 1000⌋ + ⌊2000 * tol⌋ : Int) : ℚ) ≤ ⌊t * 1000⌋ := by exact_mod_cast not_lt.1 hc
        push_cast at this
        linarith [h.1, h.2]

/-! ### The candidates -/

theorem candGo_eq (c : Int) (hc : 0 ≤ c) : ∀ (l : List PNote) (prev : Option ℚ) (cnt : Nat), (∀ p ∈ prev, ∀ n ∈ l, p ≤ n.start) →
    l.Pairwise (fun a b => a.start ≤ b.start) →
    candGo c prev cnt l = (Spec.newOnsets prev (l.map PNote.start)).take (c.toNat + 1 - cnt) := by
  intro l
  induction l with
  | nil => intro prev cnt _ _; simp [candGo, Spec.newOnsets]
  | cons n l ih =>
    intro prev cnt hp ho
    have hp' : ∀ p ∈ some n.start, ∀ m ∈ l, p ≤ m.start := by
      intro p hpp m hm
      cases hpp
      exact (List.pairwise_cons.1 ho).1 m hm
    have e : (prev.all (fun p => decide (1/1000 < |p - n.start|))) = true ↔ ∀ p ∈ prev, p + 1/1000 < n.start := by
      cases prev with
      | none => simp
      | some p =>
        have := hp p rfl n List.mem_cons_self
        simp only [Option.all_some, decide_eq_true_eq, Option.mem_some_iff, forall_eq']
        rw [abs_of_nonpos (by linarith)]
        constructor <;> intro h <;> linarith
    rw [candGo, List.map_cons, Spec.newOnsets]
    by_cases hcnt : (cnt : Int) ≤ c
    · rw [if_pos hcnt]
      obtain ⟨m, hm⟩ : ∃ m, c.toNat + 1 - cnt = m + 1 := ⟨c.toNat - cnt, by omega⟩
      by_cases hn : ∀ p ∈ prev, p + 1/1000 < n.start
      · rw [if_pos (e.2 hn), if_pos hn, hm, List.take_succ_cons, ih _ _ hp' (List.pairwise_cons.1 ho).2]
        congr 2
        omega
      · rw [if_neg (fun h => hn (e.1 h)), if_neg hn]
        exact ih _ _ hp' (List.pairwise_cons.1 ho).2
    · rw [if_neg hcnt, show c.toNat + 1 - cnt = 0 by omega, List.take_zero]

theorem newOnsets_sub : ∀ (l : List ℚ) (prev : Option ℚ), (Spec.newOnsets prev l).Sublist l := by
  intro l
  induction l with
  | nil => intro prev; exact List.Sublist.refl _
  | cons x l ih =>
    intro prev
    rw [Spec.newOnsets]
    split
    · exact (ih _).cons_cons _
    · exact (ih _).cons _

theorem newOnsets_head (x : ℚ) (l : List ℚ) : ∃ r, Spec.newOnsets none (x :: l) = x :: r := by
  rw [Spec.newOnsets, if_pos (by simp)]
  exact ⟨_, rfl⟩

theorem newOnsets_apart : ∀ (l : List ℚ) (prev : Option ℚ), l.Pairwise (· ≤ ·) → (∀ p ∈ prev, ∀ x ∈ l, p ≤ x) →
    (Spec.newOnsets prev l).Pairwise (fun a b => a + 1/1000 < b) ∧ ∀ p ∈ prev, ∀ x ∈ Spec.newOnsets prev l, p + 1/1000 < x := by
  intro l
  induction l with
  | nil => intro prev _ _; simp [Spec.newOnsets]
  | cons x l ih =>
    intro prev ho hp
    obtain ⟨a, b⟩ := ih (some x) (List.pairwise_cons.1 ho).2 (fun p hpp y hy => by cases hpp; exact (List.pairwise_cons.1 ho).1 y hy)
    have b' := b x rfl
    rw [Spec.newOnsets]
    split
    · rename_i hn
      refine ⟨List.pairwise_cons.2 ⟨b', a⟩, ?_⟩
      intro p hpp y hy
      rcases List.mem_cons.1 hy with rfl | hy
      · exact hn p hpp
      · have := hp p hpp x List.mem_cons_self; linarith [b' y hy]
    · refine ⟨a, ?_⟩
      intro p hpp y hy
      have := hp p hpp x List.mem_cons_self
      linarith [b' y hy]

/-! ### The signals -/

theorem zipWith_set (sig a : List ℚ) (i : Nat) (v : ℚ) (hs : i < sig.length) (ha : i < a.length) :
    (List.zipWith (· * ·) sig (a.set i (a.getD i 0 + v))).sum = (List.zipWith (· * ·) sig a).sum + sig.getD i 0 * v := by
  induction i generalizing sig a with
  | zero =>
    cases sig with
    | nil => simp at hs
    | cons s sig =>
      cases a with
      | nil => simp at ha
      | cons x a => simp; ring
  | succ i ih =>
    cases sig with
    | nil => simp at hs
    | cons s sig =>
      cases a with
      | nil => simp at ha
      | cons x a =>
        have := ih sig a (by simpa using hs) (by simpa using ha)
        simp only [List.getD_cons_succ, List.set_cons_succ, List.zipWith_cons_cons, List.sum_cons] at this ⊢
        rw [this]; ring

theorem addSpike_ok (a : List ℚ) (t v : ℚ) (h0 : 0 ≤ t) (h1 : ⌊t * 1000⌋ < a.length) :
    addSpike a (pyInt (t * 1000)) v = .ok (a.set ⌊t * 1000⌋.toNat (a.getD ⌊t * 1000⌋.toNat 0 + v)) := by
  have hf : 0 ≤ ⌊t * 1000⌋ := Int.floor_nonneg.2 (by linarith)
  unfold addSpike
  rw [pyInt_nonneg_floor (by linarith)]
  simp only [if_neg (not_lt.2 hf)]
  rw [if_pos ⟨hf, h1⟩]

theorem onset_fold (notes : List PNote) : ∀ (a : List ℚ), (∀ n ∈ notes, 0 ≤ n.start ∧ ⌊n.start * 1000⌋ < a.length) →
    ∃ a', notes.foldlM (fun a n => addSpike a (pyInt (n.start * 1000)) n.velocity) a = .ok a' ∧ a'.length = a.length ∧
      ∀ sig : List ℚ, sig.length = a.length → (List.zipWith (· * ·) sig a').sum = (List.zipWith (· * ·) sig a).sum +
        (notes.map (fun n => sig.getD ⌊n.start * 1000⌋.toNat 0 * (n.velocity : ℚ))).sum := by
  induction notes with
  | nil => intro a _; exact ⟨a, rfl, rfl, fun sig _ => by simp⟩
  | cons n ns ih =>
    intro a h
    obtain ⟨h1, h2⟩ := h n List.mem_cons_self
    have hf : 0 ≤ ⌊n.start * 1000⌋ := Int.floor_nonneg.2 (by linarith)
    obtain ⟨a', e, l, d⟩ := ih (a.set ⌊n.start * 1000⌋.toNat (a.getD ⌊n.start * 1000⌋.toNat 0 + n.velocity))
      (fun m hm => by rw [List.length_set]; exact h m (List.mem_cons_of_mem _ hm))
    refine ⟨a', ?_, by rw [l, List.length_set], ?_⟩
    · rw [List.foldlM_cons, addSpike_ok a n.start n.velocity h1 h2]
      exact e
    · intro sig hs
      rw [d sig (by rw [List.length_set, hs]), zipWith_set sig a _ _ (by omega) (by omega), List.map_cons, List.sum_cons]
      ring

theorem zip_zero (sig : List ℚ) (n : Nat) : (List.zipWith (· * ·) sig (List.replicate n 0)).sum = 0 := by
  induction n generalizing sig with
  | zero => simp
  | succ n ih =>
    cases sig with
    | nil => simp
    | cons s sig => rw [List.replicate_succ, List.zipWith_cons_cons, List.sum_cons, ih]; simp

/-- The window as positions. -/
theorem windowAt_exact (len : Nat) (tol b : ℚ) (hb : 0 ≤ b) (ht : 0 ≤ tol) (hl : ⌊(b + tol) * 1000⌋ ≤ len) :
    ∃ s e : Nat, windowAt id len tol b = .ok (s, e) ∧ e ≤ len ∧ s ≤ e ∧ ∀ i : Nat, (s ≤ i ∧ i < e) ↔ Spec.covers tol b i := by
  have he : 0 ≤ ⌊(b + tol) * 1000⌋ := Int.floor_nonneg.2 (by nlinarith)
  unfold windowAt Spec.covers
  simp only [id_eq]
  by_cases hc : b < tol
  · have e1 : 2000 * tol + (b - tol) * 1000 = (b + tol) * 1000 := by ring
    have p : (0 : ℚ) ≤ (b + tol) * 1000 := by nlinarith
    rw [if_pos (by linarith), e1, pyInt_nonneg_floor p]
    simp only [if_neg (not_lt.2 he), if_pos hc]
    have e2 : min ⌊(b + tol) * 1000⌋.toNat len = ⌊(b + tol) * 1000⌋.toNat := by omega
    rw [e2, if_pos (Or.inl (by omega))]
    exact ⟨0, _, rfl, by omega, by omega, fun i => by omega⟩
  · have p1 : (0 : ℚ) ≤ (b - tol) * 1000 := by nlinarith
    have p2 : (0 : ℚ) ≤ 1000 * tol * 2 := by linarith
    have e1 : 1000 * tol * 2 = 2000 * tol := by ring
    have f1 : 0 ≤ ⌊(b - tol) * 1000⌋ := Int.floor_nonneg.2 p1
    have f2 : 0 ≤ ⌊2000 * tol⌋ := Int.floor_nonneg.2 (by linarith)
    have add : ⌊(b - tol) * 1000⌋ + ⌊2000 * tol⌋ ≤ ⌊(b + tol) * 1000⌋ := by
      have := Int.le_floor_add ((b - tol) * 1000) (2000 * tol)
      rw [show (b - tol) * 1000 + 2000 * tol = (b + tol) * 1000 by ring] at this
      exact this
    rw [if_neg (by linarith), pyInt_nonneg_floor p1, pyInt_nonneg_floor p2, e1]
    simp only [if_neg (not_lt.2 f2), if_neg hc]
    have e2 : min ⌊(b - tol) * 1000⌋.toNat len = ⌊(b - tol) * 1000⌋.toNat := by omega
    have e3 : min (⌊(b - tol) * 1000⌋.toNat + ⌊2000 * tol⌋.toNat) len = ⌊(b - tol) * 1000⌋.toNat + ⌊2000 * tol⌋.toNat := by omega
    rw [e2, e3, if_pos (Or.inl (by omega))]
    exact ⟨_, _, rfl, by omega, by omega, fun i => by omega⟩

theorem signal_fold (len : Nat) (tol : ℚ) (ht : 0 ≤ tol) : ∀ (bs : List ℚ) (a : List ℚ), a.length = len →
    (∀ b ∈ bs, 0 ≤ b ∧ ⌊(b + tol) * 1000⌋ ≤ len) →
    ∃ a', bs.foldlM (fun a b => do
        let w ← windowAt id len tol b
        .ok (sliceSet a w.1 (w.2 - w.1) (fun _ => 1))) a = .ok a' ∧ a'.length = len ∧
      ∀ i : Nat, i < len → a'.getD i 0 = if ∃ b ∈ bs, Spec.covers tol b i then 1 else a.getD i 0 := by
  intro bs
  induction bs with
  | nil => intro a ha _; exact ⟨a, rfl, ha, fun i _ => by simp⟩
  | cons b bs ih =>
    intro a ha h
    obtain ⟨h1, h2⟩ := h b List.mem_cons_self
    obtain ⟨s, e, hw, hel, hse, hcov⟩ := windowAt_exact len tol b h1 ht h2
    obtain ⟨a', e1, e2, e3⟩ := ih (sliceSet a s (e - s) (fun _ => 1)) (by rw [sliceSet_length, ha]) (fun x hx => h x (List.mem_cons_of_mem _ hx))
    refine ⟨a', ?_, e2, ?_⟩
    · rw [List.foldlM_cons, hw]
      exact e1
    · intro i hi
      rw [e3 i hi]
      have g : (sliceSet a s (e - s) (fun _ => (1 : ℚ))).getD i 0 = if Spec.covers tol b i then 1 else a.getD i 0 := by
        rw [List.getD_eq_getElem?_getD, sliceSet_get a s (e - s) _ i (by omega), Option.getD_some]
        by_cases hc : Spec.covers tol b i
        · have := (hcov i).2 hc
          rw [if_pos hc, if_pos (by omega)]
        · rw [if_neg hc, if_neg (fun x => hc ((hcov i).1 (by omega))), List.getD_eq_getElem?_getD, List.getElem?_eq_getElem (by omega), Option.getD_some]
      rw [g]
      by_cases hbs : ∃ x ∈ bs, Spec.covers tol x i
      · rw [if_pos hbs, if_pos (by obtain ⟨x, hx, hcx⟩ := hbs; exact ⟨x, List.mem_cons_of_mem _ hx, hcx⟩)]
      · rw [if_neg hbs]
        by_cases hc : Spec.covers tol b i
        · rw [if_pos hc, if_pos ⟨b, List.mem_cons_self, hc⟩]
        · rw [if_neg hc, if_neg]
          rintro ⟨x, hx, hcx⟩
          rcases List.mem_cons.1 hx with rfl | hx
          · exact hc hcx
          · exact hbs ⟨x, hx, hcx⟩

theorem sum_filter_velocity (p : PNote → Bool) (notes : List PNote) :
    (notes.map (fun n => (if p n then (1 : ℚ) else 0) * (n.velocity : ℚ))).sum = ((notes.filter p).map (fun n => (n.velocity : ℚ))).sum := by
  induction notes with
  | nil => rfl
  | cons n ns ih =>
    rw [List.map_cons, List.sum_cons, ih, List.filter_cons]
    by_cases h : p n
    · rw [if_pos h, if_pos h]; simp
    · rw [if_neg h, if_neg h]; simp

theorem score_exact (len : Nat) (tol : ℚ) (ht : 0 ≤ tol) (notes : List PNote) (bs ons : List ℚ) (hbs : bs ≠ [])
    (hn : ∀ n ∈ notes, 0 ≤ n.start ∧ ⌊n.start * 1000⌋ < len) (h0 : ⌊(0 + tol) * 1000⌋ ≤ len) (hb : ∀ b ∈ bs, 0 ≤ b ∧ ⌊(b + tol) * 1000⌋ ≤ len)
    (hons : notes.foldlM (fun a n => addSpike a (pyInt (n.start * 1000)) n.velocity) (List.replicate len 0) = .ok ons) :
    ∃ sig, beatSignal id len tol bs = .ok sig ∧ beatScore sig ons bs.length = .num (Spec.beatValue tol notes bs) := by
  obtain ⟨sig, s1, s2, s3⟩ := signal_fold len tol ht (0 :: bs) (List.replicate len 0) (by simp) (by
    intro b hbm
    rcases List.mem_cons.1 hbm with rfl | hbm
    · exact ⟨le_refl _, h0⟩
    · exact hb b hbm)
  obtain ⟨a', o1, o2, o3⟩ := onset_fold notes (List.replicate len 0) (by simpa using hn)
  rw [hons] at o1
  have o1 := Except.ok.inj o1
  refine ⟨sig, s1, ?_⟩
  unfold beatScore
  have hl : bs.length ≠ 0 := by simpa using hbs
  rw [if_neg hl]
  congr 1
  unfold Spec.beatValue
  congr 1
  rw [o1, o3 sig (by simp [s2]), zip_zero, zero_add, ← sum_filter_velocity]
  congr 1
  apply List.map_congr_left
  intro n hnn
  obtain ⟨k1, k2⟩ := hn n hnn
  have hf : 0 ≤ ⌊n.start * 1000⌋ := Int.floor_nonneg.2 (by linarith)
  rw [s3 _ (by omega)]
  have e : ((⌊n.start * 1000⌋.toNat : Nat) : Int) = ⌊n.start * 1000⌋ := by omega
  rw [e]
  by_cases hc : ∃ b ∈ 0 :: bs, Spec.covers tol b ⌊n.start * 1000⌋
  · rw [if_pos hc, if_pos (by simpa using hc)]
  · rw [if_neg hc, if_neg (by simpa using hc), List.getD_eq_getElem?_getD, List.getElem?_replicate]
    split <;> simp

/-! ### The choice -/

theorem argmaxGo_num (all : List ℚ) : ∀ (xs : List ℚ) (best i : Nat) (s : ℚ), all.drop i = xs → best < i → all[best]? = some s →
    (∀ j : Nat, j < i → ∀ y, all[j]? = some y → y ≤ s) → (∀ j : Nat, j < best → ∀ y, all[j]? = some y → y < s) →
    ∃ r m, argmaxGo best (.num s) i (xs.map .num) = r ∧ all[r]? = some m ∧ (∀ (j : Nat) y, all[j]? = some y → y ≤ m) ∧
      ∀ j : Nat, j < r → ∀ y, all[j]? = some y → y < m := by
  intro xs
  induction xs with
  | nil =>
    intro best i s hd hbi hs hle hlt
    refine ⟨best, s, rfl, hs, ?_, hlt⟩
    intro j y hj
    have hlen : all.length ≤ i := List.drop_eq_nil_iff.1 hd
    have : j < all.length := (List.getElem?_eq_some_iff.1 hj).1
    exact hle j (by omega) y hj
  | cons x xs ih =>
    intro best i s hd hbi hs hle hlt
    have hx : all[i]? = some x := by
      have := congrArg List.head? hd
      rw [List.head?_drop] at this
      exact this
    have hd' : all.drop (i + 1) = xs := by
      have := congrArg List.tail hd
      rw [List.tail_drop] at this
      exact this
    rw [List.map_cons, argmaxGo]
    by_cases hc : s < x
    · rw [if_pos (by simp [NpScore.below, hc])]
      refine ih i (i + 1) x hd' (by omega) hx ?_ ?_
      · intro j hj y hy
        by_cases hji : j = i
        · subst hji; rw [hx] at hy; cases hy; exact le_refl _
        · have := hle j (by omega) y hy; linarith
      · intro j hj y hy
        have := hle j hj y hy; linarith
    · rw [if_neg (by simp [NpScore.below, hc])]
      refine ih best (i + 1) s hd' (by omega) hs ?_ hlt
      intro j hj y hy
      by_cases hji : j = i
      · subst hji; rw [hx] at hy; cases hy; exact not_lt.1 hc
      · exact hle j (by omega) y hy

/-- How large `np.argmax` takes a score to be: numbers below infinity below `nan`. -/
def Spec.scoreSize : NpScore → WithTop (WithTop ℚ)
  | .num a => ((a : WithTop ℚ) : WithTop (WithTop ℚ))
  | .inf => ((⊤ : WithTop ℚ) : WithTop (WithTop ℚ))
  | .nan => ⊤

theorem below_iff_size (a b : NpScore) : a.below b = true ↔ Spec.scoreSize a < Spec.scoreSize b := by
  cases a <;> cases b <;> simp [NpScore.below, Spec.scoreSize]

theorem argmaxGo_size (all : List NpScore) : ∀ (xs : List NpScore) (best i : Nat) (s : NpScore), all.drop i = xs → best < i →
    all[best]? = some s → (∀ j < i, ∀ y, all[j]? = some y → Spec.scoreSize y ≤ Spec.scoreSize s) →
    (∀ j < best, ∀ y, all[j]? = some y → Spec.scoreSize y < Spec.scoreSize s) →
    ∃ m, all[argmaxGo best s i xs]? = some m ∧
      (∀ (j : Nat) y, all[j]? = some y → Spec.scoreSize y ≤ Spec.scoreSize m) ∧
      ∀ j < argmaxGo best s i xs, ∀ y, all[j]? = some y → Spec.scoreSize y < Spec.scoreSize m := by
  intro xs
  induction xs with
  | nil =>
    intro best i s hd hbi hs hle hlt
    refine ⟨s, hs, ?_, hlt⟩
    intro j y hj
    have hlen : all.length ≤ i := List.drop_eq_nil_iff.1 hd
    have : j < all.length := (List.getElem?_eq_some_iff.1 hj).1
    exact hle j (by omega) y hj
  | cons x xs ih =>
    intro best i s hd hbi hs hle hlt
    have hx : all[i]? = some x := by
      have := congrArg List.head? hd
      rw [List.head?_drop] at this
      exact this
    have hd' : all.drop (i + 1) = xs := by
      have := congrArg List.tail hd
      rw [List.tail_drop] at this
      exact this
    rw [argmaxGo]
    by_cases hc : s.below x = true
    · rw [if_pos hc]
      rw [below_iff_size] at hc
      refine ih i (i + 1) x hd' (by omega) hx ?_ ?_
      · intro j hj y hy
        by_cases hji : j = i
        · subst hji; rw [hx] at hy; cases hy; exact le_refl _
        · exact le_trans (hle j (by omega) y hy) (le_of_lt hc)
      · intro j hj y hy
        exact lt_of_le_of_lt (hle j hj y hy) hc
    · rw [if_neg hc]
      rw [below_iff_size] at hc
      refine ih best (i + 1) s hd' (by omega) hs ?_ hlt
      intro j hj y hy
      by_cases hji : j = i
      · subst hji; rw [hx] at hy; cases hy; exact not_lt.1 hc
      · exact hle j (by omega) y hy

/-- **C157, scores that are no numbers.** Without beats the score of a candidate is `nan` or infinite. Of any scores the choice
is the first `nan`, without one the first infinity, without either the first of the largest; there is none of no scores. -/
theorem C157_choice (l : List NpScore) :
    (argmaxNp l = none ↔ l = []) ∧
    (∀ i, argmaxNp l = some i → ∃ m, l[i]? = some m ∧ (∀ (j : Nat) y, l[j]? = some y → Spec.scoreSize y ≤ Spec.scoreSize m) ∧
      ∀ j < i, ∀ y, l[j]? = some y → Spec.scoreSize y < Spec.scoreSize m) := by
  cases l with
  | nil => exact ⟨by simp [argmaxNp], by intro i h; simp [argmaxNp] at h⟩
  | cons x xs =>
    refine ⟨by simp [argmaxNp], ?_⟩
    intro i hi
    obtain rfl : argmaxGo 0 x 1 xs = i := by simpa [argmaxNp] using hi
    refine argmaxGo_size (x :: xs) xs 0 1 x rfl (by omega) rfl ?_ (by intro j hj; omega)
    intro j hj y hy
    obtain rfl : j = 0 := by omega
    simp at hy
    subst hy
    exact le_refl _

/-- Non-vacuity of C157: an infinite score beats every number, `nan` an infinite one, the first of two stays. -/
theorem C157_choice_example : argmaxNp [.num 5, .inf, .num 7, .inf] = some 1 ∧ argmaxNp [.inf, .nan, .inf, .nan] = some 1 ∧
    argmaxNp [.nan, .nan] = some 0 := by decide +kernel

theorem argmaxNp_num (l : List ℚ) (h : l ≠ []) : ∃ r m, argmaxNp (l.map .num) = some r ∧ l[r]? = some m ∧ (∀ (j : Nat) y, l[j]? = some y → y ≤ m) ∧
    ∀ j : Nat, j < r → ∀ y, l[j]? = some y → y < m := by
  cases l with
  | nil => exact absurd rfl h
  | cons x xs =>
    obtain ⟨r, m, h1, h2, h3, h4⟩ := argmaxGo_num (x :: xs) xs 0 1 x rfl (by omega) rfl (by
      intro j hj y hy
      have : j = 0 := by omega
      subst this
      simp only [List.getElem?_cons_zero, Option.some.injEq] at hy
      rw [hy]) (by intro j hj; omega)
    refine ⟨r, m, ?_, h2, h3, h4⟩
    rw [List.map_cons, argmaxNp, h1]

theorem beatsAll_some (pm : PM) (beats : ℚ → List ℚ) (N : ℚ → Nat) (h : ∀ s, ∀ fuel ≥ N s, pm.beats fuel s = .ok (some (beats s))) (ss : List ℚ) :
    ∃ M, ∀ fuel ≥ M, beatsAll fuel pm ss = .ok (some (ss.map beats)) := by
  induction ss with
  | nil => exact ⟨0, fun _ _ => rfl⟩
  | cons s ss ih =>
    obtain ⟨M, hM⟩ := ih
    refine ⟨max M (N s), fun fuel hf => ?_⟩
    rw [beatsAll, h s fuel (le_trans (le_max_right _ _) hf)]
    dsimp only [bind, Except.bind]
    rw [hM fuel (le_trans (le_max_left _ _) hf)]
    rfl

theorem endTime_ge (pm : PM) (stop : ℚ) (h : pm.endTime = .ok stop) : ∀ i ∈ pm.insts, ∀ n ∈ i.notes, n.stop ≤ stop := by
  obtain ⟨_, _, _, h1, _⟩ := C122_end_time pm stop h
  exact fun i hi => (h1 i hi).1

theorem insertByStart_map (n : PNote) (l : List PNote) :
    (insertByKey PNote.start n l).map PNote.start = insertByKey id n.start (l.map PNote.start) := by
  induction l with
  | nil => rfl
  | cons m l ih =>
    rw [insertByKey, List.map_cons, insertByKey]
    simp only [id_eq]
    split
    · rfl
    · rw [List.map_cons, ih]

theorem sortByStart_map (l : List PNote) : (sortByKey PNote.start l).map PNote.start = sortByKey id (l.map PNote.start) := by
  induction l with
  | nil => rfl
  | cons n l ih => rw [sortByKey, List.map_cons, sortByKey, insertByStart_map, ih]

theorem beatValue_perm (tol : ℚ) {a b : List PNote} (h : a.Perm b) (beats : List ℚ) : Spec.beatValue tol a beats = Spec.beatValue tol b beats := by
  unfold Spec.beatValue
  rw [((h.filter _).map _).sum_eq]

/-- **C157.** On every object with a tempo map and well-behaved time signatures (as in C123), with notes that begin before they end, at least one, and
for every number of candidates (not negative) and every tolerance up to a second, `estimate_beat_start` returns a time: among the first `candidates + 1` onsets that
are more than a millisecond after the onset before them, the one with the largest score; of several such the earliest. The score is the sum of the velocities of
the notes that begin in the window around time 0 or around one of the beats counted from that onset, divided by the number of these beats. -/
theorem C157_best (pm : PM) (h : ClockOk pm.clock) (hs : ∀ p ∈ pm.clock.scales, p.1 < 1000000000) (H : Spec.Tame (Spec.tempi pm.clock) pm.timeSigs)
    (hv : ∀ i ∈ pm.insts, ∀ n ∈ i.notes, 0 ≤ n.start ∧ n.start < n.stop) (hne : ∃ i ∈ pm.insts, i.notes ≠ [])
    (candidates : Int) (hc : 0 ≤ candidates) (tol : ℚ) (ht : 0 ≤ tol) (ht1 : tol ≤ 1) :
    ∃ (stop : ℚ) (beats : ℚ → List ℚ) (N : Nat) (r : ℚ), pm.endTime = .ok stop ∧ (∀ s, Spec.Beats (Spec.tempi pm.clock) pm.timeSigs stop s (beats s)) ∧
      (∀ fuel ≥ N, pm.estimateBeatStart id fuel candidates tol = .ok (some r)) ∧
      r ∈ (Spec.newOnsets none (Spec.onsetList pm)).take (candidates.toNat + 1) ∧
      ∀ c ∈ (Spec.newOnsets none (Spec.onsetList pm)).take (candidates.toNat + 1),
        Spec.beatValue tol (pm.insts.flatMap (fun i => i.notes)) (beats c) ≤ Spec.beatValue tol (pm.insts.flatMap (fun i => i.notes)) (beats r) ∧
        (c < r → Spec.beatValue tol (pm.insts.flatMap (fun i => i.notes)) (beats c) < Spec.beatValue tol (pm.insts.flatMap (fun i => i.notes)) (beats r)) := by
  obtain ⟨stop, _, _, hend, _⟩ := C123_beats pm h hs H 0
  have hb : ∀ s, ∃ l N, (∀ fuel ≥ N, pm.beats fuel s = .ok (some l)) ∧ Spec.Beats (Spec.tempi pm.clock) pm.timeSigs stop s l := by
    intro s
    obtain ⟨stop', l, N, e, a, b⟩ := C123_beats pm h hs H s
    have : stop' = stop := Except.ok.inj (e.symm.trans hend)
    subst this
    exact ⟨l, N, a, b⟩
  choose beats N hN hB using hb
  have hge := endTime_ge pm stop hend
  generalize hnotes : sortByKey PNote.start (pm.insts.flatMap (fun i => i.notes)) = notes
  have hperm : notes.Perm (pm.insts.flatMap (fun i => i.notes)) := by rw [← hnotes]; exact sortByKey_perm _ _
  have hmem : ∀ n ∈ notes, 0 ≤ n.start ∧ n.start < n.stop ∧ n.stop ≤ stop := by
    intro n hn
    obtain ⟨i, hi, hni⟩ := List.mem_flatMap.1 (hperm.mem_iff.1 hn)
    exact ⟨(hv i hi n hni).1, (hv i hi n hni).2, hge i hi n hni⟩
  have hnil : notes ≠ [] := by
    intro e
    rw [e] at hperm
    obtain ⟨i, hi, hin⟩ := hne
    obtain ⟨n, hn⟩ := List.exists_mem_of_ne_nil _ hin
    have := hperm.symm.subset (List.mem_flatMap.2 ⟨i, hi, hn⟩)
    simp at this
  have hsorted : notes.Pairwise (fun a b => a.start ≤ b.start) := by rw [← hnotes]; exact sortByKey_sorted _ _
  have hons : notes.map PNote.start = Spec.onsetList pm := by
    rw [← hnotes, sortByStart_map, List.map_flatMap]
    rfl
  have hstop : 0 ≤ stop := by
    obtain ⟨n, hn⟩ := List.exists_mem_of_ne_nil _ hnil
    have := hmem n hn
    linarith [this.1, this.2.1, this.2.2]
  have hcand := candGo_eq candidates hc notes none 0 (by simp) hsorted
  rw [hons, Nat.sub_zero] at hcand
  generalize hcs : (Spec.newOnsets none (Spec.onsetList pm)).take (candidates.toNat + 1) = cs at hcand ⊢
  have hcsub : ∀ c ∈ cs, ∃ n ∈ notes, n.start = c := by
    intro c hcc
    rw [← hcs] at hcc
    have := (newOnsets_sub _ _).subset (List.mem_of_mem_take hcc)
    rw [← hons] at this
    exact List.mem_map.1 this
  have hcnil : cs ≠ [] := by
    rw [← hcs]
    cases hol : Spec.onsetList pm with
    | nil =>
      rw [hol] at hons
      exact absurd (List.map_eq_nil_iff.1 hons) hnil
    | cons x l =>
      obtain ⟨r, hr⟩ := newOnsets_head x l
      rw [hr, List.take_succ_cons]
      simp
  have hcinc : cs.Pairwise (· < ·) := by
    rw [← hcs]
    have so : (Spec.onsetList pm).Pairwise (· ≤ ·) := by rw [← hons, List.pairwise_map]; exact hsorted
    refine List.Pairwise.imp ?_ ((newOnsets_apart (Spec.onsetList pm) none so (by simp)).1.sublist (List.take_sublist _ _))
    intro a b hab
    linarith
  obtain ⟨M, hM⟩ := beatsAll_some pm beats N hN cs
  have hlen0 : 0 ≤ ⌊1000 * (stop + 1)⌋ := Int.floor_nonneg.2 (by linarith)
  have hcast : ((⌊1000 * (stop + 1)⌋.toNat : Nat) : Int) = ⌊1000 * (stop + 1)⌋ := by omega
  have hnlen : ∀ n ∈ notes, 0 ≤ n.start ∧ ⌊n.start * 1000⌋ < (⌊1000 * (stop + 1)⌋.toNat : Nat) := by
    intro n hn
    obtain ⟨a, b, c⟩ := hmem n hn
    refine ⟨a, ?_⟩
    rw [hcast]
    have : ⌊n.start * 1000⌋ + 1 ≤ ⌊1000 * (stop + 1)⌋ := by
      rw [Int.le_floor]
      push_cast
      linarith [Int.floor_le (n.start * 1000)]
    omega
  obtain ⟨ons, ho1, _, _⟩ := onset_fold notes (List.replicate ⌊1000 * (stop + 1)⌋.toNat 0) (by simpa using hnlen)
  have hwin : ∀ b, b ≤ stop → ⌊(b + tol) * 1000⌋ ≤ (⌊1000 * (stop + 1)⌋.toNat : Nat) := by
    intro b hbs
    rw [hcast]
    exact Int.floor_le_floor (by linarith)
  have hscore : ∀ c ∈ cs, ∃ sig, beatSignal id ⌊1000 * (stop + 1)⌋.toNat tol (beats c) = .ok sig ∧
      beatScore sig ons (beats c).length = .num (Spec.beatValue tol notes (beats c)) := by
    intro c hcc
    obtain ⟨n, hn, rfl⟩ := hcsub c hcc
    obtain ⟨a, b, d⟩ := hmem n hn
    obtain ⟨o1, o2, o3⟩ := C123_order (beats n.start) n.start (hB n.start)
    refine score_exact _ tol ht notes (beats n.start) ons ?_ hnlen (hwin 0 hstop) ?_ ho1
    · intro e
      have := o3 (by linarith)
      rw [e] at this
      cases this
    · intro x hx
      obtain ⟨x1, x2⟩ := o2 x hx
      exact ⟨by linarith, hwin x (by linarith)⟩
  have hscores : ∀ l : List ℚ, (∀ c ∈ l, c ∈ cs) → (l.map beats).mapM (fun bs => do
        let sig ← beatSignal id ⌊1000 * (stop + 1)⌋.toNat tol bs
        pure (beatScore sig ons bs.length)) = .ok ((l.map (fun c => Spec.beatValue tol notes (beats c))).map NpScore.num) := by
    intro l
    induction l with
    | nil => intro _; rfl
    | cons c l ih =>
      intro hl
      obtain ⟨sig, g1, g2⟩ := hscore c (hl c List.mem_cons_self)
      have := ih (fun x hx => hl x (List.mem_cons_of_mem _ hx))
      rw [List.map_cons, List.mapM_cons, g1]
      dsimp only [bind, Except.bind, pure, Except.pure] at this ⊢
      rw [this, g2]
      rfl
  obtain ⟨r, m, am, hr, hmax, hfirst⟩ := argmaxNp_num (cs.map (fun c => Spec.beatValue tol notes (beats c))) (by simpa using hcnil)
  rw [List.getElem?_map] at hr
  cases hcr : cs[r]? with
  | none => rw [hcr] at hr; cases hr
  | some c0 =>
    rw [hcr] at hr
    have hr : Spec.beatValue tol notes (beats c0) = m := Option.some.inj hr
    refine ⟨stop, beats, M, c0, hend, hB, ?_, List.mem_of_getElem? hcr, ?_⟩
    · intro fuel hf
      unfold PM.estimateBeatStart
      simp only [hnotes]
      rw [if_neg hnil, hcand, hM fuel hf]
      dsimp only [bind, Except.bind]
      rw [hend]
      dsimp only
      rw [pyInt_nonneg_floor (by linarith), if_neg (not_lt.2 hlen0), ho1]
      dsimp only
      have := hscores cs (fun c hc => hc)
      dsimp only [bind, Except.bind] at this
      rw [this]
      dsimp only
      rw [am]
      dsimp only
      rw [hcr]
    · intro c hcc
      obtain ⟨j, hj⟩ := List.mem_iff_getElem?.1 hcc
      have hjv : (cs.map (fun c => Spec.beatValue tol notes (beats c)))[j]? = some (Spec.beatValue tol notes (beats c)) := by
        rw [List.getElem?_map, hj]; rfl
      rw [← beatValue_perm tol hperm, ← beatValue_perm tol hperm, hr]
      refine ⟨hmax j _ hjv, fun hlt => hfirst j ?_ _ hjv⟩
      by_contra hjr
      obtain ⟨hj1, hj2⟩ := List.getElem?_eq_some_iff.1 hj
      obtain ⟨hr1, hr2⟩ := List.getElem?_eq_some_iff.1 hcr
      rcases Nat.lt_or_ge r j with g | g
      · have := List.pairwise_iff_getElem.1 hcinc r j hr1 hj1 g
        rw [hj2, hr2] at this
        linarith
      · have : r = j := by omega
        subst this
        rw [hj2] at hr2
        rw [hr2] at hlt
        exact lt_irrefl _ hlt

/-- **C157, errors.** Without notes, and with a negative number of candidates, there is a ValueError (in the second case if `get_end_time` works and the notes are
within the signal). -/
theorem C157_errors (rnd : ℚ → ℚ) (fuel : Nat) (pm : PM) (candidates : Int) (tol : ℚ) :
    ((∀ i ∈ pm.insts, i.notes = []) → pm.estimateBeatStart rnd fuel candidates tol = .error .value) ∧
    (candidates < 0 → (∀ i ∈ pm.insts, ∀ n ∈ i.notes, 0 ≤ n.start ∧ n.start < n.stop) → (∃ e, pm.endTime = .ok e) →
      pm.estimateBeatStart rnd fuel candidates tol = .error .value) := by
  constructor
  · intro h
    unfold PM.estimateBeatStart
    have : pm.insts.flatMap (fun i => i.notes) = [] := List.flatMap_eq_nil_iff.2 h
    simp only [this]
    rfl
  · intro hc hv ⟨e, he⟩
    unfold PM.estimateBeatStart
    have hcg : ∀ l, candGo candidates none 0 l = [] := by
      intro l
      cases l with
      | nil => rfl
      | cons n l => rw [candGo, if_neg (by omega)]
    have hge := endTime_ge pm e he
    have hmem : ∀ n ∈ sortByKey PNote.start (pm.insts.flatMap (fun i => i.notes)), 0 ≤ n.start ∧ n.start < n.stop ∧ n.stop ≤ e := by
      intro n hn
      obtain ⟨i, hi, hni⟩ := List.mem_flatMap.1 ((sortByKey_perm _ _).mem_iff.1 hn)
      exact ⟨(hv i hi n hni).1, (hv i hi n hni).2, hge i hi n hni⟩
    generalize sortByKey PNote.start (pm.insts.flatMap (fun i => i.notes)) = notes at hmem ⊢
    dsimp only
    by_cases hnil : notes = []
    · rw [if_pos hnil]
    · rw [if_neg hnil, hcg]
      obtain ⟨n, hn⟩ := List.exists_mem_of_ne_nil _ hnil
      have he0 : 0 ≤ e := by have := hmem n hn; linarith [this.1, this.2.1, this.2.2]
      rw [beatsAll]
      dsimp only [bind, Except.bind]
      rw [he]
      dsimp only
      have hlen0 : 0 ≤ ⌊1000 * (e + 1)⌋ := Int.floor_nonneg.2 (by linarith)
      rw [pyInt_nonneg_floor (by linarith), if_neg (not_lt.2 hlen0)]
      obtain ⟨ons, ho, _, _⟩ := onset_fold notes (List.replicate ⌊1000 * (e + 1)⌋.toNat 0) (by
        intro m hm
        obtain ⟨a, b, c⟩ := hmem m hm
        refine ⟨a, ?_⟩
        rw [List.length_replicate]
        have : ⌊m.start * 1000⌋ + 1 ≤ ⌊1000 * (e + 1)⌋ := by
          rw [Int.le_floor]
          push_cast
          linarith [Int.floor_le (m.start * 1000)]
        omega)
      rw [ho]
      rfl

/-- An object with the given notes, four ticks per quarter note, 120 quarter notes per minute. -/
def startPM (ns : List PNote) : PM :=
  { clock := { res := 4, scales := [(0, 1/8)], times := [0] }
    drum := 9, insts := [⟨0, false, "", ns, [], []⟩], timeSigs := [], keySigs := [], lyrics := [] }

theorem startPM_clock (ns : List PNote) : ClockOk (startPM ns).clock := by
  refine ⟨by simp [startPM], ⟨⟨1/8, [], rfl⟩, by simp [startPM], ?_⟩, 0, by simp [startPM], rfl⟩
  intro p hp
  simp only [startPM, List.mem_cons, List.not_mem_nil, or_false] at hp
  subst hp
  norm_num

/-- `sliceSet` with a counter, which the kernel evaluates faster. -/
def sliceCount (start len : Nat) (f : Nat → ℚ) : Nat → List ℚ → List ℚ
  | _, [] => []
  | i, v :: vs => (if start ≤ i ∧ i < start + len then f (i - start) else v) :: sliceCount start len f (i + 1) vs

theorem sliceCount_eq (start len : Nat) (f : Nat → ℚ) (i : Nat) (l : List ℚ) :
    sliceCount start len f i l = l.mapIdx (fun k v => if start ≤ k + i ∧ k + i < start + len then f (k + i - start) else v) := by
  induction l generalizing i with
  | nil => simp [sliceCount]
  | cons v vs ih =>
    rw [sliceCount, ih, List.mapIdx_cons]
    simp [Nat.add_comm, Nat.add_left_comm]

theorem sliceSet_count : sliceSet = fun a s n f => sliceCount s n f 0 a := by
  funext a s n f
  rw [sliceCount_eq]
  rfl

/-- A fast clock: 20 beats a second. -/
def fastPM (ns : List PNote) : PM := { startPM ns with clock := { res := 4, scales := [(0, 1/80)], times := [0] } }

/-- Non-vacuity of C157, and **defect: one candidate more than asked for is tried.** With `candidates = 1` the answer is the second onset: a soft note at 0 and two
loud ones half a beat off. With `candidates = 0` it is the first. -/
theorem C157_one_too_many :
    (fastPM [⟨1, 60, 0, 1/80⟩, ⟨100, 60, 1/40, 1/20⟩, ⟨100, 60, 3/40, 1/10⟩]).estimateBeatStart id 20 1 (1/400) = .ok (some (1/40)) ∧
    (fastPM [⟨1, 60, 0, 1/80⟩, ⟨100, 60, 1/40, 1/20⟩, ⟨100, 60, 3/40, 1/10⟩]).estimateBeatStart id 20 0 (1/400) = .ok (some 0) := by
  unfold PM.estimateBeatStart beatSignal
  rw [sliceSet_count]
  decide +kernel

/-- **C157, defect: rounding.** One note, beginning at the float nearest to 3 ms: in exact arithmetic that is the answer; with the windows computed in floats the length of
the window (27) is not that of its place (28), and there is a ValueError. -/
theorem C157_float_raises :
    (startPM [⟨64, 60, b64 (3/1000), 1/8⟩]).estimateBeatStart id 20 10 (b64 (1/40)) = .ok (some (b64 (3/1000))) ∧
    (startPM [⟨64, 60, b64 (3/1000), 1/8⟩]).estimateBeatStart b64 20 10 (b64 (1/40)) = .error .value := by
  unfold PM.estimateBeatStart beatSignal
  rw [sliceSet_count]
  decide +kernel

theorem windowAt_short (len : Nat) (tol b : ℚ) (hb : 0 ≤ b) (ht : 1/1000 ≤ tol) (hl : ((len : ℚ) + 2) / 1000 ≤ b + tol) :
    windowAt id len tol b = .error .value := by
  have h2 : (len : ℚ) + 2 ≤ (b + tol) * 1000 := by linarith
  unfold windowAt
  simp only [id_eq]
  by_cases hc : b < tol
  · have e1 : 2000 * tol + (b - tol) * 1000 = (b + tol) * 1000 := by ring
    have p : (0 : ℚ) ≤ (b + tol) * 1000 := by nlinarith
    have he : (len : Int) + 2 ≤ ⌊(b + tol) * 1000⌋ := Int.le_floor.2 (by push_cast; exact h2)
    rw [if_pos (by linarith), e1, pyInt_nonneg_floor p]
    have hn : ¬ ⌊(b + tol) * 1000⌋ < 0 := by omega
    simp only [if_neg hn]
    rw [if_neg (by omega)]
  · have p1 : (0 : ℚ) ≤ (b - tol) * 1000 := by nlinarith
    have p2 : (0 : ℚ) ≤ 1000 * tol * 2 := by linarith
    have e1 : 1000 * tol * 2 = 2000 * tol := by ring
    have f1 : 0 ≤ ⌊(b - tol) * 1000⌋ := Int.floor_nonneg.2 p1
    have f2 : 2 ≤ ⌊2000 * tol⌋ := Int.le_floor.2 (by push_cast; linarith)
    have add : (len : Int) + 1 ≤ ⌊(b - tol) * 1000⌋ + ⌊2000 * tol⌋ := by
      have h3 := Int.lt_floor_add_one ((b - tol) * 1000)
      have h4 := Int.lt_floor_add_one (2000 * tol)
      have : ((len : Int) : ℚ) < ((⌊(b - tol) * 1000⌋ + ⌊2000 * tol⌋ : Int) : ℚ) := by push_cast; linarith
      exact_mod_cast this
    rw [if_neg (by linarith), pyInt_nonneg_floor p1, pyInt_nonneg_floor p2, e1]
    rw [if_neg (by omega), if_neg (by omega)]

/-- Only ValueError can come from a window. -/
theorem windowAt_value (rnd : ℚ → ℚ) (len : Nat) (tol b : ℚ) (e : Err) (h : windowAt rnd len tol b = .error e) : e = .value := by
  unfold windowAt at h
  simp only at h
  repeat' split at h
  all_goals first
    | (injection h with h; exact h.symm)
    | cases h

/-- **C157, the bound on the tolerance is needed.** The signal has a millisecond per entry and ends a second after the music. If the window around one
of the beats, or around time 0, reaches 2 ms or more past that end, there is a ValueError. -/
theorem C157_wide_tolerance (len : Nat) (tol b : ℚ) (beats : List ℚ) (hb : b = 0 ∨ (b ∈ beats ∧ 0 ≤ b)) (ht : 1/1000 ≤ tol)
    (hl : ((len : ℚ) + 2) / 1000 ≤ b + tol) : beatSignal id len tol beats = .error .value := by
  have h0 : 0 ≤ b := by rcases hb with rfl | ⟨_, h⟩; exacts [le_refl _, h]
  have hm : b ∈ 0 :: beats := by rcases hb with rfl | ⟨h, _⟩ <;> simp_all
  have hw := windowAt_short len tol b h0 ht hl
  unfold beatSignal
  generalize List.replicate len (0 : ℚ) = a
  generalize (0 :: beats) = l at hm
  induction l generalizing a with
  | nil => simp at hm
  | cons x l ih =>
    rw [List.foldlM_cons]
    cases hx : windowAt id len tol x with
    | error e =>
      have := windowAt_value _ _ _ _ _ hx
      subst this
      simp only [bind, Except.bind]
    | ok w =>
      simp only [bind, Except.bind]
      have : b ∈ l := by
        rcases List.mem_cons.1 hm with rfl | h
        · rw [hw] at hx; cases hx
        · exact h
      exact ih _ this

/-- A note from 1.5 s to 1.625 s and a tolerance of 1.5 s. -/
example : (startPM [⟨64, 60, 3/2, 13/8⟩]).estimateBeatStart id 20 0 (3/2) = .error .value ∧
    (startPM [⟨64, 60, 3/2, 13/8⟩]).endTime = .ok (13/8) ∧ beatSignal id 2625 (3/2) [3/2] = .error .value := by
  refine ⟨?_, by decide +kernel, C157_wide_tolerance 2625 (3/2) (3/2) [3/2] (Or.inr ⟨by simp, by norm_num⟩) (by norm_num) (by norm_num)⟩
  unfold PM.estimateBeatStart beatSignal
  rw [sliceSet_count]
  decide +kernel

end NGC
