import Verif.FloatSave
import Verif.FloatClockProps
import Verif.DatasetProps

/-!
C156: saving and loading again, in floats. Each round may shorten a tempo by one microsecond per quarter note.
-/

namespace NGC

namespace Spec

/-- Microseconds per quarter note after tick `k`, according to the tempo events of a track: the last event at or before `k`, 500000 before the first. -/
def microsAt (track : List Msg) (k : Nat) : Nat :=
  ((((tempoEvents track).filter (fun p => decide (p.1 ≤ k))).getLast?).map (fun p => p.2)).getD 500000

/-- The exact time of tick `k`: the sum of the lengths of the ticks before it. -/
def timeOf (res : Nat) (track : List Msg) (k : Nat) : ℚ := ((List.range k).map (fun j => perTick res (microsAt track j))).sum

end Spec

/-! ### One tempo -/

/-- The tempo that comes back for `t`. -/
def resaved (res t : Nat) : Nat := (pyInt (b64 (60000000 / b64 (60 / b64 (scaleF res t * res))))).toNat

theorem scaleF_pos (res t : Nat) (hr : 0 < res) (ht : t ≠ 0) : 0 < scaleF res t :=
  (scaleF_rel res t hr ht).pos (perTick_pos res t hr ht)

theorem quarter_rel (res t : Nat) (hr : 0 < res) (ht : t ≠ 0) : Rel 6 ((t : ℚ) / 1000000) (b64 (scaleF res t * res)) := by
  have h1 : (0 : ℚ) < res := by exact_mod_cast hr
  have a := (scaleF_rel res t hr ht).mul_right h1.le
  have e : Spec.perTick res t * res = (t : ℚ) / 1000000 := by
    unfold Spec.perTick; field_simp
  rw [e] at a
  exact a.trans (b64_rel (mul_pos (scaleF_pos res t hr ht) h1).le)

theorem bpm_rel (res t : Nat) (hr : 0 < res) (ht : t ≠ 0) : Rel 13 (60000000 / (t : ℚ)) (b64 (60 / b64 (scaleF res t * res))) := by
  have h2 : (0 : ℚ) < t := by exact_mod_cast (by omega : 0 < t)
  have q := quarter_rel res t hr ht
  have p : (0 : ℚ) < (t : ℚ) / 1000000 := by positivity
  have a := q.div p (a := 60) (by norm_num)
  have b := a.trans (b64_rel (div_nonneg (by norm_num) (q.pos p).le))
  have e : (60 : ℚ) / ((t : ℚ) / 1000000) = 60000000 / (t : ℚ) := by field_simp; norm_num
  rw [e] at b
  exact b

theorem micros_rel (res t : Nat) (hr : 0 < res) (ht : t ≠ 0) :
    Rel 27 (t : ℚ) (b64 (60000000 / b64 (60 / b64 (scaleF res t * res)))) := by
  have h2 : (0 : ℚ) < t := by exact_mod_cast (by omega : 0 < t)
  have q := bpm_rel res t hr ht
  have p : (0 : ℚ) < 60000000 / (t : ℚ) := by positivity
  have a := q.div p (a := 60000000) (by norm_num)
  have b := a.trans (b64_rel (div_nonneg (by norm_num) (q.pos p).le))
  have e : (60000000 : ℚ) / (60000000 / (t : ℚ)) = t := by field_simp
  rw [e] at b
  exact b

theorem resaved_near (res t : Nat) (hr : 0 < res) (ht : t ≠ 0) (h24 : t ≤ 2 ^ (24 : Nat)) : resaved res t = t ∨ resaved res t + 1 = t := by
  have m := micros_rel res t hr ht
  have h2 : (0 : ℚ) < t := by exact_mod_cast (by omega : 0 < t)
  have e := m.err h2.le (by norm_num)
  have hq : (t : ℚ) ≤ 16777216 := by exact_mod_cast (le_trans h24 (by norm_num) : t ≤ 16777216)
  unfold resaved
  have hp := m.pos h2
  generalize b64 (60000000 / b64 (60 / b64 (scaleF res t * res))) = r at *
  rw [abs_le] at e
  norm_num at e
  rw [pyInt_nonneg_floor hp.le]
  have f1 := Int.floor_le r
  have f2 := Int.lt_floor_add_one r
  have a1 : ⌊r⌋ < (t : Int) + 1 := by
    have : (⌊r⌋ : ℚ) < ((t : Int) + 1 : Int) := by push_cast; linarith [e.2]
    exact_mod_cast this
  have a2 : (t : Int) - 1 < ⌊r⌋ + 1 := by
    have : (((t : Int) - 1 : Int) : ℚ) < (⌊r⌋ + 1 : Int) := by push_cast; linarith [e.1]
    exact_mod_cast this
  omega

/-- The smallest tempo, one microsecond per quarter note, is not written as 0. -/
theorem resaved_one (res : Nat) (hr : 0 < res) (h15 : res ≤ 2 ^ (15 : Nat)) : 1 ≤ resaved res 1 := by
  have h1 : (0 : ℚ) < res := by exact_mod_cast hr
  have p1 := scaleF_pos res 1 hr (by norm_num)
  have lo : (1 - u64) / 1000000 ≤ scaleF res 1 * res := by
    have e1 : b64 (60000000 / ((1 : Nat) : ℚ)) = ((60000000 : ℤ) : ℚ) := by
      have := b64_int 60000000 (by norm_num)
      rw [← this]; norm_num
    have e2 : b64 (((60000000 : ℤ) : ℚ) * res) = ((60000000 : ℤ) : ℚ) * res := by
      have := b64_int (60000000 * (res : ℤ)) (by
        rw [abs_of_nonneg (by positivity)]
        have : (res : ℤ) ≤ 2 ^ (15 : Nat) := by exact_mod_cast h15
        norm_num at this ⊢
        omega)
      push_cast at this ⊢
      exact this
    unfold scaleF
    rw [e1, e2]
    have r := (b64_rel (x := 60 / (((60000000 : ℤ) : ℚ) * res)) (by positivity)).1
    have r2 := mul_le_mul_of_nonneg_right r h1.le
    refine le_trans (le_of_eq ?_) r2
    push_cast
    field_simp
    ring
  have c1 : b64 ((1 - u64) / 1000000) ≤ b64 (scaleF res 1 * res) := b64_mono lo
  have k1 : b64 ((1 - u64) / 1000000) = 4722366482869645 / 4722366482869645213696 := by decide +kernel
  rw [k1] at c1
  have q1 : 0 < b64 (scaleF res 1 * res) := b64_pos (mul_pos p1 h1)
  have c2 : b64 (60 / b64 (scaleF res 1 * res)) ≤ b64 (60 / (4722366482869645 / 4722366482869645213696)) :=
    b64_mono (div_le_div_of_nonneg_left (by norm_num) (by norm_num) c1)
  have q2 : 0 < b64 (60 / b64 (scaleF res 1 * res)) := b64_pos (by positivity)
  have c3 : b64 (60000000 / b64 (60 / (4722366482869645 / 4722366482869645213696))) ≤ b64 (60000000 / b64 (60 / b64 (scaleF res 1 * res))) :=
    b64_mono (div_le_div_of_nonneg_left (by norm_num) q2 c2)
  have k3 : b64 (60000000 / b64 (60 / (4722366482869645 / 4722366482869645213696))) = 1 := by decide +kernel
  rw [k3] at c3
  unfold resaved
  rw [pyInt_nonneg_floor (by linarith)]
  have : (1 : Int) ≤ ⌊b64 (60000000 / b64 (60 / b64 (scaleF res 1 * res)))⌋ := Int.le_floor.2 (by exact_mod_cast c3)
  omega

theorem resaved_pos (res t : Nat) (hr : 0 < res) (h15 : res ≤ 2 ^ (15 : Nat)) (ht : t ≠ 0) (h24 : t ≤ 2 ^ (24 : Nat)) : resaved res t ≠ 0 := by
  by_cases h : t = 1
  · subst h; have := resaved_one res hr h15; omega
  · rcases resaved_near res t hr ht h24 with g | g <;> omega

theorem writtenTempoF_scale (res t : Nat) (hr : 0 < res) (ht : t ≠ 0) : writtenTempoF res (scaleF res t) = .ok (resaved res t) := by
  have h1 : (0 : ℚ) < res := by exact_mod_cast hr
  unfold writtenTempoF
  rw [if_neg (b64_pos (mul_pos (scaleF_pos res t hr ht) h1)).ne']
  rfl

/-- **C156, one tempo.** For every resolution of a MIDI file and every tempo of three bytes: loading works, and what is saved again is the tempo or one
microsecond per quarter note less; never 0. -/
theorem C156_one_tempo (res t : Nat) (hr : 0 < res) (h15 : res ≤ 2 ^ (15 : Nat)) (ht : t ≠ 0) (h24 : t ≤ 2 ^ (24 : Nat)) :
    ∃ s w, tickScaleF res t = .ok s ∧ writtenTempoF res s = .ok w ∧ (w = t ∨ w + 1 = t) ∧ w ≠ 0 :=
  ⟨_, _, tickScaleF_eq res t hr ht, writtenTempoF_scale res t hr ht, resaved_near res t hr ht h24, resaved_pos res t hr h15 ht h24⟩

/-- Both happen: at 480 ticks per quarter note 120 bpm is kept, 69 bpm (869565) becomes 869564. -/
example : (tickScaleF 480 500000 >>= writtenTempoF 480) = .ok 500000 ∧ (tickScaleF 480 869565 >>= writtenTempoF 480) = .ok 869564 := by decide +kernel

/-- **C156, the tempo asked for.** `get_tempo_changes` reports for a loaded tempo of `t` microseconds per quarter note a number of quarter notes per minute that
is off from `6e7/t` by at most 13 parts in 2^52. -/
theorem C156_tempo_reported (res t : Nat) (hr : 0 < res) (ht : t ≠ 0) :
    ∃ s b, tickScaleF res t = .ok s ∧ tempoOfScaleF res s = .ok b ∧ |b - 60000000 / (t : ℚ)| ≤ 60000000 / (t : ℚ) * (13 / 2 ^ (52 : Nat)) := by
  have h1 : (0 : ℚ) < res := by exact_mod_cast hr
  refine ⟨_, _, tickScaleF_eq res t hr ht, ?_, (bpm_rel res t hr ht).err (by positivity) (by norm_num)⟩
  unfold tempoOfScaleF
  rw [if_neg (b64_pos (mul_pos (scaleF_pos res t hr ht) h1)).ne']

example : (tickScaleF 480 500000 >>= tempoOfScaleF 480) = .ok 120 := by decide +kernel

/-- **C156, no tempo.** With a resolution of zero, or a scale of zero, the tempo asked for is ZeroDivisionError. -/
theorem C156_no_tempo (res : Nat) (scale : ℚ) (h : res = 0 ∨ scale = 0) : tempoOfScaleF res scale = .error .zeroDiv := by
  have : b64 (scale * res) = 0 := by
    rcases h with h | h <;> subst h <;> simp [b64_zero]
  unfold tempoOfScaleF
  rw [if_pos this]

/-! ### The tempo events of a file -/

/-- Drop the entries that repeat the tempo in force. -/
def squeeze : Nat → List (Nat × Nat) → List (Nat × Nat)
  | _, [] => []
  | last, (k, t) :: r => if t = last then squeeze last r else (k, t) :: squeeze t r

/-- Entries of a tempo map after its head: later than tick 0, in order, three bytes. -/
def LaterOk (l : List (Nat × Nat)) : Prop :=
  (∀ p ∈ l, p.1 ≠ 0) ∧ l.Pairwise (fun a b => a.1 ≤ b.1) ∧ ∀ p ∈ l, p.2 ≠ 0 ∧ p.2 ≤ 2 ^ (24 : Nat)

def toMsgs (l : List (Nat × Nat)) : List Msg := l.map (fun p => ⟨(p.1 : Int), .setTempo p.2⟩)

def toScales (res : Nat) (l : List (Nat × Nat)) : List (Nat × ℚ) := l.map (fun p => (p.1, scaleF res p.2))

theorem tempoMsgsF_eq (res : Nat) (hr : 0 < res) (l : List (Nat × Nat)) (h : ∀ p ∈ l, p.2 ≠ 0) :
    tempoMsgsF res (toScales res l) = .ok (toMsgs (l.map (fun p => (p.1, resaved res p.2)))) := by
  induction l with
  | nil => rfl
  | cons p l ih =>
    have := ih (fun q hq => h q (List.mem_cons_of_mem _ hq))
    unfold tempoMsgsF toScales at this ⊢
    rw [List.map_cons, List.mapM_cons]
    simp only [writtenTempoF_scale res p.2 hr (h p List.mem_cons_self), bind, Except.bind, pure, Except.pure] at this ⊢
    rw [this]
    rfl

theorem fold_later (res : Nat) (hr : 0 < res) : ∀ (l : List (Nat × Nat)) (pre : List (Nat × Nat)) (k last : Nat), last ≠ 0 → last ≤ 2 ^ (24 : Nat) →
    LaterOk l → (toMsgs l).foldlM (tempoStepF res) (toScales res (pre ++ [(k, last)])) = .ok (toScales res (pre ++ (k, last) :: squeeze last l)) := by
  intro l
  induction l with
  | nil => intro pre k last _ _ _; rfl
  | cons p l ih =>
    obtain ⟨k1, t⟩ := p
    intro pre k last h0 h24 ⟨hz, ho, ht⟩
    obtain ⟨t0, t24⟩ := ht (k1, t) List.mem_cons_self
    have hk1 : k1 ≠ 0 := hz (k1, t) List.mem_cons_self
    have hl : LaterOk l := ⟨fun q hq => hz q (List.mem_cons_of_mem _ hq), (List.pairwise_cons.1 ho).2, fun q hq => ht q (List.mem_cons_of_mem _ hq)⟩
    have l2 : (toScales res (pre ++ [(k, last)])).getLast? = some (k, scaleF res last) := by
      unfold toScales; rw [List.getLast?_map]; simp
    have step : tempoStepF res (toScales res (pre ++ [(k, last)])) ⟨(k1 : Int), .setTempo t⟩ =
        if scaleF res t ≠ scaleF res last then .ok (toScales res (pre ++ [(k, last)]) ++ [(k1, scaleF res t)]) else .ok (toScales res (pre ++ [(k, last)])) := by
      unfold tempoStepF
      have hk : ¬ ((k1 : Int) = 0) := by omega
      simp only [tickScaleF_eq res t hr t0, bind, Except.bind, l2, if_neg hk, Int.toNat_natCast]
    unfold toMsgs at ih ⊢
    rw [List.map_cons, List.foldlM_cons, step]
    by_cases he : t = last
    · rw [if_neg (by rw [he]; simp), squeeze, if_pos he]
      exact ih pre k last h0 h24 hl
    · rw [if_pos (fun h => he ((scaleF_inj res _ _ hr t0 h0 t24 h24).1 h)), squeeze, if_neg he]
      have := ih (pre ++ [(k, last)]) k1 t t0 t24 hl
      have e : toScales res (pre ++ [(k, last)]) ++ [(k1, scaleF res t)] = toScales res (pre ++ [(k, last)] ++ [(k1, t)]) := by
        unfold toScales; simp
      dsimp only [bind, Except.bind]
      rw [e, this]
      simp

theorem load_msgs (res : Nat) (hr : 0 < res) (t : Nat) (t0 : t ≠ 0) (t24 : t ≤ 2 ^ (24 : Nat)) (l : List (Nat × Nat)) (hl : LaterOk l) :
    loadTempoF res (toMsgs ((0, t) :: l)) = .ok (toScales res ((0, t) :: squeeze t l)) := by
  unfold loadTempoF
  rw [if_neg (by omega)]
  unfold toMsgs
  rw [List.map_cons, List.foldlM_cons]
  have step : tempoStepF res [(0, b64 (60 / b64 (120 * (res : ℚ))))] ⟨((0 : Nat) : Int), .setTempo t⟩ = .ok (toScales res [(0, t)]) := by
    unfold tempoStepF
    simp only [tickScaleF_eq res t hr t0, bind, Except.bind]
    rfl
  rw [step]
  exact fold_later res hr l [] 0 t t0 t24 hl

/-- Microseconds per quarter note after tick `k`, from a list of entries. -/
def mAt (T : List (Nat × Nat)) (k : Nat) : Nat := (((T.filter (fun p => decide (p.1 ≤ k))).getLast?).map (fun p => p.2)).getD 500000

theorem events_toMsgs (l : List (Nat × Nat)) : Spec.tempoEvents (toMsgs l) = l := by
  induction l with
  | nil => rfl
  | cons p l ih =>
    unfold Spec.tempoEvents toMsgs at ih ⊢
    rw [List.map_cons, List.filterMap_cons]
    simp only [Int.toNat_natCast]
    rw [ih]

theorem microsAt_toMsgs (l : List (Nat × Nat)) (k : Nat) : Spec.microsAt (toMsgs l) k = mAt l k := by
  unfold Spec.microsAt mAt
  rw [events_toMsgs]

theorem mAt_map (f : Nat → Nat) (t : Nat) (l : List (Nat × Nat)) (k : Nat) :
    mAt (((0, t) :: l).map (fun p => (p.1, f p.2))) k = f (mAt ((0, t) :: l) k) := by
  unfold mAt
  rw [List.filter_map, List.getLast?_map, Option.map_map]
  have hne : ((0, t) :: l).filter (fun p => decide (p.1 ≤ k)) ≠ [] := by simp
  have e : ((0, t) :: l).filter ((fun p : Nat × Nat => decide (p.1 ≤ k)) ∘ fun p => (p.1, f p.2)) = ((0, t) :: l).filter (fun p => decide (p.1 ≤ k)) := rfl
  rw [e, List.getLast?_eq_some_getLast hne]
  rfl

/-- A tempo map loaded from a track: starts at tick 0, no other entry there. -/
theorem fold_head (res : Nat) (track : List Msg) (hn : ∀ e ∈ track, 0 ≤ e.time) : ∀ (s s' : List (Nat × ℚ)),
    (∃ c r, s = (0, c) :: r ∧ ∀ p ∈ r, p.1 ≠ 0) → track.foldlM (tempoStepF res) s = .ok s' → ∃ c r, s' = (0, c) :: r ∧ ∀ p ∈ r, p.1 ≠ 0 := by
  induction track with
  | nil => intro s s' h e; cases e; exact h
  | cons e es ih =>
    intro s s' h he
    rw [List.foldlM_cons] at he
    have hes : ∀ x ∈ es, 0 ≤ x.time := fun x hx => hn x (List.mem_cons_of_mem _ hx)
    have he0 := hn e List.mem_cons_self
    cases h1 : tempoStepF res s e with
    | error x => rw [h1] at he; cases he
    | ok s1 =>
      rw [h1] at he
      refine ih hes s1 s' ?_ he
      unfold tempoStepF at h1
      split at h1
      · rename_i t ht
        cases h2 : tickScaleF res t with
        | error x => rw [h2] at h1; cases h1
        | ok c =>
          rw [h2] at h1
          dsimp only [bind, Except.bind] at h1
          split at h1
          · cases h1; exact ⟨c, [], rfl, by simp⟩
          · split at h1
            · cases h1
            · rename_i hz _ _ _ _ _
              split at h1
              · cases h1
                obtain ⟨c0, r, rfl, hr⟩ := h
                refine ⟨c0, r ++ [(e.time.toNat, c)], rfl, ?_⟩
                intro p hp
                rcases List.mem_append.1 hp with hp | hp
                · exact hr p hp
                · simp only [List.mem_singleton] at hp
                  subst hp
                  show e.time.toNat ≠ 0
                  omega
              · cases h1; exact h
      · cases h1; exact h

theorem load_track (res : Nat) (hr : 0 < res) (track : List Msg) (hg : Spec.GoodTrack track) (hok : ∀ e ∈ track, TempoOk e) :
    ∃ t l, loadTempoF res track = .ok (toScales res ((0, t) :: l)) ∧ (t ≠ 0 ∧ t ≤ 2 ^ (24 : Nat)) ∧ LaterOk l ∧
      ∀ k, mAt ((0, t) :: l) k = Spec.microsAt track k := by
  obtain ⟨sE, hE, hm, _, hs⟩ := C60_tempo_map res hr track hg
  have hrq : (res : ℚ) ≠ 0 := by exact_mod_cast (by omega : res ≠ 0)
  obtain ⟨T, hT, h1, h2⟩ := tempoFold res hr track hok [(0, 500000)] (by simp) (by
    intro p hp; simp only [List.mem_singleton] at hp; subst hp; exact ⟨by norm_num, by norm_num⟩)
  have d1 : (60 : ℚ) / (120 * res) = Spec.perTick res 500000 := by
    unfold Spec.perTick; field_simp; norm_num
  have e1 : loadTempo res track = .ok (T.map (fun p => (p.1, Spec.perTick res p.2))) := by
    unfold loadTempo; rw [if_neg (by omega), d1]; exact h1
  have e2 : loadTempoF res track = .ok (T.map (fun p => (p.1, scaleF res p.2))) := by
    unfold loadTempoF; rw [if_neg (by omega), scaleF_default]; exact h2
  have eE : sE = T.map (fun p => (p.1, Spec.perTick res p.2)) := Except.ok.inj (hE.symm.trans e1)
  obtain ⟨c, r, hc, hrr⟩ := fold_head res track hg.nonneg _ _ ⟨scaleF res 500000, [], rfl, by simp⟩ h2
  cases T with
  | nil => simp at hc
  | cons p l =>
    obtain ⟨k0, t⟩ := p
    simp only [List.map_cons, List.cons.injEq, Prod.mk.injEq] at hc
    obtain ⟨⟨rfl, _⟩, hl⟩ := hc
    refine ⟨t, l, e2, hT (0, t) List.mem_cons_self, ⟨?_, ?_, fun p hp => hT p (List.mem_cons_of_mem _ hp)⟩, ?_⟩
    · intro p hp
      exact hrr (p.1, scaleF res p.2) (by rw [← hl]; exact List.mem_map_of_mem hp)
    · have ho := hm.order
      rw [eE, List.map_cons, List.pairwise_cons, List.pairwise_map] at ho
      exact ho.2
    · intro k
      apply (perTick_inj res _ _ hr).1
      have h3 := hs k
      rw [eE, scaleAt_map] at h3
      have hne : ((0, t) :: l).filter (fun p => decide (p.1 ≤ k)) ≠ [] := by simp
      have l1 : Spec.perTick res (mAt ((0, t) :: l) k) = Spec.tempoInForce res track k := by
        rw [← h3]
        unfold mAt
        rw [List.getLast?_eq_some_getLast hne]
        rfl
      rw [l1]
      unfold Spec.tempoInForce Spec.microsAt
      cases ((Spec.tempoEvents track).filter (fun p => decide (p.1 ≤ k))).getLast? <;> rfl

theorem toMsgs_good (t : Nat) (l : List (Nat × Nat)) (ht : t ≠ 0 ∧ t ≤ 2 ^ (24 : Nat)) (hl : LaterOk l) :
    Spec.GoodTrack (toMsgs ((0, t) :: l)) ∧ ∀ e ∈ toMsgs ((0, t) :: l), TempoOk e := by
  have key : ∀ p ∈ (0, t) :: l, p.2 ≠ 0 ∧ p.2 ≤ 2 ^ (24 : Nat) := by
    intro p hp
    rcases List.mem_cons.1 hp with rfl | hp
    · exact ht
    · exact hl.2.2 p hp
  unfold toMsgs
  refine ⟨⟨?_, ?_, ?_⟩, ?_⟩
  · intro e he
    obtain ⟨p, _, rfl⟩ := List.mem_map.1 he
    exact Int.natCast_nonneg _
  · rw [List.pairwise_map, List.pairwise_cons]
    refine ⟨fun p _ => by simp, ?_⟩
    refine hl.2.1.imp ?_
    intro a b h
    exact Int.ofNat_le.2 h
  · intro e he
    obtain ⟨p, hp, rfl⟩ := List.mem_map.1 he
    intro h
    simp only [Body.setTempo.injEq] at h
    exact (key p hp).1 h
  · intro e he
    obtain ⟨p, hp, rfl⟩ := List.mem_map.1 he
    intro x hx
    simp only [Body.setTempo.injEq] at hx
    rw [← hx]
    exact key p hp

/-- The tempi of the next file, entry by entry. -/
def resavedAll (res : Nat) (l : List (Nat × Nat)) : List (Nat × Nat) := l.map (fun p => (p.1, resaved res p.2))

theorem resaved_ok (res : Nat) (hr : 0 < res) (h15 : res ≤ 2 ^ (15 : Nat)) (t : Nat) (ht : t ≠ 0 ∧ t ≤ 2 ^ (24 : Nat)) :
    resaved res t ≠ 0 ∧ resaved res t ≤ 2 ^ (24 : Nat) := by
  refine ⟨resaved_pos res t hr h15 ht.1 ht.2, ?_⟩
  rcases resaved_near res t hr ht.1 ht.2 with g | g <;> omega

theorem resavedAll_later (res : Nat) (hr : 0 < res) (h15 : res ≤ 2 ^ (15 : Nat)) (l : List (Nat × Nat)) (hl : LaterOk l) : LaterOk (resavedAll res l) := by
  refine ⟨?_, ?_, ?_⟩
  · intro p hp
    obtain ⟨q, hq, rfl⟩ := List.mem_map.1 hp
    exact hl.1 q hq
  · unfold resavedAll
    rw [List.pairwise_map]
    exact hl.2.1
  · intro p hp
    obtain ⟨q, hq, rfl⟩ := List.mem_map.1 hp
    exact resaved_ok res hr h15 q.2 (hl.2.2 q hq)

theorem resave_track (res : Nat) (hr : 0 < res) (h15 : res ≤ 2 ^ (15 : Nat)) (track : List Msg) (hg : Spec.GoodTrack track) (hok : ∀ e ∈ track, TempoOk e) :
    ∃ t l, resaveF res track = .ok (toMsgs ((0, t) :: l)) ∧ (t ≠ 0 ∧ t ≤ 2 ^ (24 : Nat)) ∧ LaterOk l ∧
      ∀ k, Spec.microsAt (toMsgs ((0, t) :: l)) k = resaved res (Spec.microsAt track k) := by
  obtain ⟨t, l, h1, h2, h3, h4⟩ := load_track res hr track hg hok
  refine ⟨resaved res t, resavedAll res l, ?_, resaved_ok res hr h15 t h2, resavedAll_later res hr h15 l h3, ?_⟩
  · unfold resaveF
    rw [h1]
    dsimp only [bind, Except.bind]
    rw [tempoMsgsF_eq res hr _ (by
      intro p hp
      rcases List.mem_cons.1 hp with rfl | hp
      · exact h2.1
      · exact (h3.2.2 p hp).1)]
    rfl
  · intro k
    rw [microsAt_toMsgs, ← h4 k, ← mAt_map (resaved res)]
    rfl

theorem microsAt_ok (track : List Msg) (hok : ∀ e ∈ track, TempoOk e) (k : Nat) :
    Spec.microsAt track k ≠ 0 ∧ Spec.microsAt track k ≤ 2 ^ (24 : Nat) := by
  unfold Spec.microsAt
  cases h : ((Spec.tempoEvents track).filter (fun p => decide (p.1 ≤ k))).getLast? with
  | none => exact ⟨by simp, by simp⟩
  | some p =>
    have hp := List.mem_of_mem_filter (List.mem_of_getLast? h)
    unfold Spec.tempoEvents at hp
    obtain ⟨e, he, hh⟩ := List.mem_filterMap.1 hp
    split at hh
    · rename_i t ht
      cases hh
      exact hok e he t ht
    · cases hh

/-- **C156, one round.** Load a file and save it: this works for every resolution and every valid track of tempo events; the saved file has again a valid track, and
at every tick its tempo is the one of the original or one microsecond per quarter note less. -/
theorem C156_round (res : Nat) (hr : 0 < res) (h15 : res ≤ 2 ^ (15 : Nat)) (track : List Msg) (hg : Spec.GoodTrack track) (hok : ∀ e ∈ track, TempoOk e) :
    ∃ track', resaveF res track = .ok track' ∧ Spec.GoodTrack track' ∧ (∀ e ∈ track', TempoOk e) ∧
      ∀ k, Spec.microsAt track' k = Spec.microsAt track k ∨ Spec.microsAt track' k + 1 = Spec.microsAt track k := by
  obtain ⟨t, l, h1, h2, h3, h4⟩ := resave_track res hr h15 track hg hok
  obtain ⟨g1, g2⟩ := toMsgs_good t l h2 h3
  refine ⟨_, h1, g1, g2, fun k => ?_⟩
  rw [h4 k]
  have := microsAt_ok track hok k
  exact resaved_near res _ hr this.1 this.2

theorem timeOf_bounds (res : Nat) (hr : 0 < res) (a b : List Msg) (n : Nat) (h : ∀ k, Spec.microsAt b k ≤ Spec.microsAt a k ∧ Spec.microsAt a k ≤ Spec.microsAt b k + n) (k : Nat) :
    Spec.timeOf res b k ≤ Spec.timeOf res a k ∧ Spec.timeOf res a k ≤ Spec.timeOf res b k + n * k / (1000000 * res) := by
  have h1 : (0 : ℚ) < res := by exact_mod_cast hr
  unfold Spec.timeOf
  induction k with
  | zero => simp
  | succ k ih =>
    rw [List.range_succ, List.map_append, List.map_append, List.sum_append, List.sum_append]
    simp only [List.map_cons, List.map_nil, List.sum_cons, List.sum_nil, add_zero]
    obtain ⟨p, q⟩ := h k
    have pq : (Spec.microsAt b k : ℚ) ≤ Spec.microsAt a k := by exact_mod_cast p
    have qq : (Spec.microsAt a k : ℚ) ≤ Spec.microsAt b k + n := by exact_mod_cast q
    have x1 : Spec.perTick res (Spec.microsAt b k) ≤ Spec.perTick res (Spec.microsAt a k) := by
      unfold Spec.perTick; gcongr
    have x2 : Spec.perTick res (Spec.microsAt a k) ≤ Spec.perTick res (Spec.microsAt b k) + n / (1000000 * res) := by
      unfold Spec.perTick
      rw [div_div, div_div, ← add_div]
      gcongr
    have x3 : (n : ℚ) * ((k + 1 : Nat) : ℚ) / (1000000 * res) = n * k / (1000000 * res) + n / (1000000 * res) := by push_cast; ring
    rw [x3]
    constructor <;> linarith [ih.1, ih.2]

/-- **C156, many rounds.** After `n` rounds of loading and saving, every one of which works, every tempo has become shorter by at most `n` microseconds per quarter
note and none has become longer; so tick `k` comes not later than in the original, and earlier by at most `n·k` microseconds divided by the resolution. -/
theorem C156_rounds (res : Nat) (hr : 0 < res) (h15 : res ≤ 2 ^ (15 : Nat)) (n : Nat) (track : List Msg) (hg : Spec.GoodTrack track) (hok : ∀ e ∈ track, TempoOk e) :
    ∃ track', resavesF res n track = .ok track' ∧ Spec.GoodTrack track' ∧ (∀ e ∈ track', TempoOk e) ∧
      (∀ k, Spec.microsAt track' k ≤ Spec.microsAt track k ∧ Spec.microsAt track k ≤ Spec.microsAt track' k + n) ∧
      ∀ k, Spec.timeOf res track' k ≤ Spec.timeOf res track k ∧ Spec.timeOf res track k ≤ Spec.timeOf res track' k + n * k / (1000000 * res) := by
  suffices hs : ∃ track', resavesF res n track = .ok track' ∧ Spec.GoodTrack track' ∧ (∀ e ∈ track', TempoOk e) ∧
      (∀ k, Spec.microsAt track' k ≤ Spec.microsAt track k ∧ Spec.microsAt track k ≤ Spec.microsAt track' k + n) by
    obtain ⟨track', a, b, c, d⟩ := hs
    exact ⟨track', a, b, c, d, timeOf_bounds res hr track track' n d⟩
  induction n generalizing track with
  | zero => exact ⟨track, rfl, hg, hok, fun k => ⟨Nat.le_refl _, by omega⟩⟩
  | succ n ih =>
    obtain ⟨t1, a, b, c, d⟩ := C156_round res hr h15 track hg hok
    obtain ⟨t2, a2, b2, c2, d2⟩ := ih t1 b c
    refine ⟨t2, ?_, b2, c2, fun k => ?_⟩
    · rw [resavesF, a]; exact a2
    · have h1 := d k; have h2 := d2 k; omega

/-! ### The drift ends -/

def sumT (l : List (Nat × Nat)) : Nat := (l.map Prod.snd).sum

theorem sumT_resaved (res : Nat) (hr : 0 < res) (l : List (Nat × Nat)) (h : ∀ p ∈ l, p.2 ≠ 0 ∧ p.2 ≤ 2 ^ (24 : Nat)) :
    sumT (resavedAll res l) ≤ sumT l ∧ (sumT (resavedAll res l) = sumT l → resavedAll res l = l) := by
  induction l with
  | nil => exact ⟨Nat.le_refl _, fun _ => rfl⟩
  | cons p l ih =>
    obtain ⟨a, b⟩ := ih (fun q hq => h q (List.mem_cons_of_mem _ hq))
    have hp := h p List.mem_cons_self
    have hn := resaved_near res p.2 hr hp.1 hp.2
    unfold sumT resavedAll at *
    simp only [List.map_cons, List.sum_cons] at *
    refine ⟨by omega, fun e => ?_⟩
    have e1 : resaved res p.2 = p.2 := by omega
    rw [b (by omega), e1]

theorem sumT_squeeze : ∀ (l : List (Nat × Nat)) (last : Nat), (∀ p ∈ l, p.2 ≠ 0) →
    sumT (squeeze last l) ≤ sumT l ∧ (sumT (squeeze last l) = sumT l → squeeze last l = l) := by
  intro l
  induction l with
  | nil => intro last _; exact ⟨Nat.le_refl _, fun _ => rfl⟩
  | cons p l ih =>
    obtain ⟨k, t⟩ := p
    intro last h
    have hp := h (k, t) List.mem_cons_self
    simp only at hp
    rw [squeeze]
    split
    · obtain ⟨a, b⟩ := ih last (fun q hq => h q (List.mem_cons_of_mem _ hq))
      unfold sumT at *
      simp only [List.map_cons, List.sum_cons] at *
      exact ⟨by omega, fun e => by omega⟩
    · obtain ⟨a, b⟩ := ih t (fun q hq => h q (List.mem_cons_of_mem _ hq))
      unfold sumT at *
      simp only [List.map_cons, List.sum_cons] at *
      exact ⟨by omega, fun e => by rw [b (by omega)]⟩

theorem squeeze_sub : ∀ (l : List (Nat × Nat)) (last : Nat), (squeeze last l).Sublist l := by
  intro l
  induction l with
  | nil => intro last; exact List.Sublist.refl _
  | cons p l ih =>
    obtain ⟨k, t⟩ := p
    intro last
    rw [squeeze]
    split
    · exact (ih last).cons _
    · exact (ih t).cons_cons _

theorem squeeze_later (l : List (Nat × Nat)) (last : Nat) (h : LaterOk l) : LaterOk (squeeze last l) :=
  ⟨fun p hp => h.1 p ((squeeze_sub l last).subset hp), h.2.1.sublist (squeeze_sub l last), fun p hp => h.2.2 p ((squeeze_sub l last).subset hp)⟩

theorem resave_msgs (res : Nat) (hr : 0 < res) (t : Nat) (l : List (Nat × Nat)) (ht : t ≠ 0 ∧ t ≤ 2 ^ (24 : Nat)) (hl : LaterOk l) :
    resaveF res (toMsgs ((0, t) :: l)) = .ok (toMsgs ((0, resaved res t) :: resavedAll res (squeeze t l))) := by
  unfold resaveF
  rw [load_msgs res hr t ht.1 ht.2 l hl]
  dsimp only [bind, Except.bind]
  rw [tempoMsgsF_eq res hr _ (by
    intro p hp
    rcases List.mem_cons.1 hp with rfl | hp
    · exact ht.1
    · exact (hl.2.2 p ((squeeze_sub l t).subset hp)).1)]
  rfl

theorem settle_msgs (res : Nat) (hr : 0 < res) (h15 : res ≤ 2 ^ (15 : Nat)) : ∀ (s t : Nat) (l : List (Nat × Nat)), (t ≠ 0 ∧ t ≤ 2 ^ (24 : Nat)) → LaterOk l →
    sumT ((0, t) :: l) ≤ s → ∃ N, ∀ n, N ≤ n → resavesF res n (toMsgs ((0, t) :: l)) = resavesF res N (toMsgs ((0, t) :: l)) := by
  intro s
  induction s with
  | zero =>
    intro t l ht _ h
    unfold sumT at h
    simp only [List.map_cons, List.sum_cons] at h
    omega
  | succ s ih =>
    intro t l ht hl h
    have hq := squeeze_later l t hl
    have step := resave_msgs res hr t l ht hl
    by_cases hsame : (0, resaved res t) :: resavedAll res (squeeze t l) = (0, t) :: l
    · rw [hsame] at step
      refine ⟨0, fun n _ => ?_⟩
      rw [show resavesF res 0 (toMsgs ((0, t) :: l)) = .ok (toMsgs ((0, t) :: l)) from rfl]
      induction n with
      | zero => rfl
      | succ n ihn =>
        rw [resavesF, step]
        exact ihn (Nat.zero_le _)
    · obtain ⟨a, b⟩ := sumT_resaved res hr (squeeze t l) hq.2.2
      obtain ⟨c, d⟩ := sumT_squeeze l t (fun p hp => (hl.2.2 p hp).1)
      have near := resaved_near res t hr ht.1 ht.2
      have lt : sumT ((0, resaved res t) :: resavedAll res (squeeze t l)) ≤ s := by
        have e1 : sumT ((0, resaved res t) :: resavedAll res (squeeze t l)) = resaved res t + sumT (resavedAll res (squeeze t l)) := rfl
        have e2 : sumT ((0, t) :: l) = t + sumT l := rfl
        by_contra hc
        apply hsame
        have q1 : resaved res t = t := by omega
        have q2 : sumT (resavedAll res (squeeze t l)) = sumT (squeeze t l) := by omega
        have q3 : sumT (squeeze t l) = sumT l := by omega
        rw [q1, b q2, d q3]
      obtain ⟨N, hN⟩ := ih (resaved res t) (resavedAll res (squeeze t l)) (resaved_ok res hr h15 t ht) (resavedAll_later res hr h15 _ hq) lt
      refine ⟨N + 1, fun n hn => ?_⟩
      obtain ⟨m, rfl⟩ : ∃ m, n = m + 1 := ⟨n - 1, by omega⟩
      rw [resavesF, resavesF, step]
      exact hN m (by omega)

/-- **C156, the drift ends.** For every file there is a number of rounds after which loading and saving changes the tempo events no more. -/
theorem C156_settles (res : Nat) (hr : 0 < res) (h15 : res ≤ 2 ^ (15 : Nat)) (track : List Msg) (hg : Spec.GoodTrack track) (hok : ∀ e ∈ track, TempoOk e) :
    ∃ N track', resavesF res N track = .ok track' ∧ ∀ n, N ≤ n → resavesF res n track = .ok track' := by
  obtain ⟨t, l, h1, h2, h3, _⟩ := resave_track res hr h15 track hg hok
  obtain ⟨N, hN⟩ := settle_msgs res hr h15 _ t l h2 h3 (Nat.le_refl _)
  obtain ⟨tr, htr, _⟩ := C156_rounds res hr h15 (N + 1) track hg hok
  refine ⟨N + 1, tr, htr, fun n hn => ?_⟩
  obtain ⟨m, rfl⟩ : ∃ m, n = m + 1 := ⟨n - 1, by omega⟩
  rw [← htr, resavesF, resavesF, h1]
  exact hN m (by omega)

/-- **C156, defect: saving changes the tempo.** A file of 220 ticks per quarter note (the default) with one tempo, which is a microsecond shorter after each of 17 rounds. -/
theorem C156_drift_17 :
    ∀ n, n ≤ 17 → resavesF 220 n [⟨0, .setTempo 14761428⟩] = .ok [⟨0, .setTempo (14761428 - n)⟩] := by
  decide +kernel

/-- **C156, defect: a tempo change is lost.** At 480 ticks per quarter note a change from 869565 to 869564 is still in the file after one round as an event, without
effect, and gone after two. -/
theorem C156_change_lost :
    resavesF 480 1 [⟨0, .setTempo 869565⟩, ⟨480, .setTempo 869564⟩] = .ok [⟨0, .setTempo 869564⟩, ⟨480, .setTempo 869564⟩] ∧
    resavesF 480 2 [⟨0, .setTempo 869565⟩, ⟨480, .setTempo 869564⟩] = .ok [⟨0, .setTempo 869564⟩] := by
  decide +kernel

/-- The hypotheses: a track with notes, two tempi and a repetition. -/
example : Spec.GoodTrack exTempoTrack ∧ (∀ e ∈ exTempoTrack, TempoOk e) ∧
    resavesF 96 3 exTempoTrack = .ok [⟨0, .setTempo 500000⟩, ⟨240, .setTempo 250000⟩, ⟨480, .setTempo 1000000⟩] := by
  refine ⟨⟨?_, ?_, ?_⟩, ?_, ?_⟩
  · decide
  · decide
  · decide
  · intro e he t ht
    simp only [exTempoTrack, List.mem_cons, List.not_mem_nil, or_false] at he
    rcases he with rfl | rfl | rfl | rfl | rfl | rfl <;> cases ht <;> exact ⟨by norm_num, by norm_num⟩
  · decide +kernel

end NGC
