import Verif.Note

/-! Helper lemmas about the note model. -/

namespace NGC

theorem and_pred_eq_zero_iff (n : Nat) (hn : 0 < n) :
    (n &&& (n - 1)) = 0 ↔ ∃ k, n = 2 ^ k := by
  induction n using Nat.strong_induction_on with
  | _ n ih =>
    rcases Nat.even_or_odd' n with ⟨m, rfl | rfl⟩
    · have hm : 0 < m := by omega
      have key : (2 * m &&& (2 * m - 1)) = 2 * (m &&& (m - 1)) := by
        apply Nat.eq_of_testBit_eq
        intro i
        cases i with
        | zero => simp [Nat.testBit_zero]
        | succ i =>
          rw [Nat.testBit_and, Nat.testBit_succ, Nat.testBit_succ, Nat.testBit_succ]
          have e1 : 2 * m / 2 = m := by omega
          have e2 : (2 * m - 1) / 2 = m - 1 := by omega
          have e3 : 2 * (m &&& (m - 1)) / 2 = m &&& (m - 1) := by omega
          rw [e1, e2, e3, Nat.testBit_and]
      rw [key]
      have := ih m (by omega) hm
      constructor
      · intro h
        obtain ⟨k, hk⟩ := this.1 (by omega)
        exact ⟨k + 1, by rw [hk, pow_succ]; ring⟩
      · rintro ⟨k, hk⟩
        cases k with
        | zero => simp at hk
        | succ k =>
          have : m = 2 ^ k := by rw [pow_succ] at hk; omega
          have := (ih m (by omega) hm).2 ⟨k, this⟩
          omega
    · have e : 2 * m + 1 - 1 = 2 * m := by omega
      rw [e]
      have key : ((2 * m + 1) &&& (2 * m)) = 2 * m := by
        apply Nat.eq_of_testBit_eq
        intro i
        cases i with
        | zero => simp [Nat.testBit_zero]
        | succ i =>
          rw [Nat.testBit_and, Nat.testBit_succ, Nat.testBit_succ]
          have e1 : (2 * m + 1) / 2 = m := by omega
          have e2 : 2 * m / 2 = m := by omega
          rw [e1, e2, Bool.and_self]
      rw [key]
      constructor
      · intro h
        exact ⟨0, by omega⟩
      · rintro ⟨k, hk⟩
        cases k with
        | zero => simp at hk; omega
        | succ k => rw [pow_succ] at hk; omega

theorem denomOk_iff (d : Int) : denomOk d = true ↔ ∃ k : Nat, d = 2 ^ k := by
  unfold denomOk
  simp only [Bool.and_eq_true, decide_eq_true_eq, beq_iff_eq]
  constructor
  · rintro ⟨hd, h⟩
    obtain ⟨k, hk⟩ := (and_pred_eq_zero_iff d.toNat (by omega)).1 h
    refine ⟨k, ?_⟩
    have : (d.toNat : Int) = d := Int.toNat_of_nonneg (by omega)
    rw [← this, hk]
    push_cast
    rfl
  · rintro ⟨k, rfl⟩
    have hp : (0 : Int) < 2 ^ k := by positivity
    refine ⟨hp, ?_⟩
    have ht : ((2 : Int) ^ k).toNat = 2 ^ k := by
      have : ((2 : Int) ^ k) = ((2 ^ k : Nat) : Int) := by push_cast; rfl
      rw [this, Int.toNat_natCast]
    rw [ht]
    exact (and_pred_eq_zero_iff _ (by positivity)).2 ⟨k, rfl⟩

/-- Success condition of the constructor and the value built. -/
theorem Note.mk?_ok_iff (a : NoteArgs) (n : Note) :
    Note.mk? a = .ok n ↔
      a.start < a.stop ∧ 0 < a.numer ∧ denomOk a.denom = true ∧
      n = { pitch := if 0 ≤ a.pitch ∧ a.pitch ≤ 127 then a.pitch else max 0 (min 127 a.pitch)
            velocity := if 0 ≤ a.velocity ∧ a.velocity ≤ 127 then a.velocity
              else max 0 (min 127 a.velocity)
            program := min (max 0 a.program) 255
            instrument := min (max a.instrument 0) 127
            start := a.start, stop := a.stop, voice := a.voice
            numer := max (min a.numer 255) 1
            denom := max (min a.denom 255) 1
            isDrum := a.isDrum, qs := a.qs, qe := a.qe } := by
  unfold Note.mk?
  simp only []
  by_cases h1 : a.stop > a.start
  · by_cases h2 : a.numer > 0
    · by_cases h3 : denomOk a.denom = true
      · rw [if_neg (not_not.2 h1), if_neg (not_not.2 h2), if_neg (not_not.2 h3)]
        constructor
        · intro h
          exact ⟨h1, h2, h3, (Except.ok.inj h).symm⟩
        · rintro ⟨_, _, _, rfl⟩
          rfl
      · rw [if_neg (not_not.2 h1), if_neg (not_not.2 h2), if_pos h3]
        constructor
        · intro h; cases h
        · rintro ⟨_, _, h, _⟩; exact absurd h h3
    · rw [if_neg (not_not.2 h1), if_pos h2]
      constructor
      · intro h; cases h
      · rintro ⟨_, h, _⟩; exact absurd h h2
  · rw [if_pos h1]
    constructor
    · intro h; cases h
    · rintro ⟨h, _⟩; exact absurd h h1

theorem Note.mk?_error (a : NoteArgs) (e : Err) (h : Note.mk? a = .error e) : e = .assertion := by
  unfold Note.mk? at h
  simp only [] at h
  split_ifs at h <;> first | exact (Except.error.inj h).symm | cases h

theorem setStart_ok_iff (n m : Note) (v : ℚ) :
    n.setStart v = .ok m ↔ 0 ≤ v ∧ v < n.stop ∧ m = { n with start := v } := by
  unfold Note.setStart
  split_ifs with h1 h2
  · simp [h1]
  · simp only [reduceCtorEq, false_iff]; rintro ⟨_, h, _⟩; linarith
  · rw [not_lt] at h1
    simp only [ge_iff_le, not_le] at h2
    simp only [Except.ok.injEq, h1, h2, true_and]
    exact eq_comm

theorem setStop_ok_iff (n m : Note) (v : ℚ) :
    n.setStop v = .ok m ↔ 0 ≤ v ∧ n.start < v ∧ m = { n with stop := v } := by
  unfold Note.setStop
  split_ifs with h1 h2
  · simp [h1]
  · simp only [reduceCtorEq, false_iff]; rintro ⟨_, h, _⟩; linarith
  · rw [not_lt] at h1
    simp only [not_le] at h2
    simp only [Except.ok.injEq, h1, h2, true_and]
    exact eq_comm

theorem setQs_ok_iff (n m : Note) (v : ℚ) :
    n.setQs v = .ok m ↔ 0 ≤ v ∧ m = { n with qs := v } := by
  unfold Note.setQs
  split_ifs with h1
  · simp [h1]
  · rw [not_lt] at h1
    simp only [Except.ok.injEq, h1, true_and]
    exact eq_comm

theorem setQe_ok_iff (n m : Note) (v : ℚ) :
    n.setQe v = .ok m ↔ 0 ≤ v ∧ m = { n with qe := v } := by
  unfold Note.setQe
  split_ifs with h1
  · simp [h1]
  · rw [not_lt] at h1
    simp only [Except.ok.injEq, h1, true_and]
    exact eq_comm

theorem setPitch_ok_iff (n m : Note) (v : Int) :
    n.setPitch v = .ok m ↔ 0 ≤ v ∧ v ≤ 127 ∧ m = { n with pitch := v } := by
  unfold Note.setPitch
  split_ifs with h1
  · simp only [Except.ok.injEq, h1.1, h1.2, true_and]
    exact eq_comm
  · simp only [reduceCtorEq, false_iff]; tauto

theorem setProgram_ok_iff (n m : Note) (v : Int) :
    n.setProgram v = .ok m ↔ 0 ≤ v ∧ v ≤ 255 ∧ m = { n with program := v } := by
  unfold Note.setProgram
  split_ifs with h1
  · simp only [Except.ok.injEq, h1.1, h1.2, true_and]
    exact eq_comm
  · simp only [reduceCtorEq, false_iff]; tauto

theorem quantizeStep_ok (t : ℚ) (sps : Int) (amount : ℚ) (fl : Bool) (h1 : 0 < sps) (h2 : 0 < amount) :
    quantizeStep t sps amount fl = .ok (max 0
      (if fl then ⌊t * sps + (1 - amount)⌋ else ⌈t * sps + (1 - amount)⌉)) := by
  unfold quantizeStep
  rw [if_neg (by omega), if_neg (by linarith)]

/-- Closed form of the time move of `quantize_in_place`. -/
theorem moveTimes_eq (n : Note) (sps : Int) (q0 q1 : ℚ) (h : n.start < n.stop) (hp : 0 < n.stop) :
    n.moveTimes sps q0 q1 = .ok { n with
      start := max 0 (min (around2 (q0 / sps)) (n.stop - 1/1000))
      stop := if max 0 (min (around2 (q1 / sps)) (999999 - 1/1000)) < n.stop
        then max 0 (min (around2 (q0 / sps)) (n.stop - 1/1000)) + (n.stop - n.start)
        else max 0 (min (around2 (q1 / sps)) (999999 - 1/1000)) } := by
  unfold Note.moveTimes
  simp only []
  generalize hns : max 0 (min (around2 (q0 / sps)) (n.stop - 1/1000)) = ns
  generalize hne : max 0 (min (around2 (q1 / sps)) (999999 - 1/1000)) = ne
  have hns0 : 0 ≤ ns := by rw [← hns]; exact le_max_left _ _
  have hne0 : 0 ≤ ne := by rw [← hne]; exact le_max_left _ _
  have hns1 : ns < n.stop := by
    rw [← hns]; apply max_lt hp
    exact lt_of_le_of_lt (min_le_right _ _) (by linarith)
  split_ifs with hb
  · rw [(setStart_ok_iff n _ _).2 ⟨hns0, hns1, rfl⟩]
    show Note.setStop _ _ = _
    rw [(setStop_ok_iff _ _ _).2 ⟨by simp only []; linarith, by simp only []; linarith, rfl⟩]
  · rw [not_lt] at hb
    rw [(setStop_ok_iff n _ _).2 ⟨hne0, by linarith, rfl⟩]
    show Note.setStart _ _ = _
    rw [(setStart_ok_iff _ _ _).2 ⟨hns0, by simp only []; linarith, rfl⟩]

end NGC
