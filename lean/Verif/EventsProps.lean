import Verif.Events

/-! Property theorems C16-C18, C79 about pitch bends and control changes. -/

namespace NGC

/-! ## C16 pitch bends -/

/-- C16: exact construction condition, error class and stored values. -/
theorem C16_construct (amount : Int) (time : Option ℚ) (program instrument : Int) (d : Bool) :
    ((∃ p, PitchBend.mk? amount time program instrument d = .ok p) ↔
      (-8191 ≤ amount ∧ amount ≤ 8191) ∧ (∀ t, time = some t → 0 ≤ t) ∧
      (0 ≤ program ∧ program ≤ 127) ∧ (0 ≤ instrument ∧ instrument ≤ 127)) ∧
    (∀ p, PitchBend.mk? amount time program instrument d = .ok p →
      p = { amount := amount, time := time.getD 0, program := program
            instrument := instrument, isDrum := d }) ∧
    (∀ e, PitchBend.mk? amount time program instrument d = .error e → e = .value) := by
  unfold PitchBend.mk?
  by_cases h1 : -8191 ≤ amount ∧ amount ≤ 8191
  · rw [if_neg (not_not.2 h1)]
    by_cases h2 : 0 ≤ program ∧ program ≤ 127
    · rw [if_neg (not_not.2 h2)]
      have e2 : min (max 0 program) 255 = program := by omega
      by_cases h3 : 0 ≤ instrument ∧ instrument ≤ 127
      · rw [if_neg (not_not.2 h3)]
        have e3 : min (max 0 instrument) 255 = instrument := by omega
        cases time with
        | none =>
          refine ⟨⟨fun _ => ⟨h1, by simp, h2, h3⟩, fun _ => ⟨_, rfl⟩⟩, ?_, by simp⟩
          rintro p ⟨⟩; simp [e2, e3]
        | some t =>
          by_cases ht : t < 0
          · simp only [ht, if_true]
            refine ⟨⟨fun ⟨x, hx⟩ => (by cases hx), fun h => absurd (h.2.1 t rfl) (not_le.2 ht)⟩,
              by simp, by rintro e ⟨⟩; rfl⟩
          · simp only [ht, if_false]
            refine ⟨⟨fun _ => ⟨h1, by simpa using not_lt.1 ht, h2, h3⟩, fun _ => ⟨_, rfl⟩⟩, ?_, by simp⟩
            rintro p ⟨⟩; simp [e2, e3, not_lt.1 ht]
      · rw [if_pos h3]
        exact ⟨⟨fun ⟨x, hx⟩ => (by cases hx), fun h => absurd h.2.2.2 h3⟩, by simp, by rintro e ⟨⟩; rfl⟩
    · rw [if_pos h2]
      exact ⟨⟨fun ⟨x, hx⟩ => (by cases hx), fun h => absurd h.2.2.1 h2⟩, by simp, by rintro e ⟨⟩; rfl⟩
  · rw [if_pos h1]
    exact ⟨⟨fun ⟨x, hx⟩ => (by cases hx), fun h => absurd h.1 h1⟩, by simp, by rintro e ⟨⟩; rfl⟩

example : PitchBend.mk? (-8191) (some (3/2)) 5 9 true =
    .ok { amount := -8191, time := 3/2, program := 5, instrument := 9, isDrum := true } := by
  decide +kernel

/-- One assignment to a pitch bend. -/
inductive BendOp where
  | time (v : ℚ) | program (v : Int) | instrument (v : Int)

/-- Apply an assignment. -/
def BendOp.run (p : PitchBend) : BendOp → Py PitchBend
  | .time v => p.setTime v
  | .program v => p.setProgram v
  | .instrument v => p.setInstrument v

/-- C16: what a single assignment does: it is accepted exactly for a time of at least 0, a program or an instrument from 0 to 127, and then
changes that field only; otherwise it is ValueError. -/
theorem C16_assign (p : PitchBend) (v : ℚ) (k : Int) :
    (0 ≤ v → p.setTime v = .ok { p with time := v }) ∧ (v < 0 → p.setTime v = .error .value) ∧
    (0 ≤ k ∧ k ≤ 127 → p.setProgram k = .ok { p with program := k } ∧ p.setInstrument k = .ok { p with instrument := k }) ∧
    (¬ (0 ≤ k ∧ k ≤ 127) → p.setProgram k = .error .value ∧ p.setInstrument k = .error .value) := by
  refine ⟨fun h => ?_, fun h => ?_, fun h => ?_, fun h => ?_⟩
  · simp [PitchBend.setTime, not_lt.mpr h]
  · simp [PitchBend.setTime, h]
  · simp [PitchBend.setProgram, PitchBend.setInstrument, h.1, h.2]
  · simp only [PitchBend.setProgram, PitchBend.setInstrument, if_pos h, and_self]

/-- C16: after any history of assignments that were accepted, the bend is still in range. -/
theorem C16_history (p : PitchBend) (ops : List BendOp) (q : PitchBend)
    (h0 : (-8191 ≤ p.amount ∧ p.amount ≤ 8191) ∧ 0 ≤ p.time ∧ (0 ≤ p.program ∧ p.program ≤ 127) ∧
      (0 ≤ p.instrument ∧ p.instrument ≤ 127))
    (h : ops.foldlM BendOp.run p = .ok q) :
    (-8191 ≤ q.amount ∧ q.amount ≤ 8191) ∧ 0 ≤ q.time ∧ (0 ≤ q.program ∧ q.program ≤ 127) ∧
      (0 ≤ q.instrument ∧ q.instrument ≤ 127) ∧ q.amount = p.amount ∧ q.isDrum = p.isDrum := by
  induction ops generalizing p with
  | nil => cases h; exact ⟨h0.1, h0.2.1, h0.2.2.1, h0.2.2.2, rfl, rfl⟩
  | cons op rest ih =>
    rw [List.foldlM_cons] at h
    cases hr : BendOp.run p op with
    | error e => rw [hr] at h; cases h
    | ok p1 =>
      rw [hr] at h
      have step : ((-8191 ≤ p1.amount ∧ p1.amount ≤ 8191) ∧ 0 ≤ p1.time ∧
          (0 ≤ p1.program ∧ p1.program ≤ 127) ∧ (0 ≤ p1.instrument ∧ p1.instrument ≤ 127)) ∧
          p1.amount = p.amount ∧ p1.isDrum = p.isDrum := by
        cases op <;>
          simp only [BendOp.run, PitchBend.setTime, PitchBend.setProgram, PitchBend.setInstrument] at hr <;>
          split_ifs at hr with hc <;> cases hr
        · exact ⟨⟨h0.1, not_lt.1 hc, h0.2.2⟩, rfl, rfl⟩
        · exact ⟨⟨h0.1, h0.2.1, hc, h0.2.2.2⟩, rfl, rfl⟩
        · exact ⟨⟨h0.1, h0.2.1, h0.2.2.1, hc⟩, rfl, rfl⟩
      have := ih p1 step.1 h
      exact ⟨this.1, this.2.1, this.2.2.1, this.2.2.2.1, by rw [this.2.2.2.2.1, step.2.1],
        by rw [this.2.2.2.2.2, step.2.2]⟩

/-! ## C17 control changes: clamping and copying -/

/-- C17: construction clamps and never fails; in-range arguments are stored unchanged. -/
theorem C17_clamps (number value : Int) (time : ℚ) (program instrument : Int) (d : Bool)
    (qstep qs qe : Int) :
    let c := CC.mk' number value time program instrument d qstep qs qe
    (0 ≤ c.number ∧ c.number ≤ 255) ∧ (0 ≤ c.value ∧ c.value ≤ 255) ∧
    (0 ≤ c.program ∧ c.program ≤ 255) ∧ (0 ≤ c.instrument ∧ c.instrument ≤ 255) ∧
    0 ≤ c.time ∧ (1 ≤ c.qstep ∧ c.qstep ≤ 32) ∧
    (0 ≤ number ∧ number ≤ 255 → c.number = number) ∧ (0 ≤ value ∧ value ≤ 255 → c.value = value) ∧
    (0 ≤ program ∧ program ≤ 255 → c.program = program) ∧
    (0 ≤ instrument ∧ instrument ≤ 255 → c.instrument = instrument) ∧ (0 ≤ time → c.time = time) ∧
    (1 ≤ qstep ∧ qstep ≤ 32 → c.qstep = qstep) ∧
    c.isDrum = d ∧ c.qs = qs ∧ c.qe = qe ∧ (c.flag = true ↔ 0 ≤ qs ∧ 0 ≤ qe) ∧
    (number < 0 → c.number = 0) ∧ (255 < number → c.number = 255) ∧
    (value < 0 → c.value = 0) ∧ (255 < value → c.value = 255) := by
  refine ⟨?_, ?_, ?_, ?_, le_max_left _ _, ?_, ?_, ?_, ?_, ?_, ?_, ?_, rfl, rfl, rfl, ?_, ?_, ?_, ?_, ?_⟩ <;>
    simp only [CC.mk', Bool.and_eq_true, decide_eq_true_eq, ge_iff_le]
  case refine_10 => exact fun h => max_eq_right h
  all_goals omega

example : CC.mk' 300 (-5) = { number := 255, value := 0, time := 0, program := 0, instrument := 0
                              isDrum := false, qstep := 4, qs := -1, qe := -1, flag := false, seq := 0 } := by
  decide +kernel

/-- C17: a copy equals the original exactly when the original is not a drum event and has the
default quantization step; all other fields always agree. -/
theorem C17_copy_equal_iff (c : CC) (hn : 0 ≤ c.number ∧ c.number ≤ 255) (hv : 0 ≤ c.value ∧ c.value ≤ 255)
    (hp : 0 ≤ c.program ∧ c.program ≤ 255) (hi : 0 ≤ c.instrument ∧ c.instrument ≤ 255)
    (ht : 0 ≤ c.time) :
    (c.makeCopy.eq c = true ↔ c.isDrum = false ∧ c.qstep = 4) ∧
    c.makeCopy.number = c.number ∧ c.makeCopy.value = c.value ∧ c.makeCopy.time = c.time ∧
    c.makeCopy.program = c.program ∧ c.makeCopy.instrument = c.instrument ∧
    c.makeCopy.qs = c.qs ∧ c.makeCopy.qe = c.qe := by
  have e1 : min (max 0 c.number) 255 = c.number := by omega
  have e2 : min (max 0 c.value) 255 = c.value := by omega
  have e3 : min (max 0 c.program) 255 = c.program := by omega
  have e4 : min (max 0 c.instrument) 255 = c.instrument := by omega
  have e5 : max 0 c.time = c.time := max_eq_right ht
  refine ⟨?_, e1, e2, e5, e3, e4, rfl, rfl⟩
  simp only [CC.makeCopy, CC.mk', CC.eq, Option.getD_none, e1, e2, e3, e4, e5, beq_self_eq_true,
    Bool.true_and, Bool.and_true, Bool.and_eq_true, beq_iff_eq]
  constructor
  · rintro ⟨h1, h2⟩; exact ⟨h1.symm, by omega⟩
  · rintro ⟨h1, h2⟩; exact ⟨h1.symm, by omega⟩

/-- C17 is false in general: the copy of a drum control change is not a drum control change. -/
theorem C17_copy_drops_drum : (CC.mk' 7 100 (isDrum := true)).makeCopy.eq
    (CC.mk' 7 100 (isDrum := true)) = false ∧
    (CC.mk' 7 100 (qstep := 8)).makeCopy.eq (CC.mk' 7 100 (qstep := 8)) = false := by
  decide +kernel

/-! ## C18 quantizing control changes -/

/-- C18 is false for every control change, rate and amount: `quantize_in_place` and `quantize`
always raise ValueError. (The start setter refuses any step when the end step is the default -1;
otherwise the end setter refuses a step equal to the start step.) -/
theorem C18_quantize_always_raises (c : CC) (sps : Int) (amount : ℚ) :
    c.quantizeInPlace sps amount = .error .value ∧ c.quantize sps amount = .error .value := by
  have main : ∀ c : CC, c.quantizeInPlace sps amount = .error .value := by
    intro c
    unfold CC.quantizeInPlace
    cases h : c.setQs (ccStep c.time sps amount) with
    | error e =>
      unfold CC.setQs at h
      split_ifs at h <;> cases h <;> rfl
    | ok c1 =>
      unfold CC.setQs at h
      split_ifs at h with ha hb
      cases h
      show (do let c ← CC.setQe _ _; _) = _
      have : CC.setQe { c with qs := ccStep c.time sps amount, flag := true }
          (ccStep c.time sps amount) = .error .value := by
        unfold CC.setQe
        rw [if_neg ha, if_pos (le_refl _)]
      rw [this]
      rfl
  exact ⟨main c, main _⟩

example : (CC.mk' 64 127 (time := 1/2) (qs := 0) (qe := 50)).quantize 4 (1/2) = .error .value := by
  decide +kernel

/-- C18: the step that would be stored is the nearest one: with amount 1/2 and a
non-negative time it is within half a step of `time * sps`. Boundary: it is never stored
(`C18_quantize_always_raises`). -/
theorem C18_step_nearest (t : ℚ) (sps : Int) (ht : 0 ≤ t) (hs : 1 ≤ sps) :
    |t * sps - ccStep t sps (1/2)| ≤ 1/2 ∧ 0 ≤ ccStep t sps (1/2) := by
  have hsp : (0 : ℚ) < sps := by exact_mod_cast (by omega : 0 < sps)
  have h0 : 0 ≤ t * sps := by positivity
  have e : ccStep t sps (1/2) = ⌊t * sps + (1 - 1/2)⌋ := by
    unfold ccStep pyInt
    rw [if_pos (by linarith)]
  rw [e]
  have h1 := Int.floor_le (t * sps + (1 - 1/2))
  have h2 := Int.lt_floor_add_one (t * sps + (1 - 1/2))
  exact ⟨by rw [abs_le]; constructor <;> linarith, Int.floor_nonneg.2 (by linarith)⟩

/-- C18: setters of a control change keep `start step < end step`, once both are set. -/
theorem C18_setters (c d : CC) (v : Int) :
    (c.setQs v = .ok d → 0 ≤ v ∧ d.qs = v ∧ d.qs < d.qe) ∧
    (c.setQe v = .ok d → 0 ≤ v ∧ d.qe = v ∧ d.qs < d.qe) ∧
    (c.setQstep v = .ok d ↔ (1 ≤ v ∧ v ≤ 32) ∧ d = { c with qstep := v }) := by
  refine ⟨?_, ?_, ?_⟩
  · unfold CC.setQs; split_ifs with h1 h2 <;> rintro ⟨⟩
    exact ⟨not_lt.1 h1, rfl, not_le.1 h2⟩
  · unfold CC.setQe; split_ifs with h1 h2 <;> rintro ⟨⟩
    exact ⟨not_lt.1 h1, rfl, not_le.1 h2⟩
  · unfold CC.setQstep
    split_ifs with h1
    · simp only [reduceCtorEq, false_iff]; omega
    · simp only [Except.ok.injEq]
      constructor
      · rintro rfl; exact ⟨by omega, rfl⟩
      · rintro ⟨_, rfl⟩; rfl

/-! ## C79 controller names -/

/-- C79: a controller number 0..127 has a name exactly when it is not 19..30 or 88..90. -/
theorem C79_named_iff (n : Int) :
    ccNamed n = true ↔ (0 ≤ n ∧ n ≤ 127) ∧ ¬ (19 ≤ n ∧ n ≤ 30) ∧ ¬ (88 ≤ n ∧ n ≤ 90) := by
  unfold ccNamed
  simp only [Bool.or_eq_true, decide_eq_true_eq]
  omega

/-- C79 is false as stated: some standard controllers have no entry. -/
theorem C79_missing : ¬ ∀ n : Int, 0 ≤ n → n ≤ 127 → ccNamed n = true := by
  intro h
  have := h 19 (by norm_num) (by norm_num)
  exact absurd this (by decide)

end NGC
