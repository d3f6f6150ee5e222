import Verif.NoteExtra
import Verif.NoteProps
import Verif.ExtraProps

/-! Property theorems C142 (beats per minute, steps, four eighth notes) and C143 (JSON documents). -/

namespace NGC

/-! ## C142 -/

private theorem diffs_const (a d : ℚ) : ∀ m : Nat, diffs ((List.range m).map (fun k : Nat => a + k * d)) = List.replicate (m - 1) d := by
  have key : ∀ (m s : Nat), diffs ((List.range' s m).map (fun k : Nat => a + k * d)) = List.replicate (m - 1) d := by
    intro m
    induction m with
    | zero => intro s; simp [diffs]
    | succ m ih =>
      intro s
      cases m with
      | zero => simp [diffs]
      | succ m =>
        have h := ih (s + 1)
        rw [List.range'_succ, List.map_cons]
        rw [List.range'_succ, List.map_cons] at h ⊢
        rw [diffs, h]
        simp only [Nat.add_sub_cancel]
        rw [List.replicate_succ]
        congr 1
        push_cast; ring
  intro m
  rw [List.range_eq_range']
  exact key m 0

/-- **C142, bpm.** `bpm()` of a note does not depend on how the note was played: it is `120 * denominator / numerator` for every note longer than numerator / (2 * denominator) seconds,
and NaN for every note that is not. -/
theorem C142_bpm (n : Note) (h1 : 0 < n.numer) (h2 : 0 < n.denom) (h3 : n.start < n.stop) :
    ((n.numer : ℚ) / (2 * n.denom) < n.stop - n.start → n.bpm = .ok (some (120 * n.denom / n.numer))) ∧
    (n.stop - n.start ≤ (n.numer : ℚ) / (2 * n.denom) → n.bpm = .ok none) := by
  have q1 : (0 : ℚ) < n.numer := by exact_mod_cast h1
  have q2 : (0 : ℚ) < n.denom := by exact_mod_cast h2
  have hd : n.beatDuration = .ok ((n.numer : ℚ) / (2 * n.denom)) := by
    rw [Note.beatDuration, if_neg (by rintro (h | h); · norm_num at h
                                      · omega)]
    congr 1; field_simp; norm_num
  set d : ℚ := (n.numer : ℚ) / (2 * n.denom) with hdd
  have dpos : 0 < d := by positivity
  have hb : n.bpm = .ok ((npMeanNan (List.replicate (⌈(n.stop - n.start) / d⌉.toNat - 1) d)).map (fun m => 60 / m)) := by
    unfold Note.bpm
    rw [hd]
    dsimp only [bind, Except.bind]
    rw [npArange, if_neg dpos.ne']
    dsimp only
    rw [diffs_const]
  constructor
  · intro h
    have hc : 1 < ⌈(n.stop - n.start) / d⌉ := by
      rw [Int.lt_ceil]; push_cast; rw [lt_div_iff₀ dpos]; linarith
    obtain ⟨m, hm⟩ : ∃ m : Nat, ⌈(n.stop - n.start) / d⌉.toNat - 1 = m + 1 := ⟨⌈(n.stop - n.start) / d⌉.toNat - 2, by omega⟩
    rw [hb, hm, npMeanNan, if_neg (by simp)]
    simp only [List.sum_replicate, List.length_replicate, Option.map_some, nsmul_eq_mul]
    congr 2
    rw [mul_div_cancel_left₀ _ (by positivity), hdd]
    field_simp; norm_num
  · intro h
    have hc : ⌈(n.stop - n.start) / d⌉ ≤ 1 := by
      rw [Int.ceil_le]; push_cast; rw [div_le_iff₀ dpos]; linarith
    have hm : ⌈(n.stop - n.start) / d⌉.toNat - 1 = 0 := by omega
    rw [hb, hm]; rfl

example : ({ exNote with start := 0, stop := 2, numer := 3, denom := 4 } : Note).bpm = .ok (some 160) ∧
    ({ exNote with start := 0, stop := 1/2 } : Note).bpm = .ok none := by decide +kernel

/-- **C142, steps to seconds.** The result is the nearest multiple of 10 microseconds, at most 5 microseconds off, ties away from zero; it is exact when the quotient is such a multiple;
a rate of 0 raises. -/
theorem C142_seconds (steps sps : Int) :
    (sps = 0 → stepsToSeconds steps sps = .error .zeroDiv) ∧
    (sps ≠ 0 → ∃ (r : ℚ) (k : Int), stepsToSeconds steps sps = .ok r ∧ r = (k : ℚ) / 100000 ∧ |r - (steps : ℚ) / sps| ≤ 1 / 200000 ∧
      (|r - (steps : ℚ) / sps| = 1 / 200000 → |(steps : ℚ) / sps| < |r|) ∧
      (∀ j : Int, (steps : ℚ) / sps = (j : ℚ) / 100000 → r = (steps : ℚ) / sps)) := by
  refine ⟨fun h => by rw [stepsToSeconds, if_pos h], fun h => ?_⟩
  rw [stepsToSeconds, if_neg h]
  generalize (steps : ℚ) / sps = q
  have main : ∀ x : ℚ, 0 ≤ x → |(⌊x * 100000 + 1/2⌋ : ℚ) / 100000 - x| ≤ 1 / 200000 ∧
      (|(⌊x * 100000 + 1/2⌋ : ℚ) / 100000 - x| = 1 / 200000 → x < (⌊x * 100000 + 1/2⌋ : ℚ) / 100000) ∧
      (0 : ℚ) ≤ (⌊x * 100000 + 1/2⌋ : ℚ) / 100000 ∧
      (∀ j : Int, x = (j : ℚ) / 100000 → (⌊x * 100000 + 1/2⌋ : ℚ) / 100000 = x) := by
    intro x hx
    have a := Int.floor_le (x * 100000 + 1/2)
    have b := Int.lt_floor_add_one (x * 100000 + 1/2)
    have c : 0 ≤ ⌊x * 100000 + 1/2⌋ := Int.floor_nonneg.2 (by positivity)
    have c' : (0 : ℚ) ≤ ⌊x * 100000 + 1/2⌋ := by exact_mod_cast c
    refine ⟨?_, ?_, by positivity, ?_⟩
    · rw [abs_le]; constructor <;> linarith
    · intro e
      by_contra hn
      push Not at hn
      rw [abs_of_nonpos (by linarith)] at e
      linarith
    · intro j hj
      have : ⌊x * 100000 + 1/2⌋ = j := by
        rw [Int.floor_eq_iff, hj]; constructor <;> linarith
      rw [this, hj]
  by_cases hq : 0 ≤ q
  · obtain ⟨m1, m2, m3, m4⟩ := main q hq
    refine ⟨_, ⌊q * 100000 + 1/2⌋, rfl, ?_, ?_, ?_, ?_⟩
    · rw [quantize5, if_pos hq]
    · rw [quantize5, if_pos hq]; exact m1
    · rw [quantize5, if_pos hq, abs_of_nonneg hq, abs_of_nonneg m3]; exact m2
    · rw [quantize5, if_pos hq]; exact m4
  · obtain ⟨m1, m2, m3, m4⟩ := main (-q) (by linarith)
    have e : ∀ y : ℚ, |-y - q| = |y - -q| := by intro y; rw [← abs_neg]; congr 1; ring
    refine ⟨_, -⌊-q * 100000 + 1/2⌋, rfl, ?_, ?_, ?_, ?_⟩
    · rw [quantize5, if_neg hq]; push_cast; ring
    · rw [quantize5, if_neg hq, e]; exact m1
    · rw [quantize5, if_neg hq, e, abs_of_neg (not_le.1 hq), abs_neg, abs_of_nonneg m3]; exact m2
    · rw [quantize5, if_neg hq]
      intro j hj
      rw [m4 (-j) (by rw [hj]; push_cast; ring)]; ring

/-- **C142, back to steps.** Below 100000 steps per second the number of steps can be recovered by rounding; above 200000 one step is zero seconds. -/
theorem C142_seconds_back (steps sps : Int) (r : ℚ) (h : stepsToSeconds steps sps = .ok r) (h0 : 0 < sps) :
    (sps < 100000 → ∀ m : Int, |r * sps - m| ≤ 1 / 2 ↔ m = steps) ∧ (200000 < sps → stepsToSeconds 1 sps = .ok 0) := by
  have hs : (0 : ℚ) < sps := by exact_mod_cast h0
  constructor
  · intro hlt m
    obtain ⟨r', k, e, _, hr, _⟩ := (C142_seconds steps sps).2 (by omega)
    rw [h] at e
    cases e
    have hl : (sps : ℚ) < 100000 := by exact_mod_cast hlt
    have hb : |r * sps - steps| < 1 / 2 := by
      have : r * sps - steps = (r - (steps : ℚ) / sps) * sps := by field_simp
      rw [this, abs_mul, abs_of_pos hs]
      calc |r - (steps : ℚ) / sps| * sps ≤ 1 / 200000 * sps := by gcongr
        _ < 1 / 2 := by linarith
    constructor
    · intro hm
      have : |(m : ℚ) - steps| < 1 := by
        calc |(m : ℚ) - steps| = |(r * sps - steps) - (r * sps - m)| := by congr 1; ring
          _ ≤ |r * sps - steps| + |r * sps - m| := abs_sub _ _
          _ < 1 := by linarith
      have h1 : |m - steps| < 1 := by exact_mod_cast this
      rw [abs_lt] at h1; omega
    · rintro rfl; exact hb.le
  · intro hgt
    have hl : (200000 : ℚ) < sps := by exact_mod_cast hgt
    rw [stepsToSeconds, if_neg (by omega), quantize5, if_pos (by positivity)]
    have : ⌊((1 : Int) : ℚ) / sps * 100000 + 1/2⌋ = 0 := by
      rw [Int.floor_eq_iff]
      constructor
      · push_cast; positivity
      · push_cast
        have : (1 : ℚ) / sps < 1 / 200000 := by
          apply one_div_lt_one_div_of_lt <;> linarith
        linarith
    rw [this]; norm_num

example : stepsToSeconds 1 3 = .ok (33333/100000) ∧ stepsToSeconds 1 200000 = .ok (1/100000) ∧ stepsToSeconds (-1) 200000 = .ok (-1/100000) := by decide +kernel

/-- **C142, nearest step.** For times that are not negative `quantize_to_nearest_step` gives the nearest step, of two the later; for times half a step or more before 0 it is
half a step to one and a half steps too late. -/
theorem C142_nearest (t sps : ℚ) :
    (0 ≤ t * sps → -(1/2) < (nearestStep t sps : ℚ) - t * sps ∧ (nearestStep t sps : ℚ) - t * sps ≤ 1/2) ∧
    (t * sps ≤ -(1/2) → 1/2 ≤ (nearestStep t sps : ℚ) - t * sps ∧ (nearestStep t sps : ℚ) - t * sps < 3/2) := by
  unfold nearestStep pyInt
  constructor
  · intro h
    rw [if_pos (by linarith)]
    have a := Int.floor_le (t * sps + (1 - 1/2))
    have b := Int.lt_floor_add_one (t * sps + (1 - 1/2))
    constructor <;> linarith
  · intro h
    have e : (if 0 ≤ t * sps + (1 - 1/2) then ⌊t * sps + (1 - 1/2)⌋ else ⌈t * sps + (1 - 1/2)⌉) = ⌈t * sps + (1 - 1/2)⌉ := by
      by_cases h' : 0 ≤ t * sps + (1 - 1/2)
      · have : t * sps + (1 - 1/2) = 0 := by linarith
        rw [if_pos h', this]; simp
      · rw [if_neg h']
    rw [e]
    have a := Int.le_ceil (t * sps + (1 - 1/2))
    have b := Int.ceil_lt_add_one (t * sps + (1 - 1/2))
    constructor <;> linarith

example : nearestStep (3/8) 4 = 2 ∧ nearestStep (-3/8) 4 = -1 := by decide +kernel

/-- **C142, four eighth notes.** For positive tempo and denominator the answer depends on the pitch alone: it is true exactly for pitches whose frequency in hertz lies strictly between
tempo*denominator/264 and tempo*denominator/216. -/
theorem C142_four_eighth (note tempo : Int) (sig : Int × Int) (ht : 0 < tempo) (hd : 0 < sig.2) :
    ∃ r, isFourEighth note tempo sig = .ok r ∧
      (r = true ↔ (tempo : ℝ) * sig.2 / 264 < noteToFreq note ∧ noteToFreq note < (tempo : ℝ) * sig.2 / 216) := by
  have q1 : (0 : ℝ) < tempo := by exact_mod_cast ht
  have q2 : (0 : ℝ) < sig.2 := by exact_mod_cast hd
  have hf : 0 < noteToFreq note := C11_equal_tempered.2.2.2.2 note
  refine ⟨_, by rw [isFourEighth, if_neg (by omega), if_neg (by omega)], ?_⟩
  rw [decide_eq_true_eq, abs_lt]
  have e : (60 : ℝ) / tempo * 4 / sig.2 = 240 / (tempo * sig.2) := by field_simp; norm_num
  rw [e]
  have qq : (0 : ℝ) < tempo * sig.2 := by positivity
  generalize (tempo : ℝ) * sig.2 = p at qq
  generalize noteToFreq note = f at hf
  rw [and_comm]
  refine and_congr ?_ ?_
  · rw [sub_lt_iff_lt_add]
    have : (0.1 : ℝ) * (240 / p) + 240 / p = 264 / p := by field_simp; norm_num
    rw [this, div_lt_div_iff₀ hf qq, div_lt_iff₀ (by norm_num)]
    constructor <;> intro h <;> linarith
  · rw [neg_lt_sub_iff_lt_add]
    have : (240 / p < 0.1 * (240 / p) + 1 / f) ↔ 216 / p < 1 / f := by
      have : (216 : ℝ) / p = 240 / p - 0.1 * (240 / p) := by field_simp; norm_num
      rw [this]; constructor <;> intro h <;> linarith
    rw [this, div_lt_div_iff₀ qq hf, lt_div_iff₀ (by norm_num)]
    constructor <;> intro h <;> linarith

/-- **C142, four eighth notes, defect.** At tempo times denominator up to 1760 (over 4, up to 440 beats per minute) no MIDI note is a four eighth note. -/
theorem C142_four_eighth_never (note tempo : Int) (sig : Int × Int) (hn : 0 ≤ note) (ht : 0 < tempo) (hd : 0 < sig.2) (hs : tempo * sig.2 ≤ 1760) :
    isFourEighth note tempo sig = .ok false := by
  obtain ⟨r, hr, h⟩ := C142_four_eighth note tempo sig ht hd
  rw [hr]
  congr 1
  rw [Bool.eq_false_iff, Ne, h]
  rintro ⟨-, h2⟩
  have h3 : (tempo : ℝ) * sig.2 ≤ 1760 := by exact_mod_cast hs
  have h0 : noteToFreq 0 ≤ noteToFreq note := by
    by_contra hc
    push Not at hc
    have := (C11_equal_tempered.2.2.2.1 note 0).1 hc
    omega
  have h4 : noteToFreq 0 < 8.15 := by
    have : (1760 : ℝ) / 216 < 8.15 := by norm_num
    have : (tempo : ℝ) * sig.2 / 216 ≤ 1760 / 216 := by gcongr
    linarith
  -- 2^(23/4) < 53.98
  have h5 : (8.15 : ℝ) < noteToFreq 0 := by
    unfold noteToFreq
    have e : (((0 : Int) : ℝ) - 69) / 12 = -(23 / 4) := by push_cast; norm_num
    rw [e, Real.rpow_neg (by norm_num)]
    have hp : (0 : ℝ) < (2 : ℝ) ^ ((23 : ℝ) / 4) := by positivity
    have h6 : ((2 : ℝ) ^ ((23 : ℝ) / 4)) < 53.98 := by
      refine lt_of_pow_lt_pow_left₀ 4 (by norm_num) ?_
      rw [← Real.rpow_natCast, ← Real.rpow_mul (by norm_num)]
      norm_num
    rw [← div_eq_mul_inv, lt_div_iff₀ hp]
    nlinarith
  linarith

/-- The hypotheses are met by middle C at 120 in 4/4; far faster tempi do select notes. -/
example : isFourEighth 60 120 (4, 4) = .ok false ∧ isFourEighth 69 26400 (4, 4) = .ok true := by
  refine ⟨C142_four_eighth_never 60 120 (4, 4) (by norm_num) (by norm_num) (by norm_num) (by norm_num), ?_⟩
  obtain ⟨r, hr, h⟩ := C142_four_eighth 69 26400 (4, 4) (by norm_num) (by norm_num)
  rw [hr, h.2]
  rw [C11_equal_tempered.1]
  constructor <;> norm_num

/-! ## C143 JSON documents -/

namespace Spec

/-- The members that hold the fields of a note, by the parameters of the constructor. -/
def noteFields (n : Note) : List (String × JDoc) :=
  [("pitch", .int n.pitch), ("start_time", .num n.start), ("end_time", .num n.stop), ("program", .int n.program), ("instrument", .int n.instrument), ("velocity", .int n.velocity),
   ("quantized_start_step", .num n.qs), ("quantized_end_step", .num n.qe), ("voice", .int n.voice), ("numerator", .int n.numer), ("denominator", .int n.denom),
   ("is_drum", .bool n.isDrum)]

mutual
/-- The JSON document of a value: a note is an object with the marker `__MidiNote__` and its fields under `data`, as in the documentation of the decoder. -/
def toJson : PDoc → JDoc
  | .null => .null
  | .bool b => .bool b
  | .int n => .int n
  | .num q => .num q
  | .str s => .str s
  | .arr l => .arr (toJsonList l)
  | .dict l => .obj (toJsonPairs l)
  | .note n => .obj [("__MidiNote__", .bool true), ("data", .obj (noteFields n))]
/-- Elements. -/
def toJsonList : List PDoc → List JDoc
  | [] => []
  | d :: rest => toJson d :: toJsonList rest
/-- Members. -/
def toJsonPairs : List (String × PDoc) → List (String × JDoc)
  | [] => []
  | (k, d) :: rest => (k, toJson d) :: toJsonPairs rest
end

mutual
/-- Values all of whose notes are proper and none of whose dictionaries uses the marker as a key. -/
def Clean : PDoc → Prop
  | .arr l => CleanList l
  | .dict l => (∀ p ∈ l, p.1 ≠ "__MidiNote__") ∧ CleanPairs l
  | .note n => n.Valid ∧ ∃ k : Nat, n.denom = 2 ^ k
  | _ => True
/-- Elements. -/
def CleanList : List PDoc → Prop
  | [] => True
  | d :: rest => Clean d ∧ CleanList rest
/-- Members. -/
def CleanPairs : List (String × PDoc) → Prop
  | [] => True
  | (_, d) :: rest => Clean d ∧ CleanPairs rest
end

end Spec

private theorem mk_self (n : Note) (hv : n.Valid) (hd : ∃ k : Nat, n.denom = 2 ^ k) :
    Note.mk? ⟨n.pitch, n.start, n.stop, n.program, n.instrument, n.velocity, n.qs, n.qe, n.voice, n.numer, n.denom, n.isDrum⟩ = .ok n := by
  have hden := (denomOk_iff n.denom).2 hd
  rw [Note.mk?_ok_iff]
  refine ⟨hv.times, by have := hv.num_lo; show 0 < n.numer; omega, hden, ?_⟩
  clear hden hd
  obtain ⟨h1, h2, h3, h4, h5, h6, h7, h8, h9, h10, h11, h12, h13⟩ := hv
  cases n
  simp only [Note.mk.injEq]
  simp only [] at *
  refine ⟨?_, ?_, ?_, ?_, ?_, ?_, ?_, ?_, ?_, ?_, ?_, ?_⟩ <;>
    (try dsimp only) <;> (try split_ifs) <;> (try omega)

private theorem fields_decode (n : Note) : decodeDoc (.obj (Spec.noteFields n)) = .ok (.dict
    [("pitch", .int n.pitch), ("start_time", .num n.start), ("end_time", .num n.stop), ("program", .int n.program), ("instrument", .int n.instrument), ("velocity", .int n.velocity),
   ("quantized_start_step", .num n.qs), ("quantized_end_step", .num n.qe), ("voice", .int n.voice), ("numerator", .int n.numer), ("denominator", .int n.denom),
   ("is_drum", .bool n.isDrum)]) := by
  simp only [Spec.noteFields, decodeDoc, decodePairs, Except.bind, Except.map]
  rfl

private theorem note_decode (n : Note) (hv : n.Valid) (hd : ∃ k : Nat, n.denom = 2 ^ k) :
    decodeDoc (Spec.toJson (.note n)) = .ok (.note n) := by
  have h := fields_decode n
  simp only [Spec.toJson]
  rw [decodeDoc, decodePairs, decodePairs, h]
  simp only [decodeDoc, decodePairs, Except.bind, Except.map]
  have : noteOfKeywords [("pitch", .int n.pitch), ("start_time", .num n.start), ("end_time", .num n.stop), ("program", .int n.program), ("instrument", .int n.instrument),
      ("velocity", .int n.velocity), ("quantized_start_step", .num n.qs), ("quantized_end_step", .num n.qe), ("voice", .int n.voice), ("numerator", .int n.numer),
      ("denominator", .int n.denom), ("is_drum", .bool n.isDrum)] = .ok n := by
    rw [← mk_self n hv hd]; rfl
  show objectHook _ = _
  simp only [objectHook, pairGet]
  show (noteOfKeywords _).map PDoc.note = _
  rw [this]; rfl

mutual
private theorem decode_toJson : ∀ v : PDoc, Spec.Clean v → decodeDoc (Spec.toJson v) = .ok v
  | .null, _ => by simp only [Spec.toJson, decodeDoc]
  | .bool _, _ => by simp only [Spec.toJson, decodeDoc]
  | .int _, _ => by simp only [Spec.toJson, decodeDoc]
  | .num _, _ => by simp only [Spec.toJson, decodeDoc]
  | .str _, _ => by simp only [Spec.toJson, decodeDoc]
  | .arr l, h => by
    simp only [Spec.Clean] at h
    simp only [Spec.toJson, decodeDoc, decode_toJsonList l h, Except.map]
  | .dict l, h => by
    simp only [Spec.Clean] at h
    simp only [Spec.toJson, decodeDoc, decode_toJsonPairs l h.2, Except.bind]
    rw [objectHook, if_neg]
    simp only [pairGet, Option.isSome_map, List.find?_isSome, List.mem_reverse, beq_iff_eq, not_exists, not_and]
    exact h.1
  | .note n, h => by
    simp only [Spec.Clean] at h
    exact note_decode n h.1 h.2
private theorem decode_toJsonList : ∀ l : List PDoc, Spec.CleanList l → decodeList (Spec.toJsonList l) = .ok l
  | [], _ => by simp only [Spec.toJsonList, decodeList]
  | d :: rest, h => by
    simp only [Spec.CleanList] at h
    simp only [Spec.toJsonList, decodeList, decode_toJson d h.1, decode_toJsonList rest h.2, Except.bind, Except.map]
private theorem decode_toJsonPairs : ∀ l : List (String × PDoc), Spec.CleanPairs l → decodePairs (Spec.toJsonPairs l) = .ok l
  | [], _ => by simp only [Spec.toJsonPairs, decodePairs]
  | (k, d) :: rest, h => by
    simp only [Spec.CleanPairs] at h
    simp only [Spec.toJsonPairs, decodePairs, decode_toJson d h.1, decode_toJsonPairs rest h.2, Except.bind, Except.map]
end

/-- **C143, round trip.** Decoding the document of a value gives the value back: notes at any depth inside lists and dictionaries become the same notes again, everything else is
unchanged. -/
theorem C143_round_trip (v : PDoc) (h : Spec.Clean v) : decodeDoc (Spec.toJson v) = .ok v := decode_toJson v h

/-- **C143, the marker alone decides.** An object with the marker becomes a note made from the decoded `data` whatever the value of the marker is, and all its other members are lost;
without `data` the whole document raises KeyError; `data` that is not an object (or is itself a marked note) raises TypeError. -/
theorem C143_marker (l : List (String × JDoc)) (l' : List (String × PDoc)) (hl : decodePairs l = .ok l') (hm : ∃ p ∈ l', p.1 = "__MidiNote__") :
    ((∀ p ∈ l', p.1 ≠ "data") → decodeDoc (.obj l) = .error .key) ∧
    (∀ a b d, l' = a ++ ("data", d) :: b → (∀ p ∈ b, p.1 ≠ "data") →
      (∀ f, d = .dict f → decodeDoc (.obj l) = (noteOfKeywords f).map .note) ∧
      ((∀ f, d ≠ .dict f) → decodeDoc (.obj l) = .error .type)) := by
  have e : decodeDoc (.obj l) = objectHook l' := by rw [decodeDoc, hl]; rfl
  have hs : (pairGet l' "__MidiNote__").isSome = true := by
    simp only [pairGet, Option.isSome_map, List.find?_isSome, List.mem_reverse, beq_iff_eq]
    exact hm
  rw [e, objectHook, if_pos hs]
  constructor
  · intro h
    have : pairGet l' "data" = none := by
      simp only [pairGet, Option.map_eq_none_iff, List.find?_eq_none, List.mem_reverse, beq_iff_eq]
      exact h
    rw [this]
  · intro a b d hl' hb
    have : pairGet l' "data" = some d := by
      rw [hl', pairGet, List.reverse_append, List.reverse_cons, List.append_assoc, List.find?_append,
        List.find?_eq_none.2 (by intro p hp; simpa using hb p (List.mem_reverse.1 hp))]
      simp
    rw [this]
    constructor
    · rintro f rfl; rfl
    · intro hf
      cases d with
      | dict f => exact absurd rfl (hf f)
      | _ => rfl

/-- **C143, keywords.** The members of `data` are exactly the parameters of the constructor: any other member raises TypeError, so does a missing pitch, start or end time. With only these
three the note has velocity 127, everything else 0, no steps, 4/4, and is no drum. -/
theorem C143_keywords :
    (∀ f : List (String × PDoc), (∃ p ∈ f, p.1 ∉ noteParams) → noteOfKeywords f = .error .type) ∧
    (∀ f : List (String × PDoc), (∃ k ∈ ["pitch", "start_time", "end_time"], ∀ p ∈ f, p.1 ≠ k) → noteOfKeywords f = .error .type) ∧
    (∀ (p : Int) (s e : ℚ), noteOfKeywords [("pitch", .int p), ("start_time", .num s), ("end_time", .num e)] = Note.mk? ⟨p, s, e, 0, 0, 127, -1, -1, 0, 4, 4, false⟩) := by
  refine ⟨?_, ?_, fun _ _ _ => rfl⟩
  · rintro f ⟨p, hp, hn⟩
    rw [noteOfKeywords, if_pos]
    rw [List.any_eq_true]
    exact ⟨p, hp, by simpa using hn⟩
  · rintro f ⟨k, hk, hn⟩
    have hnone : pairGet f k = none := by
      simp only [pairGet, Option.map_eq_none_iff, List.find?_eq_none, List.mem_reverse, beq_iff_eq]
      exact hn
    rw [noteOfKeywords]
    split_ifs with h1 h2
    · rfl
    · rfl
    · simp only [List.mem_cons, List.not_mem_nil, or_false] at hk
      have hi : ∀ k' d e, argInt f k' d = .error e → e = Err.type := by
        intro k' d e he
        unfold argInt at he
        split at he <;> cases he; rfl
      have hnn : ∀ k' d e, argNum f k' d = .error e → e = Err.type := by
        intro k' d e he
        unfold argNum at he
        split at he <;> (try split at he) <;> cases he <;> rfl
      have hp : ∀ {α : Type} (x : Py Int) (g : Int → Py α), (∀ e, x = .error e → e = Err.type) → (∀ y, g y = .error .type) → x.bind g = .error .type := by
        intro α x g hx hg
        cases x with
        | error e => rw [hx e rfl]; rfl
        | ok y => exact hg y
      have hq : ∀ {α : Type} (x : Py ℚ) (g : ℚ → Py α), (∀ e, x = .error e → e = Err.type) → (∀ y, g y = .error .type) → x.bind g = .error .type := by
        intro α x g hx hg
        cases x with
        | error e => rw [hx e rfl]; rfl
        | ok y => exact hg y
      rcases hk with rfl | rfl | rfl
      · rw [hnone] at h2; simp at h2
      · refine hp _ _ (hi "pitch" 0) (fun y => ?_)
        simp only [bind, argNum, hnone]; rfl
      · refine hp _ _ (hi "pitch" 0) (fun y => ?_)
        refine hq _ _ (hnn "start_time" none) (fun y => ?_)
        simp only [bind, argNum, hnone]; rfl

/-- **C143, failure.** Decoding fails as a whole when any part fails, and with the error of the part that comes first in the text. -/
theorem C143_fails (a b : List JDoc) (d : JDoc) (va : List PDoc) (e : Err) (ha : decodeList a = .ok va) (hd : decodeDoc d = .error e) :
    decodeDoc (.arr (a ++ d :: b)) = .error e := by
  rw [decodeDoc]
  suffices decodeList (a ++ d :: b) = .error e by rw [this]; rfl
  induction a generalizing va with
  | nil => rw [List.nil_append, decodeList, hd]; rfl
  | cons x xs ih =>
    rw [decodeList] at ha
    rw [List.cons_append, decodeList]
    cases hx : decodeDoc x with
    | error e' => rw [hx] at ha; cases ha
    | ok v =>
      rw [hx] at ha
      cases hxs : decodeList xs with
      | error e' => rw [hxs] at ha; cases ha
      | ok vs => rw [Except.bind, ih vs hxs]; rfl

/-- A nested value that satisfies `Clean`. -/
example : Spec.Clean (.dict [("title", .str "x"), ("notes", .arr [.note exNote, .null, .dict [("n", .note exNote)]])]) := by
  have h : exNote.Valid ∧ ∃ k : Nat, exNote.denom = 2 ^ k := ⟨by constructor <;> decide +kernel, 2, by decide +kernel⟩
  simp only [Spec.Clean, Spec.CleanList, Spec.CleanPairs]
  refine ⟨by simp, trivial, ⟨h, trivial, ⟨by simp, h, trivial⟩, trivial⟩, trivial⟩

/-- The documented example, with a marker that says `false`. -/
example : decodeDoc (.obj [("__MidiNote__", .bool false), ("data", .obj [("pitch", .int 60), ("start_time", .num 0), ("end_time", .num 1)])]) =
    .ok (.note ⟨60, 0, 1, 0, 0, 127, -1, -1, 0, 4, 4, false⟩) := by
  have h : Note.mk? ⟨60, 0, 1, 0, 0, 127, -1, -1, 0, 4, 4, false⟩ = .ok ⟨60, 0, 1, 0, 0, 127, -1, -1, 0, 4, 4, false⟩ := by decide +kernel
  have := (C143_marker [("__MidiNote__", .bool false), ("data", .obj [("pitch", .int 60), ("start_time", .num 0), ("end_time", .num 1)])]
    [("__MidiNote__", .bool false), ("data", .dict [("pitch", .int 60), ("start_time", .num 0), ("end_time", .num 1)])] (by
      simp only [decodePairs, decodeDoc, Except.bind, Except.map]; rfl) ⟨_, List.mem_cons_self, rfl⟩).2
      [("__MidiNote__", .bool false)] [] _ rfl (by simp)
  rw [this.1 _ rfl, C143_keywords.2.2, h]; rfl

/-- **C02, refused assignments.** A refused time or step is ValueError, a refused pitch or program AssertionError. -/
theorem C02_setters_refused (n : Note) :
    (∀ v, n.setStart v = .error .value ↔ ¬ (0 ≤ v ∧ v < n.stop)) ∧ (∀ v, n.setStop v = .error .value ↔ ¬ (0 ≤ v ∧ n.start < v)) ∧
    (∀ v, n.setPitch v = .error .assertion ↔ ¬ (0 ≤ v ∧ v ≤ 127)) ∧ (∀ v, n.setProgram v = .error .assertion ↔ ¬ (0 ≤ v ∧ v ≤ 255)) ∧
    (∀ v, n.setQs v = .error .value ↔ v < 0) ∧ (∀ v, n.setQe v = .error .value ↔ v < 0) := by
  refine ⟨fun v => ?_, fun v => ?_, fun v => ?_, fun v => ?_, fun v => ?_, fun v => ?_⟩
  · unfold Note.setStart
    by_cases h1 : v < 0
    · simp [h1, not_le.2 h1]
    · by_cases h2 : v ≥ n.stop
      · simp [h1, h2]
      · simp [h1, h2, not_lt.1 h1, not_le.1 h2]
  · unfold Note.setStop
    by_cases h1 : v < 0
    · simp [h1, not_le.2 h1]
    · by_cases h2 : v ≤ n.start
      · simp [h1, h2]
      · simp [h1, h2, not_lt.1 h1, not_le.1 h2]
  · unfold Note.setPitch; split <;> simp_all
  · unfold Note.setProgram; split <;> simp_all
  · unfold Note.setQs; split <;> simp_all
  · unfold Note.setQe; split <;> simp_all

/-- Both cases occur. -/
example : exNote.setQe (-1) = .error .value ∧ exNote.setPitch 128 = .error .assertion ∧ exNote.setStop 2 ≠ .error .value := by
  refine ⟨((C02_setters_refused exNote).2.2.2.2.2 _).2 (by norm_num), ((C02_setters_refused exNote).2.2.1 _).2 (by norm_num), fun h => ((C02_setters_refused exNote).2.1 _).1 h ⟨by norm_num, ?_⟩⟩
  show (0 : ℚ) < 2
  norm_num

end NGC
