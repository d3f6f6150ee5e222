import Verif.Note
import Mathlib.Analysis.SpecialFunctions.Pow.Real

/-!
Frequencies of notes: `MidiNote.note_to_freq`, `MidiNote.pitch_to_freq`
(midi_note.py 713-758) with the constants of midi_spec.py 33-35 and the table at 73-75.
Frequencies are exact reals.
-/

namespace NGC

/-- `note_to_freq` (midi_note.py 712-738): `440 * 2 ** ((note - 69) / 12)`. -/
noncomputable def noteToFreq (note : Int) : ℝ :=
  440 * (2 : ℝ) ^ (((note : ℝ) - 69) / 12)

/-- The keys of `PITCH_FREQUENCIES` (midi_spec.py 73-75). -/
inductive PitchName where
  | C | Cs | D | Ds | E | F | Fs | G | Gs | A | As | B
  deriving DecidableEq, Repr

/-- `PITCH_FREQUENCIES` (midi_spec.py 73-75). -/
def PitchName.offset : PitchName → Int
  | .C => 0 | .Cs => 1 | .D => 2 | .Ds => 3 | .E => 4 | .F => 5
  | .Fs => 6 | .G => 7 | .Gs => 8 | .A => 9 | .As => 10 | .B => 11

/-- `pitch_to_freq` (midi_note.py 743-758). -/
noncomputable def pitchToFreq (p : PitchName) (octave : Int) : ℝ :=
  noteToFreq (69 + ((octave - 4) * 12 + p.offset))

namespace Spec

/-- The twelve pitch names in rising order from C, one semitone apart. -/
def chromatic : List PitchName := [.C, .Cs, .D, .Ds, .E, .F, .Fs, .G, .Gs, .A, .As, .B]

/-- Equal temperament: the MIDI number of a named pitch in scientific pitch notation
(C4 = 60, A4 = 69). -/
def midiNumber (p : PitchName) (octave : Int) : Int := 12 * (octave + 1) + chromatic.idxOf p

end Spec

/-- C11: A4 is 440 Hz, an octave doubles, a semitone is a constant ratio whose twelfth power is 2,
and the frequency is strictly increasing and positive. -/
theorem C11_equal_tempered :
    noteToFreq 69 = 440 ∧
    (∀ n, noteToFreq (n + 12) = 2 * noteToFreq n) ∧
    (∃ r : ℝ, r ^ 12 = 2 ∧ 0 < r ∧ ∀ n, noteToFreq (n + 1) = r * noteToFreq n) ∧
    (∀ a b : Int, noteToFreq a < noteToFreq b ↔ a < b) ∧
    (∀ n, 0 < noteToFreq n) := by
  have two : (0 : ℝ) < 2 := by norm_num
  refine ⟨?_, ?_, ?_, ?_, ?_⟩
  · unfold noteToFreq; norm_num
  · intro n
    unfold noteToFreq
    have : (((n + 12 : Int) : ℝ) - 69) / 12 = ((n : ℝ) - 69) / 12 + 1 := by push_cast; ring
    rw [this, Real.rpow_add two, Real.rpow_one]; ring
  · refine ⟨(2 : ℝ) ^ ((1 : ℝ) / 12), ?_, by positivity, ?_⟩
    · rw [← Real.rpow_natCast, ← Real.rpow_mul two.le]; norm_num
    · intro n
      unfold noteToFreq
      have : (((n + 1 : Int) : ℝ) - 69) / 12 = (1 : ℝ) / 12 + ((n : ℝ) - 69) / 12 := by
        push_cast; ring
      rw [this, Real.rpow_add two]; ring
  · intro a b
    unfold noteToFreq
    rw [mul_lt_mul_iff_right₀ (by norm_num : (0 : ℝ) < 440),
      Real.rpow_lt_rpow_left_iff (by norm_num : (1 : ℝ) < 2)]
    rw [div_lt_div_iff_of_pos_right (by norm_num : (0 : ℝ) < 12), sub_lt_sub_iff_right]
    exact Int.cast_lt
  · intro n
    unfold noteToFreq
    positivity

example : noteToFreq 81 = 880 := by
  have h := C11_equal_tempered
  have := h.2.1 69
  norm_num at this
  rw [this, h.1]; norm_num

/-- C11 fails for named pitches: `pitch_to_freq` is nine semitones too high at every name and
octave (it adds the offset from C to the reference A4). -/
theorem C11_named_pitch_sharp (p : PitchName) (o : Int) :
    pitchToFreq p o = noteToFreq (Spec.midiNumber p o + 9) ∧
    pitchToFreq p o ≠ noteToFreq (Spec.midiNumber p o) := by
  have e : pitchToFreq p o = noteToFreq (Spec.midiNumber p o + 9) := by
    unfold pitchToFreq Spec.midiNumber
    congr 1
    have : (Spec.chromatic.idxOf p : Int) = p.offset := by cases p <;> rfl
    rw [this]; ring
  refine ⟨e, ?_⟩
  rw [e]
  exact ne_of_gt ((C11_equal_tempered.2.2.2.1 _ _).2 (by omega))

/-- C11 fails on the two documented examples: A4 is not 440 Hz, and C4 is. -/
theorem C11_documented_examples : pitchToFreq .A 4 ≠ 440 ∧ pitchToFreq .C 4 = 440 := by
  refine ⟨?_, ?_⟩
  · have h := (C11_named_pitch_sharp .A 4).2
    have e : Spec.midiNumber .A 4 = 69 := by decide
    rw [e, C11_equal_tempered.1] at h
    exact h
  · have : pitchToFreq .C 4 = noteToFreq 69 := by
      unfold pitchToFreq; rfl
    rw [this, C11_equal_tempered.1]

/-- C11: the relative laws hold for named pitches: an octave doubles the frequency. Boundary:
absolute frequencies, which are false (`C11_named_pitch_sharp`). -/
theorem C11_named_octave (p : PitchName) (o : Int) :
    pitchToFreq p (o + 1) = 2 * pitchToFreq p o := by
  unfold pitchToFreq
  rw [← C11_equal_tempered.2.1]
  congr 1; ring

end NGC
