import Verif.NoteNames
import Verif.NoteProps
import Mathlib.Tactic.Tauto

/-!
C186: notes and their names.
-/

namespace NGC

namespace Spec

/-- A text of decimal digits, at least one. -/
def Digits (ds : List Char) : Prop := ds ≠ [] ∧ ∀ c ∈ ds, c ∈ ['0', '1', '2', '3', '4', '5', '6', '7', '8', '9']

/-- The number a text of digits writes. -/
def digitsValue (ds : List Char) : Nat := ds.foldl (fun a c => 10 * a + (['0', '1', '2', '3', '4', '5', '6', '7', '8', '9'].idxOf c)) 0

/-- A number in writing, with a sign or (if the sign is not a must) without, or nothing. -/
inductive NumText (must : Bool) : List Char → Option Int → Prop
  | nothing : NumText must [] none
  | plain (ds : List Char) : must = false → Digits ds → NumText must ds (some (digitsValue ds))
  | plus (ds : List Char) : Digits ds → NumText must ('+' :: ds) (some (digitsValue ds))
  | minus (ds : List Char) : Digits ds → NumText must ('-' :: ds) (some (-(digitsValue ds : Int)))

/-- The seven letters and their semitones above C. -/
def letters : List (Char × Int) :=
  [('C', 0), ('D', 2), ('E', 4), ('F', 5), ('G', 7), ('A', 9), ('B', 11), ('c', 0), ('d', 2), ('e', 4), ('f', 5), ('g', 7), ('a', 9), ('b', 11)]

/-- The accidentals: sharps, flats, their doubles, and the natural sign. -/
def accidentals : List (Char × Int) := [('#', 1), ('♯', 1), ('b', -1), ('!', -1), ('♭', -1), ('𝄪', 2), ('𝄫', -2), ('♮', 0)]

/-- A name with its parts: a letter, accidentals (here with their values), an octave, hundredths only after an octave; one newline may follow. -/
def NameOf (s : List Char) (pc : Int) (accs : List (Char × Int)) (oct cents : Option Int) : Prop :=
  ∃ letter octT centT nl, s = letter :: (accs.map Prod.fst ++ (octT ++ (centT ++ nl))) ∧ (letter, pc) ∈ letters ∧ (∀ a ∈ accs, a ∈ accidentals) ∧
    NumText false octT oct ∧ NumText true centT cents ∧ (oct = none → cents = none) ∧ (nl = [] ∨ nl = ['\n'])

/-- The semitones of a name above C in octave -1, before the hundredths: C in octave 4 is 60. -/
def nameValue (pc : Int) (accs : List (Char × Int)) (oct : Option Int) : Int := 12 * (oct.getD 0 + 1) + pc + (accs.map Prod.snd).sum

end Spec

theorem isDig_iff (c : Char) : isDig c = true ↔ c ∈ ['0', '1', '2', '3', '4', '5', '6', '7', '8', '9'] := by
  unfold isDig digitVal
  simp only [List.mem_cons, List.not_mem_nil, or_false]
  split_ifs <;> simp_all

theorem digitVal_idx (c : Char) (h : isDig c = true) : digitVal c = some (['0', '1', '2', '3', '4', '5', '6', '7', '8', '9'].idxOf c) := by
  rw [isDig_iff] at h
  simp only [List.mem_cons, List.not_mem_nil, or_false] at h
  rcases h with h | h | h | h | h | h | h | h | h | h <;> subst h <;> decide

theorem decVal_digits (ds : List Char) (h : Spec.Digits ds) : decVal ds = some (Spec.digitsValue ds) := by
  unfold decVal Spec.digitsValue
  rw [if_neg h.1]
  have : ∀ (l : List Char) (a : Nat), (∀ c ∈ l, isDig c = true) →
      l.foldl decStep (some a) = some (l.foldl (fun a c => 10 * a + (['0', '1', '2', '3', '4', '5', '6', '7', '8', '9'].idxOf c)) a) := by
    intro l
    induction l with
    | nil => intro a _; rfl
    | cons c l ih =>
      intro a hl
      simp only [List.foldl_cons]
      have : decStep (some a) c = some (10 * a + ['0', '1', '2', '3', '4', '5', '6', '7', '8', '9'].idxOf c) := by
        simp only [decStep, digitVal_idx c (hl c List.mem_cons_self)]
      rw [this]
      exact ih _ (fun d hd => hl d (List.mem_cons_of_mem _ hd))
  exact this ds 0 (fun c hc => (isDig_iff c).2 (h.2 c hc))

theorem digits_iff (ds : List Char) : Spec.Digits ds ↔ ds ≠ [] ∧ ∀ c ∈ ds, isDig c = true := by
  unfold Spec.Digits
  simp only [isDig_iff]

theorem letterPc_iff (c : Char) (pc : Int) : letterPc c = some pc ↔ (c, pc) ∈ Spec.letters := by
  constructor
  · intro h
    unfold letterPc at h
    split_ifs at h <;> first
      | (cases h; done)
      | (have e := Option.some.inj h; clear h; subst e; rename_i hc
         first
         | (rcases hc with hc | hc | hc <;> subst hc <;> decide)
         | (rcases hc with hc | hc <;> subst hc <;> decide)
         | (subst hc; decide))
  · intro h
    simp only [Spec.letters, List.mem_cons, Prod.mk.injEq, List.not_mem_nil, or_false] at h
    rcases h with (⟨rfl, rfl⟩ | ⟨rfl, rfl⟩ | ⟨rfl, rfl⟩ | ⟨rfl, rfl⟩ | ⟨rfl, rfl⟩ | ⟨rfl, rfl⟩ | ⟨rfl, rfl⟩ | ⟨rfl, rfl⟩ | ⟨rfl, rfl⟩ | ⟨rfl, rfl⟩ | ⟨rfl, rfl⟩ | ⟨rfl, rfl⟩ | ⟨rfl, rfl⟩ | ⟨rfl, rfl⟩) <;> decide

theorem accVal_iff (c : Char) (z : Int) : accVal c = some z ↔ (c, z) ∈ Spec.accidentals := by
  constructor
  · intro h
    unfold accVal at h
    split_ifs at h <;> first
      | (cases h; done)
      | (have e := Option.some.inj h; clear h; subst e; rename_i hc
         first
         | (rcases hc with hc | hc | hc <;> subst hc <;> decide)
         | (rcases hc with hc | hc <;> subst hc <;> decide)
         | (subst hc; decide))
  · intro h
    simp only [Spec.accidentals, List.mem_cons, Prod.mk.injEq, List.not_mem_nil, or_false] at h
    rcases h with (⟨rfl, rfl⟩ | ⟨rfl, rfl⟩ | ⟨rfl, rfl⟩ | ⟨rfl, rfl⟩ | ⟨rfl, rfl⟩ | ⟨rfl, rfl⟩ | ⟨rfl, rfl⟩ | ⟨rfl, rfl⟩) <;> decide

/-- `takeWhile` stops where the property first fails. -/
theorem takeWhile_stop {α : Type} (p : α → Bool) (a r : List α) (ha : ∀ x ∈ a, p x = true) (hr : ∀ x ∈ r.head?, p x = false) :
    (a ++ r).takeWhile p = a ∧ (a ++ r).dropWhile p = r := by
  induction a with
  | nil =>
    cases r with
    | nil => exact ⟨rfl, rfl⟩
    | cons x r =>
      have : p x = false := hr x (by simp)
      simp [this]
  | cons x a ih =>
    have hx := ha x List.mem_cons_self
    obtain ⟨h1, h2⟩ := ih (fun y hy => ha y (List.mem_cons_of_mem _ hy))
    simp [hx, h1, h2]

theorem takeWhile_all {α : Type} (p : α → Bool) (l : List α) : ∀ x ∈ l.takeWhile p, p x = true := by
  induction l with
  | nil => simp
  | cons x l ih =>
    intro y hy
    by_cases hx : p x = true
    · rw [List.takeWhile_cons_of_pos hx] at hy
      rcases List.mem_cons.1 hy with rfl | hy
      · exact hx
      · exact ih y hy
    · rw [List.takeWhile_cons_of_neg hx] at hy; simp at hy

theorem dropWhile_head {α : Type} (p : α → Bool) (l : List α) : ∀ x ∈ (l.dropWhile p).head?, p x = false := by
  induction l with
  | nil => simp
  | cons x l ih =>
    by_cases hx : p x = true
    · rw [List.dropWhile_cons_of_pos hx]; exact ih
    · rw [List.dropWhile_cons_of_neg hx]; simpa using hx

theorem cutSign_dig (c : Char) (r : List Char) (h : isDig c = true) : cutSign (c :: r) = (none, c :: r) := by
  unfold cutSign
  split
  · rename_i e; rw [(List.cons.inj e).1] at h; exact absurd h (by decide)
  · rename_i e; rw [(List.cons.inj e).1] at h; exact absurd h (by decide)
  · rfl

/-- A written number followed by something that is no digit is read as such. -/
theorem optTok_text (must : Bool) (t r : List Char) (z : Option Int) (h : Spec.NumText must t z) (hr : ∀ x ∈ r.head?, isDig x = false)
    (h0 : z = none → ∀ x ∈ r.head?, x ≠ '+' ∧ x ≠ '-') : optTok must (t ++ r) = (z, r) := by
  unfold optTok numTok
  cases h with
  | nothing =>
    have : cutSign r = (none, r) := by
      unfold cutSign
      split
      · exact absurd rfl (h0 rfl '+' (by simp)).1
      · exact absurd rfl (h0 rfl '-' (by simp)).2
      · rfl
    have h1 := (takeWhile_stop isDig [] r (by simp) hr).1
    rw [List.nil_append] at h1
    simp only [List.nil_append, this, h1, true_or, if_true]
  | plain ds hm hd =>
    rw [digits_iff] at hd
    obtain ⟨h1, h2⟩ := takeWhile_stop isDig t r hd.2 hr
    have hc : cutSign (t ++ r) = (none, t ++ r) := by
      cases t with
      | nil => exact absurd rfl hd.1
      | cons c t => exact cutSign_dig c _ (hd.2 c List.mem_cons_self)
    simp only [hc, h1, h2, hm, hd.1, Bool.false_eq_true, false_and, or_self, if_false, Option.getD_none, one_mul,
      decVal_digits t ((digits_iff t).2 hd), Option.getD_some]
  | plus ds hd =>
    obtain ⟨h1, h2⟩ := takeWhile_stop isDig ds r ((digits_iff ds).1 hd).2 hr
    have hc : cutSign ('+' :: ds ++ r) = (some 1, ds ++ r) := rfl
    simp only [hc, h1, h2, hd.1, reduceCtorEq, and_false, or_self, if_false, Option.getD_some, one_mul, decVal_digits ds hd]
  | minus ds hd =>
    obtain ⟨h1, h2⟩ := takeWhile_stop isDig ds r ((digits_iff ds).1 hd).2 hr
    have hc : cutSign ('-' :: ds ++ r) = (some (-1), ds ++ r) := rfl
    simp only [hc, h1, h2, hd.1, reduceCtorEq, and_false, or_self, if_false, Option.getD_some, decVal_digits ds hd, neg_mul, one_mul]

theorem cutSign_cases (s : List Char) :
    (∃ r, s = '+' :: r ∧ cutSign s = (some 1, r)) ∨ (∃ r, s = '-' :: r ∧ cutSign s = (some (-1), r)) ∨ cutSign s = (none, s) := by
  unfold cutSign
  split
  · exact Or.inl ⟨_, rfl, rfl⟩
  · exact Or.inr (Or.inl ⟨_, rfl, rfl⟩)
  · exact Or.inr (Or.inr rfl)

/-- What is read is a written number, and the rest follows it. -/
theorem optTok_reads (must : Bool) (s : List Char) :
    ∃ t, s = t ++ (optTok must s).2 ∧ Spec.NumText must t (optTok must s).1 := by
  unfold optTok numTok
  by_cases h : (cutSign s).2.takeWhile isDig = [] ∨ must = true ∧ (cutSign s).1 = none
  · simp only [h, if_true]
    exact ⟨[], rfl, .nothing⟩
  · simp only [h, if_false]
    have hd : Spec.Digits ((cutSign s).2.takeWhile isDig) := (digits_iff _).2 ⟨fun e => h (Or.inl e), takeWhile_all _ _⟩
    have hs : (cutSign s).2 = (cutSign s).2.takeWhile isDig ++ (cutSign s).2.dropWhile isDig := List.takeWhile_append_dropWhile.symm
    rw [decVal_digits _ hd]
    have h2 : ¬ (must = true ∧ (cutSign s).1 = none) := fun e => h (Or.inr e)
    rcases cutSign_cases s with ⟨r, e1, e2⟩ | ⟨r, e1, e2⟩ | e2
    · rw [e2] at hs hd ⊢
      refine ⟨'+' :: r.takeWhile isDig, by rw [e1, List.cons_append]; congr 1, ?_⟩
      simpa using Spec.NumText.plus (must := must) _ hd
    · rw [e2] at hs hd ⊢
      refine ⟨'-' :: r.takeWhile isDig, by rw [e1, List.cons_append]; congr 1, ?_⟩
      simpa using Spec.NumText.minus (must := must) _ hd
    · rw [e2] at hs hd h2 ⊢
      refine ⟨s.takeWhile isDig, hs, ?_⟩
      have hm : must = false := by
        cases must with
        | false => rfl
        | true => exact absurd ⟨rfl, rfl⟩ h2
      simpa using Spec.NumText.plain (must := must) _ hm hd

theorem accs_pairs (l : List Char) (h : ∀ c ∈ l, (accVal c).isSome = true) :
    ∃ accs : List (Char × Int), accs.map Prod.fst = l ∧ (∀ a ∈ accs, a ∈ Spec.accidentals) ∧ accSum l = (accs.map Prod.snd).sum := by
  induction l with
  | nil => exact ⟨[], rfl, by simp, rfl⟩
  | cons c l ih =>
    obtain ⟨accs, h1, h2, h3⟩ := ih (fun d hd => h d (List.mem_cons_of_mem _ hd))
    obtain ⟨z, hz⟩ := Option.isSome_iff_exists.1 (h c List.mem_cons_self)
    refine ⟨(c, z) :: accs, by simp [h1], ?_, ?_⟩
    · intro a ha
      rcases List.mem_cons.1 ha with rfl | ha
      · exact (accVal_iff _ _).1 hz
      · exact h2 a ha
    · unfold accSum at h3 ⊢
      simp only [List.map_cons, List.sum_cons, hz, Option.getD_some, h3]

theorem accSum_pairs (accs : List (Char × Int)) (h : ∀ a ∈ accs, a ∈ Spec.accidentals) : accSum (accs.map Prod.fst) = (accs.map Prod.snd).sum := by
  induction accs with
  | nil => rfl
  | cons a accs ih =>
    have := ih (fun d hd => h d (List.mem_cons_of_mem _ hd))
    unfold accSum at this ⊢
    have hz := (accVal_iff a.1 a.2).2 (h a List.mem_cons_self)
    simp only [List.map_cons, List.sum_cons, hz, Option.getD_some, this]

/-- The first character of a written number. -/
theorem numText_head (must : Bool) (t : List Char) (z : Option Int) (h : Spec.NumText must t z) :
    (z = none ∧ t = []) ∨ ∃ c r, t = c :: r ∧ (accVal c).isSome = false ∧ (must = true → c = '+' ∨ c = '-') := by
  cases h with
  | nothing => exact Or.inl ⟨rfl, rfl⟩
  | plain ds hm hd =>
    right
    cases t with
    | nil => exact absurd rfl hd.1
    | cons c t =>
      refine ⟨c, t, rfl, ?_, fun e => by rw [hm] at e; cases e⟩
      have := hd.2 c List.mem_cons_self
      simp only [List.mem_cons, List.not_mem_nil, or_false] at this
      rcases this with h | h | h | h | h | h | h | h | h | h <;> subst h <;> decide
  | plus ds hd => exact Or.inr ⟨'+', ds, rfl, by decide, fun _ => Or.inl rfl⟩
  | minus ds hd => exact Or.inr ⟨'-', ds, rfl, by decide, fun _ => Or.inr rfl⟩

/-- **C186, reading a name.** `note_to_midi` accepts a text exactly if it is a letter from A to G of either case, any number of accidentals, an optional octave, and after an octave optional hundredths with a
sign. The result is twelve times the octave (0 if there is none) plus one, plus letter and accidentals, plus the hundredths, rounded to the nearest. -/
theorem C186_reads (s : List Char) (p : Int) :
    noteToMidi s = some p ↔ ∃ pc accs oct cents, Spec.NameOf s pc accs oct cents ∧
      p = roundHE ((Spec.nameValue pc accs oct : ℚ) + (cents.getD 0 : Int) / 100) := by
  constructor
  · intro h
    cases s with
    | nil => simp [noteToMidi] at h
    | cons c r =>
      simp only [noteToMidi] at h
      cases hc : letterPc c with
      | none => rw [hc] at h; simp at h
      | some pc =>
        rw [hc] at h
        dsimp only at h
        split at h
        · rename_i hend
          obtain ⟨accs, ha1, ha2, ha3⟩ := accs_pairs (r.takeWhile (fun c => (accVal c).isSome)) (takeWhile_all _ _)
          obtain ⟨octT, ho1, ho2⟩ := optTok_reads false (r.dropWhile (fun c => (accVal c).isSome))
          obtain ⟨centT, hc1, hc2⟩ := optTok_reads true (optTok false (r.dropWhile (fun c => (accVal c).isSome))).2
          refine ⟨pc, accs, _, _, ⟨c, octT, centT, _, ?_, (letterPc_iff _ _).1 hc, ha2, ho2, hc2, ?_, hend⟩, ?_⟩
          · rw [ha1, ← hc1, ← ho1, List.takeWhile_append_dropWhile]
          · intro hn
            -- without an octave the text is where it was, and hundredths would have been read as octave
            by_contra hcents
            generalize r.dropWhile (fun c => (accVal c).isSome) = w at *
            have hw : (optTok false w).2 = w := by
              unfold optTok at hn ⊢
              cases hnt : numTok false w with
              | none => rfl
              | some q => rw [hnt] at hn; simp at hn
            rw [hw] at hcents
            unfold optTok at hn hcents
            unfold numTok at hn hcents
            by_cases hds : (cutSign w).2.takeWhile isDig = []
            · simp [hds] at hcents
            · simp [hds] at hn
          · rw [ha3] at h
            exact (Option.some.inj h).symm
        · cases h
  · rintro ⟨pc, accs, oct, cents, ⟨letter, octT, centT, nl, rfl, hl, ha, ho, hc, hoc, hnl⟩, rfl⟩
    have hnd : ∀ x ∈ nl.head?, isDig x = false ∧ x ≠ '+' ∧ x ≠ '-' ∧ (accVal x).isSome = false := by
      rcases hnl with rfl | rfl
      · simp
      · intro x hx; simp at hx; subst hx; decide
    have htail : ∀ x ∈ (centT ++ nl).head?, isDig x = false := by
      rcases numText_head true centT cents hc with ⟨_, rfl⟩ | ⟨c, r, rfl, _, h⟩
      · intro x hx; exact (hnd x (by simpa using hx)).1
      · intro x hx
        simp at hx; subst hx
        rcases h rfl with rfl | rfl <;> decide
    have htail2 : oct = none → ∀ x ∈ (centT ++ nl).head?, x ≠ '+' ∧ x ≠ '-' := by
      intro hn
      have hcn := hoc hn
      rcases numText_head true centT cents hc with ⟨_, rfl⟩ | ⟨c, r, rfl, _, h⟩
      · intro x hx
        have := hnd x (by simpa using hx)
        exact ⟨this.2.1, this.2.2.1⟩
      · subst hcn; cases hc
    have hall : ∀ x ∈ (octT ++ (centT ++ nl)).head?, (fun c => (accVal c).isSome) x = false := by
      rcases numText_head false octT oct ho with ⟨_, rfl⟩ | ⟨c, r, rfl, h, _⟩
      · rw [List.nil_append]
        rcases numText_head true centT cents hc with ⟨_, rfl⟩ | ⟨c, r, rfl, h, _⟩
        · intro x hx; exact (hnd x (by simpa using hx)).2.2.2
        · intro x hx; simp at hx; subst hx; exact h
      · intro x hx; simp at hx; subst hx; exact h
    have haccs : ∀ x ∈ accs.map Prod.fst, (fun c => (accVal c).isSome) x = true := by
      intro x hx
      obtain ⟨a, ha', rfl⟩ := List.mem_map.1 hx
      show (accVal a.1).isSome = true
      rw [(accVal_iff a.1 a.2).2 (ha a ha')]; rfl
    obtain ⟨t1, t2⟩ := takeWhile_stop (fun c => (accVal c).isSome) (accs.map Prod.fst) (octT ++ (centT ++ nl)) haccs hall
    have e1 := optTok_text false octT (centT ++ nl) oct ho htail htail2
    have e2 := optTok_text true centT nl cents hc (fun x hx => (hnd x hx).1) (fun _ x hx => ⟨(hnd x hx).2.1, (hnd x hx).2.2.1⟩)
    simp only [noteToMidi, (letterPc_iff letter pc).2 hl, t1, t2, e1, e2, hnl, if_true, accSum_pairs accs ha]
    rfl

/-- A name without hundredths. -/
theorem noteToMidi_plain (letter : Char) (pc : Int) (accs : List (Char × Int)) (octT : List Char) (oct : Option Int) (hl : (letter, pc) ∈ Spec.letters)
    (ha : ∀ a ∈ accs, a ∈ Spec.accidentals) (ho : Spec.NumText false octT oct) :
    noteToMidi (letter :: (accs.map Prod.fst ++ octT)) = some (Spec.nameValue pc accs oct) := by
  refine (C186_reads _ _).2 ⟨pc, accs, oct, none, ⟨letter, octT, [], [], by simp, hl, ha, ho, .nothing, fun _ => rfl, Or.inl rfl⟩, ?_⟩
  simp [roundHE_int]

theorem decStr_digits (n : Nat) : Spec.Digits (decStr n) := by
  refine (digits_iff _).2 ⟨decStr_ne_nil n, fun c hc => ?_⟩
  obtain ⟨d, hd, rfl⟩ := mem_decStr hc
  unfold isDig
  rw [digitVal_digitChar d hd]; rfl

theorem intText_num (z : Int) : Spec.NumText false (intText z) (some z) := by
  have hv : ∀ n : Nat, Spec.digitsValue (decStr n) = n := by
    intro n
    have := decVal_digits _ (decStr_digits n)
    rw [decVal_decStr] at this
    exact (Option.some.inj this).symm
  unfold intText
  split
  · rename_i h
    have := Spec.NumText.minus (must := false) _ (decStr_digits z.natAbs)
    rw [hv] at this
    have e : -((z.natAbs : Nat) : Int) = z := by omega
    rwa [e] at this
  · rename_i h
    have := Spec.NumText.plain (must := false) _ rfl (decStr_digits z.natAbs)
    rw [hv] at this
    have e : ((z.natAbs : Nat) : Int) = z := by omega
    rwa [e] at this

/-- **C186, spelling.** The name given to a pitch is that of its semitone with a sharp for the black keys, and its octave in
decimal, with a minus sign for the lowest twelve pitches only. -/
theorem C186_spelling (p : Nat) (d : Nat) (hd : d < 12) (h : p % 12 = d) :
    ∃ semitone, ["C", "C♯", "D", "D♯", "E", "F", "F♯", "G", "G♯", "A", "A♯", "B"][d]? = some semitone ∧
      (p < 12 → midiToNote p = semitone.toList ++ ['-', '1']) ∧
      (12 ≤ p → midiToNote p = semitone.toList ++ decStr (p / 12 - 1)) := by
  subst h
  have h1 : sharpNames.map String.ofList = ["C", "C♯", "D", "D♯", "E", "F", "F♯", "G", "G♯", "A", "A♯", "B"] := by decide +kernel
  rw [← h1]
  have hl : p % 12 < sharpNames.length := hd
  refine ⟨String.ofList (sharpNames[p % 12]), by rw [List.getElem?_map, List.getElem?_eq_getElem hl]; rfl, ?_, ?_⟩
  · intro hp
    have e : sharpNames.getD (p % 12) [] = sharpNames[p % 12] := by simp [hl]
    have : p / 12 = 0 := by omega
    unfold midiToNote
    rw [e, this]
    have : intText (((0 : Nat) : Int) - 1) = ['-', '1'] := by decide +kernel
    rw [this]
    simp
  · intro hp
    have e : sharpNames.getD (p % 12) [] = sharpNames[p % 12] := by simp [hl]
    have h2 : (((p / 12 : Nat) : Int) - 1).natAbs = p / 12 - 1 := by omega
    have h3 : ¬ (((p / 12 : Nat) : Int) - 1 < 0) := by omega
    unfold midiToNote intText
    rw [e, if_neg h3, h2]
    simp

/-- **C186, there and back.** The name given to a pitch is read back as this pitch; so different pitches have different names. -/
theorem C186_round_trip (p : Nat) : noteToMidi (midiToNote p) = some (p : Int) := by
  unfold midiToNote
  have hk : p % 12 < 12 := Nat.mod_lt _ (by norm_num)
  have key : ∀ (letter : Char) (pc : Int) (accs : List (Char × Int)), (letter, pc) ∈ Spec.letters → (∀ a ∈ accs, a ∈ Spec.accidentals) →
      pc + (accs.map Prod.snd).sum = ((p % 12 : Nat) : Int) →
      noteToMidi ((letter :: accs.map Prod.fst) ++ intText (((p / 12 : Nat) : Int) - 1)) = some (p : Int) := by
    intro letter pc accs h1 h2 h3
    rw [List.cons_append, noteToMidi_plain letter pc accs _ _ h1 h2 (intText_num _)]
    congr 1
    unfold Spec.nameValue
    simp only [Option.getD_some]
    omega
  have cases12 : p % 12 = 0 ∨ p % 12 = 1 ∨ p % 12 = 2 ∨ p % 12 = 3 ∨ p % 12 = 4 ∨ p % 12 = 5 ∨ p % 12 = 6 ∨ p % 12 = 7 ∨ p % 12 = 8 ∨ p % 12 = 9 ∨
      p % 12 = 10 ∨ p % 12 = 11 := by omega
  rcases cases12 with h | h | h | h | h | h | h | h | h | h | h | h <;> rw [h] at key ⊢
  · exact key 'C' 0 [] (by decide) (by decide) (by decide)
  · exact key 'C' 0 [('♯', 1)] (by decide) (by decide) (by decide)
  · exact key 'D' 2 [] (by decide) (by decide) (by decide)
  · exact key 'D' 2 [('♯', 1)] (by decide) (by decide) (by decide)
  · exact key 'E' 4 [] (by decide) (by decide) (by decide)
  · exact key 'F' 5 [] (by decide) (by decide) (by decide)
  · exact key 'F' 5 [('♯', 1)] (by decide) (by decide) (by decide)
  · exact key 'G' 7 [] (by decide) (by decide) (by decide)
  · exact key 'G' 7 [('♯', 1)] (by decide) (by decide) (by decide)
  · exact key 'A' 9 [] (by decide) (by decide) (by decide)
  · exact key 'A' 9 [('♯', 1)] (by decide) (by decide) (by decide)
  · exact key 'B' 11 [] (by decide) (by decide) (by decide)

/-- **C186, from_name.** A text that is no name is `ParameterError`, whatever the times; otherwise a note that would not last is AssertionError; otherwise the note has the pitch of the name, limited to 0 … 127,
the given times and drum flag, velocity, program and instrument limited to their ranges, and as its own name that of the limited pitch. -/
theorem C186_from_name (s : List Char) (start stop : ℚ) (vel prog inst : Int) (drum : Bool) :
    (noteToMidi s = none → NamedNote.fromName s start stop vel prog inst drum = .error .parameter) ∧
    (∀ p, noteToMidi s = some p → stop ≤ start → NamedNote.fromName s start stop vel prog inst drum = .error (.py .assertion)) ∧
    (∀ p, noteToMidi s = some p → start < stop → ∃ n, NamedNote.fromName s start stop vel prog inst drum = .ok n ∧
      n.note.pitch = max 0 (min 127 p) ∧ n.note.velocity = max 0 (min 127 vel) ∧ n.note.program = max 0 (min 255 prog) ∧ n.note.instrument = max 0 (min 127 inst) ∧
      n.note.start = start ∧ n.note.stop = stop ∧ n.note.isDrum = drum ∧ noteToMidi n.name = some n.note.pitch) := by
  refine ⟨?_, ?_, ?_⟩
  · intro h; unfold NamedNote.fromName; rw [h]
  · intro p h ht
    unfold NamedNote.fromName NamedNote.mk? Note.mk?
    rw [h]
    simp only [gt_iff_lt, not_lt.2 ht, not_false_eq_true, if_true]
    rfl
  · intro p h ht
    unfold NamedNote.fromName NamedNote.mk? Note.mk?
    rw [h]
    simp only [gt_iff_lt, ht, not_true_eq_false, if_false]
    have hd : denomOk 4 = true := by decide
    simp only [hd, Bool.true_eq_false, not_true_eq_false, if_false]
    have hp : ∀ q : Int, (if 0 ≤ q ∧ q ≤ 127 then q else max 0 (min 127 q)) = max 0 (min 127 q) := by
      intro q; split <;> omega
    refine ⟨_, rfl, hp p, hp vel, ?_, ?_, rfl, rfl, rfl, ?_⟩
    · show min (max 0 prog) 255 = _
      omega
    · show min (max inst 0) 127 = _
      omega
    · show noteToMidi (midiToNote (Int.toNat (if 0 ≤ p ∧ p ≤ 127 then p else max 0 (min 127 p)))) = some (if 0 ≤ p ∧ p ≤ 127 then p else max 0 (min 127 p))
      rw [C186_round_trip, hp]
      congr 1
      omega

/-- **C186, defaults.** Without further arguments `from_name` makes a note of full velocity for the first program and
instrument, not of a drum. -/
theorem C186_defaults (s : List Char) (start stop : ℚ) (n : NamedNote) (h : NamedNote.fromName s start stop = .ok n) :
    n.note.velocity = 127 ∧ n.note.program = 0 ∧ n.note.instrument = 0 ∧ n.note.isDrum = false := by
  obtain ⟨h1, h2, h3⟩ := C186_from_name s start stop 127 0 0 false
  cases hp : noteToMidi s with
  | none => rw [h1 hp] at h; cases h
  | some p =>
    by_cases ht : stop ≤ start
    · rw [h2 p hp ht] at h; cases h
    · obtain ⟨m, hm, -, a, b, c, -, -, d, -⟩ := h3 p hp (not_le.1 ht)
      rw [hm] at h
      obtain rfl := Except.ok.inj h
      rw [a, b, c, d]
      decide +kernel

/-- **C186, accidentals.** Their order is irrelevant; a sharp more is a semitone up, a flat more a semitone down, a natural sign changes nothing; an octave more is twelve semitones up. -/
theorem C186_accidentals (letter : Char) (pc : Int) (hl : (letter, pc) ∈ Spec.letters) (accs : List Char) (ha : ∀ c ∈ accs, c ∈ Spec.accidentals.map Prod.fst) (o : Int) :
    ∃ p, noteToMidi (letter :: (accs ++ intText o)) = some p ∧
      (∀ accs', accs.Perm accs' → noteToMidi (letter :: (accs' ++ intText o)) = some p) ∧
      noteToMidi (letter :: ('♯' :: accs ++ intText o)) = some (p + 1) ∧ noteToMidi (letter :: ('#' :: accs ++ intText o)) = some (p + 1) ∧
      noteToMidi (letter :: ('♭' :: accs ++ intText o)) = some (p - 1) ∧ noteToMidi (letter :: ('b' :: accs ++ intText o)) = some (p - 1) ∧
      noteToMidi (letter :: ('♮' :: accs ++ intText o)) = some p ∧ noteToMidi (letter :: (accs ++ intText (o + 1))) = some (p + 12) := by
  have hs : ∀ c ∈ accs, (accVal c).isSome = true := by
    intro c hc
    obtain ⟨a, ha', rfl⟩ := List.mem_map.1 (ha c hc)
    rw [(accVal_iff a.1 a.2).2 ha']; rfl
  have gen : ∀ (l : List Char) (o : Int), (∀ c ∈ l, (accVal c).isSome = true) → noteToMidi (letter :: (l ++ intText o)) = some (12 * (o + 1) + pc + accSum l) := by
    intro l o h
    obtain ⟨ps, h1, h2, h3⟩ := accs_pairs l h
    rw [h3, ← h1]
    exact noteToMidi_plain letter pc ps _ _ hl h2 (intText_num o)
  have cons : ∀ (c : Char) (z : Int), accVal c = some z → noteToMidi (letter :: (c :: accs ++ intText o)) = some (12 * (o + 1) + pc + accSum accs + z) := by
    intro c z hz
    rw [gen (c :: accs) o]
    · congr 1
      unfold accSum
      simp only [List.map_cons, List.sum_cons, hz, Option.getD_some]
      ring
    · intro d hd
      rcases List.mem_cons.1 hd with rfl | hd
      · rw [hz]; rfl
      · exact hs d hd
  refine ⟨_, gen accs o hs, ?_, ?_, ?_, ?_, ?_, ?_, ?_⟩
  · intro accs' hp
    rw [gen accs' o (fun c hc => hs c (hp.symm.subset hc))]
    unfold accSum
    rw [(hp.map _).sum_eq]
  · exact cons '♯' 1 (by decide)
  · exact cons '#' 1 (by decide)
  · exact cons '♭' (-1) (by decide)
  · exact cons 'b' (-1) (by decide)
  · rw [cons '♮' 0 (by decide), add_zero]
  · rw [gen accs (o + 1) hs]; congr 1; ring

/-- **C186, a name goes stale (defect).** Assigning a pitch does not change the name: afterwards the name reads as the pitch the note was made with, so it is right exactly if the pitch is the same. A copy
has the right name. -/
theorem C186_stale (a : NoteArgs) (n m : NamedNote) (hn : NamedNote.mk? a = .ok n) (v : Int) (hv : n.setPitch v = .ok m) :
    noteToMidi n.name = some n.note.pitch ∧ m.note.pitch = v ∧ m.name = n.name ∧ (noteToMidi m.name = some m.note.pitch ↔ v = n.note.pitch) ∧
    (∀ c, m.makeCopy = .ok c → c.note.pitch = v ∧ noteToMidi c.name = some v) := by
  have hpos : 0 ≤ n.note.pitch ∧ n.name = midiToNote n.note.pitch.toNat := by
    unfold NamedNote.mk? at hn
    cases hm : Note.mk? a with
    | error e => rw [hm] at hn; cases hn
    | ok k =>
      rw [hm] at hn
      have := Except.ok.inj hn
      subst this
      exact ⟨(C01_construct_valid a k hm).1.pitch_lo, rfl⟩
  have h1 : noteToMidi n.name = some n.note.pitch := by
    rw [hpos.2, C186_round_trip, Int.toNat_of_nonneg hpos.1]
  unfold NamedNote.setPitch at hv
  cases hs : n.note.setPitch v with
  | error e => rw [hs] at hv; cases hv
  | ok k =>
    rw [hs] at hv
    have := Except.ok.inj hv
    subst this
    obtain ⟨hv0, _, rfl⟩ := (setPitch_ok_iff _ _ _).1 hs
    refine ⟨h1, rfl, rfl, ?_, ?_⟩
    · rw [h1]
      constructor
      · intro h; exact (Option.some.inj h).symm
      · rintro rfl; rfl
    · intro c hc
      unfold NamedNote.makeCopy at hc
      cases hk : Note.makeCopy { n.note with pitch := v } with
      | error e => rw [hk] at hc; cases hc
      | ok k =>
        rw [hk] at hc
        have := Except.ok.inj hc
        subst this
        have hp : k.pitch = v := by
          have hv127 := ((setPitch_ok_iff _ _ _).1 hs).2.1
          unfold Note.makeCopy Note.mk? at hk
          dsimp only at hk
          split at hk
          · cases hk
          · split at hk
            · cases hk
            · split at hk
              · cases hk
              · have := Except.ok.inj hk
                rw [← this]
                show (if 0 ≤ v ∧ v ≤ 127 then v else _) = v
                rw [if_pos ⟨hv0, hv127⟩]
        refine ⟨hp, ?_⟩
        rw [C186_round_trip, hp, Int.toNat_of_nonneg hv0]

/-- The hypotheses are met: names that are read, one that is not, and a stale name. -/
example : noteToMidi "C4".toList = some 60 ∧ noteToMidi "a4".toList = some 69 ∧ noteToMidi "Bb3".toList = some 58 ∧ noteToMidi "C♯-1".toList = some 1 ∧ noteToMidi "G".toList = some 19 ∧
    noteToMidi "C4+60".toList = some 61 ∧ noteToMidi "C+4".toList = some 60 ∧ noteToMidi "H4".toList = none ∧ noteToMidi "C4 ".toList = none ∧ noteToMidi "bb4".toList = some 70 ∧
    midiToNote 61 = "C♯4".toList ∧ midiToNote 0 = "C-1".toList := by
  decide +kernel

example : (do let n ← NamedNote.mk? { pitch := 60, start := 0, stop := 1 }; n.setPitch 62).map (fun n : NamedNote => (n.note.pitch, n.name)) = .ok (62, "C4".toList) := by
  decide +kernel

end NGC
