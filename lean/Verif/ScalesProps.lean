import Verif.Scales
import Mathlib.Tactic.IntervalCases
import Mathlib.Data.List.Rotate
import Mathlib.Tactic.Linarith

/-!
C68 – C71: scales, intervals, pitch names, chords.

Specification: a scale is its sequence of steps in semitones (`specSteps`), the textbook patterns;
degree `k` lies the sum of the first `k` steps above the root; a note name is an entry of the
chromatic list `noteNames`, and transposing is moving along this list cyclically.
-/

namespace NGC

/-- The textbook step patterns (whole step 2, half step 1), from one degree to the next. -/
def specSteps : ScaleType → List Nat
  | .major => [2, 2, 1, 2, 2, 2, 1]
  | .minor => [2, 1, 2, 2, 1, 2, 2]
  | .dorian => [2, 1, 2, 2, 2, 1, 2]
  | .phrygian => [1, 2, 2, 2, 1, 2, 2]
  | .lydian => [2, 2, 2, 1, 2, 2, 1]
  | .mixolydian => [2, 2, 1, 2, 2, 1, 2]
  | .aeolian => [2, 1, 2, 2, 1, 2, 2]
  | .locrian => [1, 2, 2, 1, 2, 2, 2]
  | .harmonicMinor => [2, 1, 2, 2, 1, 3, 1]
  | .melodicMinor => [2, 1, 2, 2, 2, 2, 1]

/-- Semitones from the root to degree `k`. -/
def specDegree (t : ScaleType) (k : Nat) : Nat := ((specSteps t).take k).sum

/-- The name `k` semitones above `C`, cyclically. -/
def specName (k : Nat) : String := noteNames.getD (k % 12) ""

/-- `iter` lists the members of the set, in some order. -/
def ListsMembers (iter : List Nat → List Nat) : Prop := ∀ l, (iter l).Perm l

theorem mem_allScales (t : ScaleType) : t ∈ ScaleType.all := by cases t <;> decide

theorem sorted_scale (iter : List Nat → List Nat) (h : ListsMembers iter) (t : ScaleType) :
    sortByKey (fun i : Nat => (i : ℚ)) (iter (scaleIntervals t)) = scalesTable t := by
  have hp : (sortByKey (fun i : Nat => (i : ℚ)) (iter (scaleIntervals t))).Perm (scalesTable t) := by
    refine (sortByKey_perm _ _).trans ((h _).trans ?_)
    cases t <;> exact List.Perm.refl _
  refine hp.eq_of_pairwise (le := fun a b : Nat => a ≤ b) (fun a b _ _ h1 h2 => le_antisymm h1 h2) ?_ ?_
  · exact (sortByKey_sorted (fun i : Nat => (i : ℚ)) _).imp (fun hab => by exact_mod_cast hab)
  · cases t <;> decide

theorem simple_scale (t : ScaleType) : simpleIntervals (scalesTable t) = .ok (scalesTable t) := by
  cases t <;> decide

theorem listIndex_eq (x : String) :
    listIndex noteNames x = if x ∈ noteNames then .ok (noteNames.idxOf x) else .error .value := rfl

theorem upper_noteNames : ∀ s ∈ noteNames, pyUpper s = s := by decide +kernel

theorem notesFromScale_eq (iter : List Nat → List Nat) (h : ListsMembers iter) (s : String)
    (t : ScaleType) :
    notesFromScale iter (.name s) (.member t) =
      if s ∈ noteNames then .ok ((scalesTable t).map (noteAt (noteNames.idxOf s)))
      else .error .value := by
  simp only [notesFromScale, ScaleArg.resolve, bind, Except.bind]
  by_cases hs : s ∈ noteNames
  · rw [upper_noteNames s hs]
    simp only [hs, if_true, listIndex, sorted_scale iter h, simple_scale]
  · by_cases hu : pyUpper s ∈ noteNames
    · simp only [hs, hu, if_true, if_false, listIndex]
    · simp only [hs, hu, if_false]

/-- C68 (degrees): for every root among the twelve names, every scale and every iteration order of the
set of intervals, the result has seven notes, note `k` lies the sum of the first `k` steps of the
textbook pattern above the root (so note 0 is the root itself), the seven notes are different and the
seven steps make an octave. -/
theorem C68_notes (iter : List Nat → List Nat) (h : ListsMembers iter) (r : Nat) (hr : r < 12)
    (t : ScaleType) :
    ∃ notes, notesFromScale iter (.name (specName r)) (.member t) = .ok notes ∧
      notes.length = 7 ∧ (∀ k, k < 7 → notes[k]? = some (specName (r + specDegree t k))) ∧
      notes.head? = some (specName r) ∧ notes.Nodup ∧ specDegree t 7 = 12 := by
  have hm : specName r ∈ noteNames ∧ noteNames.idxOf (specName r) = r := by
    have : ∀ r : Fin 12, specName r ∈ noteNames ∧ noteNames.idxOf (specName r) = r := by
      decide +kernel
    exact this ⟨r, hr⟩
  refine ⟨(scalesTable t).map (noteAt r), ?_, ?_, ?_, ?_, ?_, ?_⟩
  · rw [notesFromScale_eq iter h, if_pos hm.1, hm.2]
  · cases t <;> rfl
  · intro k hk
    have : ∀ t : ScaleType, ∀ k : Fin 7, (scalesTable t)[(k : Nat)]? = some (specDegree t k) := by
      intro t; cases t <;> decide
    rw [List.getElem?_map, this t ⟨k, hk⟩]
    rfl
  · have : (scalesTable t).head? = some 0 := by cases t <;> rfl
    rw [List.head?_map, this]
    rfl
  · have : ∀ t ∈ ScaleType.all, ∀ r : Fin 12, ((scalesTable t).map (noteAt r)).Nodup := by
      decide +kernel
    exact this t (mem_allScales t) ⟨r, hr⟩
  · cases t <;> rfl

example : notesFromScale id (.name "C") (.member .major) = .ok ["C", "D", "E", "F", "G", "A", "B"] ∧
    notesFromScale List.reverse (.name "F#") (.text "mixolydian") =
      .ok ["F#", "G#", "A#", "B", "C#", "D#", "E"] := by decide +kernel

/-- C68 (transposition): moving the root by `d` semitones moves every note of the scale by `d`
semitones. -/
theorem C68_transpose (iter : List Nat → List Nat) (h : ListsMembers iter) (r d : Nat) (hr : r < 12)
    (t : ScaleType) (notes moved : List String)
    (h1 : notesFromScale iter (.name (specName r)) (.member t) = .ok notes)
    (h2 : notesFromScale iter (.name (specName (r + d))) (.member t) = .ok moved) :
    moved = notes.map (fun n => specName (noteNames.idxOf n + d)) := by
  have hs : specName (r + d) = specName ((r + d) % 12) := by simp [specName]
  obtain ⟨n1, e1, l1, p1, _⟩ := C68_notes iter h r hr t
  obtain ⟨n2, e2, l2, p2, _⟩ := C68_notes iter h ((r + d) % 12) (Nat.mod_lt _ (by decide)) t
  rw [h1] at e1
  rw [hs, e2] at h2
  cases e1; cases h2
  apply List.ext_getElem?
  intro k
  by_cases hk : k < 7
  · rw [p2 k hk, List.getElem?_map, p1 k hk, Option.map_some]
    have hi : ∀ m : Nat, noteNames.idxOf (specName m) = m % 12 := by
      intro m
      have : ∀ r : Fin 12, noteNames.idxOf (specName r) = r := by decide +kernel
      have e : specName m = specName (m % 12) := by simp [specName]
      rw [e]
      exact this ⟨m % 12, Nat.mod_lt _ (by decide)⟩
    rw [hi]
    have : ((r + d) % 12 + specDegree t k) % 12 = ((r + specDegree t k) % 12 + d) % 12 := by omega
    simp only [specName, this]
  · rw [List.getElem?_eq_none (by omega), List.getElem?_eq_none (by simp; omega)]

/-- The seven modes: a mode built on degree `k` of a major scale has the notes of that scale, rotated. -/
theorem C68_modes (iter : List Nat → List Nat) (h : ListsMembers iter) (r : Nat) (hr : r < 12)
    (major : List String) (hm : notesFromScale iter (.name (specName r)) (.member .major) = .ok major)
    (k : Nat) (t : ScaleType)
    (hk : (k, t) ∈ [(0, .major), (1, .dorian), (2, .phrygian), (3, .lydian), (4, .mixolydian),
      (5, .aeolian), (5, .minor), (6, ScaleType.locrian)]) :
    notesFromScale iter (.name (specName (r + specDegree .major k))) (.member t) =
      .ok (major.rotate k) := by
  obtain ⟨n1, e1, l1, p1, _⟩ := C68_notes iter h r hr .major
  rw [hm] at e1; cases e1
  have hs : specName (r + specDegree .major k) = specName ((r + specDegree .major k) % 12) := by
    simp [specName]
  obtain ⟨n2, e2, l2, p2, _⟩ :=
    C68_notes iter h ((r + specDegree .major k) % 12) (Nat.mod_lt _ (by decide)) t
  rw [hs, e2]
  congr 1
  apply List.ext_getElem?
  intro j
  have hk7 : k < 7 := by
    simp only [List.mem_cons, Prod.mk.injEq, List.not_mem_nil, or_false] at hk
    rcases hk with h | h | h | h | h | h | h | h <;> omega
  by_cases hj : j < 7
  · rw [p2 j hj, List.getElem?_rotate (by omega), l1, p1 _ (Nat.mod_lt _ (by decide))]
    have : (specDegree .major k + specDegree t j) % 12 = specDegree .major ((j + k) % 7) % 12 := by
      have all : ∀ p ∈ [(0, ScaleType.major), (1, .dorian), (2, .phrygian), (3, .lydian),
          (4, .mixolydian), (5, .aeolian), (5, .minor), (6, ScaleType.locrian)], ∀ j : Fin 7,
          (specDegree .major p.1 + specDegree p.2 j) % 12 = specDegree .major ((j + p.1) % 7) % 12 := by
        decide
      exact all (k, t) hk ⟨j, hj⟩
    have e : ((r + specDegree .major k) % 12 + specDegree t j) % 12 =
        (r + specDegree .major ((j + k) % 7)) % 12 := by omega
    simp only [specName, e]
  · rw [List.getElem?_eq_none (by omega), List.getElem?_eq_none (by simp; omega)]

/-- C68 (which arguments are accepted): a text root is accepted exactly when it is one of the twelve
names as written (lower case is refused although the check before it is case-insensitive), a number is
never accepted, and a text scale is accepted exactly when it is the value of a member, with the result
of that member; every refusal is a ValueError. -/
theorem C68_accepts (iter : List Nat → List Nat) (h : ListsMembers iter) :
    (∀ s t, (∃ notes, notesFromScale iter (.name s) (.member t) = .ok notes) ↔
      s ∈ ["C", "C#", "D", "D#", "E", "F", "F#", "G", "G#", "A", "A#", "B"]) ∧
    (∀ s t, s ∉ ["C", "C#", "D", "D#", "E", "F", "F#", "G", "G#", "A", "A#", "B"] →
      notesFromScale iter (.name s) (.member t) = .error .value) ∧
    (∀ n t, notesFromScale iter (.num n) t = .error .value) ∧
    (∀ root t, notesFromScale iter root (.text t.value) = notesFromScale iter root (.member t)) ∧
    (∀ root s, (∀ t : ScaleType, t.value ≠ s) → notesFromScale iter root (.text s) = .error .value) := by
  have hof : ∀ t : ScaleType, ScaleType.ofValue t.value = .ok t := by
    intro t; cases t <;> decide
  have hno : ∀ s, (∀ t : ScaleType, t.value ≠ s) → ScaleType.ofValue s = .error .value := by
    intro s hs
    unfold ScaleType.ofValue
    have : ScaleType.all.find? (fun t => t.value = s) = none := by
      rw [List.find?_eq_none]
      intro t _
      simpa using hs t
    rw [this]
  refine ⟨?_, ?_, ?_, ?_, ?_⟩
  · intro s t
    rw [notesFromScale_eq iter h]
    by_cases hs : s ∈ noteNames
    · simp only [hs, if_true]
      exact ⟨fun _ => hs, fun _ => ⟨_, rfl⟩⟩
    · simp only [hs, if_false]
      exact ⟨fun ⟨_, e⟩ => (nomatch e), fun e => absurd e hs⟩
  · intro s t hs
    rw [notesFromScale_eq iter h]
    exact if_neg hs
  · intro n t
    cases t with
    | member t => rfl
    | text s =>
      simp only [notesFromScale, ScaleArg.resolve, bind, Except.bind, ScaleType.ofValue]
      split <;> rename_i e <;> split at e <;> first | (cases e; rfl) | cases e
      all_goals rfl
  · intro root t
    simp only [notesFromScale, ScaleArg.resolve, bind, Except.bind, hof]
  · intro root s hs
    simp only [notesFromScale, ScaleArg.resolve, bind, Except.bind, hno s hs]

example : ListsMembers id := fun _ => List.Perm.refl _
example : notesFromScale id (.name "c") (.member .major) = .error .value := by decide +kernel

/-- The two tables of scales and the lookup `intervals_from_scale` agree; that lookup takes the name of
the scale in any case, unlike `notes_from_scale`. -/
theorem C68_tables (t : ScaleType) :
    intervalsFromScale (.member t) = .ok (scalesTable t) ∧
    intervalsFromScale (.text t.value) = .ok (scalesTable t) ∧
    intervalsFromScale (.text (pyUpper t.value)) = .ok (scalesTable t) := by
  have : ∀ t ∈ ScaleType.all, intervalsFromScale (.member t) = .ok (scalesTable t) ∧
    intervalsFromScale (.text t.value) = .ok (scalesTable t) ∧
    intervalsFromScale (.text (pyUpper t.value)) = .ok (scalesTable t) := by decide +kernel
  exact this t (mem_allScales t)

/-! ### Triads -/

/-- The quality of the triad on degree `i`, from the step pattern: semitones of the two thirds. -/
def specThirds (t : ScaleType) (i : Nat) : Nat × Nat :=
  let d := fun k => specDegree t (k % 7) + 12 * (k / 7)
  (d (i + 2) - d i, d (i + 4) - d (i + 2))

/-- The name of a triad with these thirds. -/
def specQuality : Nat × Nat → String
  | (4, 3) => "maj" | (3, 4) => "min" | (3, 3) => "dim" | (4, 4) => "aug" | _ => "?"

theorem Root.pitch_ok (bad : Err) (root : Root) (r : Nat) (h : root.pitch bad = .ok r) : r < 12 := by
  cases root with
  | num n =>
    simp only [Root.pitch] at h
    split at h
    · cases h; omega
    · cases h
  | name s =>
    simp only [Root.pitch] at h
    split at h
    · rename_i hs
      cases h
      exact List.idxOf_lt_length_iff.2 hs
    · cases h

/-- C68 (triads): `triads_from_scale_tuple` accepts numbers 0..11 and names in either case; triad `i`
is made of the degrees `i`, `i + 2`, `i + 4` (modulo 7) of the scale. -/
theorem C68_triads (iter : List Nat → List Nat) (h : ListsMembers iter) (root : Root) (r : Nat)
    (hroot : (∃ bad, root.pitch bad = .ok r)) (t : ScaleType) :
    ∃ ts, triadsFromScaleTuple iter root (.member t) = .ok ts ∧ ts.length = 7 ∧
      (∀ i, i < 7 → ∃ q, ts[i]? = some ([specName (r + specDegree t i),
        specName (r + specDegree t ((i + 2) % 7)), specName (r + specDegree t ((i + 4) % 7))], q)) ∧
      triadsFromScale iter root (.member t) = .ok (ts.map (fun p => String.join p.1)) := by
  have hr : ∀ bad, root.pitch bad = .ok r := by
    obtain ⟨b, hb⟩ := hroot
    intro bad
    cases root with
    | num n => exact hb
    | name s =>
      simp only [Root.pitch] at hb ⊢
      split at hb
      · rename_i hs; simp only [hs, if_true]; exact hb
      · cases hb
  have hl : ((scalesTable t).map (noteAt r)).length = 7 := by cases t <;> rfl
  refine ⟨(List.range 7).map (fun i => (triadAt ((scalesTable t).map (noteAt r)) i,
    (dget chordNameMapping ((chordTypes t).getD i "")).getD "")), ?_, ?_, ?_, ?_⟩
  · simp only [triadsFromScaleTuple, ScaleArg.resolve, bind, Except.bind, hr, sorted_scale iter h,
      simple_scale, hl]
  · simp
  · intro i hi
    refine ⟨(dget chordNameMapping ((chordTypes t).getD i "")).getD "", ?_⟩
    rw [List.getElem?_map, List.getElem?_range hi, Option.map_some]
    have hg : ∀ k, k < 7 → ((scalesTable t).map (noteAt r)).getD k "" = specName (r + specDegree t k) := by
      intro k hk
      have : ∀ t : ScaleType, ∀ k : Fin 7, (scalesTable t)[(k : Nat)]? = some (specDegree t k) := by
        intro t; cases t <;> decide
      rw [List.getD_eq_getElem?_getD, List.getElem?_map, this t ⟨k, hk⟩]
      rfl
    simp only [triadAt, hl]
    rw [hg i hi, hg _ (Nat.mod_lt _ (by decide)), hg _ (Nat.mod_lt _ (by decide))]
  · simp only [triadsFromScale, ScaleArg.resolve, bind, Except.bind, hr, sorted_scale iter h,
      simple_scale, hl, List.map_map]
    rfl

example : Root.pitch .key (.name "c#") = .ok 1 := by decide +kernel

/-- C68 (triad types): the announced types are those of the triads exactly for six scales;
for dorian, phrygian, mixolydian and locrian some triad is misnamed. -/
theorem C68_triad_types (iter : List Nat → List Nat) (h : ListsMembers iter) (root : Root) (r : Nat)
    (hroot : root.pitch .key = .ok r) (t : ScaleType) (ts : List (List String × String))
    (ht : triadsFromScaleTuple iter root (.member t) = .ok ts) :
    ts.map Prod.snd = (List.range 7).map (fun i => specQuality (specThirds t i)) ↔
      t ∈ [ScaleType.major, .minor, .lydian, .aeolian, .harmonicMinor, .melodicMinor] := by
  have hl : ((scalesTable t).map (noteAt r)).length = 7 := by cases t <;> rfl
  simp only [triadsFromScaleTuple, ScaleArg.resolve, bind, Except.bind, hroot, sorted_scale iter h,
      simple_scale, hl, Except.ok.injEq] at ht
  rw [← ht, List.map_map]
  have : ∀ t ∈ ScaleType.all, ((List.range 7).map (fun i =>
      (dget chordNameMapping ((chordTypes t).getD i "")).getD "") =
      (List.range 7).map (fun i => specQuality (specThirds t i)) ↔
      t ∈ [ScaleType.major, .minor, .lydian, .aeolian, .harmonicMinor, .melodicMinor]) := by decide +kernel
  exact this t (mem_allScales t)

/-- `chord_from_scale_name_extended` ignores the scale: for every accepted root and scale it returns
the root followed by each of the 23 chord names, in table order. -/
theorem C68_extended (iter : List Nat → List Nat) (h : ListsMembers iter) (s : String) (t : ScaleType)
    (hs : s ∈ noteNames) :
    chordsExtended iter s (.member t) = .ok (chordIntervals.map (fun p => s ++ p.1)) := by
  have hl : ((scalesTable t).map (noteAt (noteNames.idxOf s))).length = 7 := by cases t <;> rfl
  simp only [chordsExtended, notesFromScale_eq iter h, hs, if_true, bind, Except.bind]
  congr 2
  rw [List.filter_eq_self]
  intro p _
  rw [List.all_eq_true]
  intro n hn
  rw [List.mem_map] at hn
  obtain ⟨i, _, rfl⟩ := hn
  rw [decide_eq_true_iff, hl]
  have hi : (i % 7).toNat < 7 := by omega
  have : ((scalesTable t).map (noteAt (noteNames.idxOf s))).getD (i % 7).toNat "" =
      ((scalesTable t).map (noteAt (noteNames.idxOf s)))[(i % 7).toNat]'(by rw [hl]; exact hi) := by
    rw [List.getD_eq_getElem?_getD, List.getElem?_eq_getElem (by rw [hl]; exact hi), Option.getD_some]
  show ((scalesTable t).map (noteAt (noteNames.idxOf s))).getD (i % ((7 : Nat) : Int)).toNat "" ∈ _
  rw [show (((7 : Nat) : Int)) = 7 from rfl, this]
  exact List.getElem_mem _

/-! ### Intervals -/

/-- C69: every interval size splits into a base within 0..11 and a non-negative octave count, and
putting them together gives the size back; every valid base and octave count survive the reverse
trip. Both functions refuse exactly the arguments outside these ranges. -/
theorem C69_round_trip :
    (∀ v : Int, 0 ≤ v → ∃ base oct, compoundToBase v = .ok (base, oct) ∧ 0 ≤ base ∧ base ≤ 11 ∧
      0 ≤ oct ∧ baseToCompound base oct = .ok v) ∧
    (∀ base oct : Int, 0 ≤ base → base ≤ 11 → 0 ≤ oct →
      ∃ v, baseToCompound base oct = .ok v ∧ 0 ≤ v ∧ compoundToBase v = .ok (base, oct)) ∧
    (∀ v : Int, v < 0 → compoundToBase v = .error .value) ∧
    (∀ base oct : Int, (base < 0 ∨ 11 < base ∨ oct < 0) → baseToCompound base oct = .error .value) := by
  refine ⟨?_, ?_, ?_, ?_⟩
  · intro v hv
    refine ⟨v % 12, v / 12, ?_, by omega, by omega, by omega, ?_⟩
    · rw [compoundToBase, if_neg (by omega)]
    · rw [baseToCompound, if_neg (by omega), if_neg (by omega)]
      congr 1; omega
  · intro b o h0 h1 h2
    refine ⟨o * 12 + b, ?_, by omega, ?_⟩
    · rw [baseToCompound, if_neg (by omega), if_neg (by omega)]
    · rw [compoundToBase, if_neg (by omega)]
      congr 2 <;> omega
  · intro v hv; rw [compoundToBase, if_pos hv]
  · intro b o h
    rw [baseToCompound]
    split
    · rfl
    · rw [if_pos (by omega)]

example : compoundToBase 25 = .ok (1, 2) ∧ baseToCompound 1 2 = .ok 25 := by decide

/-- C69 (sum of two intervals): the compound of two intervals is their sum when that is at most 22
semitones, the largest interval there is, and a ValueError beyond; it is commutative. -/
theorem C69_compound (a b : Nat) :
    compoundFromBases a b = (if a + b ≤ 22 then .ok (a + b) else .error .value) ∧
    compoundFromBases a b = compoundFromBases b a := by
  have e : ∀ a b : Nat, compoundFromBases a b = (if a + b ≤ 22 then .ok (a + b) else .error .value) := by
    intro a b
    have : ((a : Int) + b) / 12 * 12 + ((a : Int) + b - ((a : Int) + b) / 12 * 12) = a + b := by omega
    simp only [compoundFromBases, this, fromSemitones]
    by_cases h : a + b ≤ 22
    · rw [if_pos h, if_pos (by omega)]
      congr 1
    · rw [if_neg h, if_neg (by omega)]
  exact ⟨e a b, by rw [e a b, e b a, Nat.add_comm]⟩

/-- C69 (parts): the parts of every interval add up to it. -/
theorem C69_bases (v : Nat) (hv : v ≤ 22) : (basesOf v).sum = v ∧ basesOf v ≠ [] := by
  have : ∀ v : Fin 23, (basesOf v).sum = v ∧ basesOf v ≠ [] := by decide
  exact this ⟨v, by omega⟩

/-- C69 (inversion, refuted): an interval and its inverse do not make an octave, except for the unison
and the octave: they add up to an octave for each part of the interval, two or three. -/
theorem C69_inverse_refuted (v : Nat) (hv : v ≤ 22) :
    inverseCompound v + v = 12 * (basesOf v).length ∧
    (inverseCompound v + v = 12 ↔ v = 0 ∨ v = 12) := by
  have : ∀ v : Fin 23, inverseCompound v + v = 12 * (basesOf v).length ∧
    (inverseCompound v + v = 12 ↔ (v : Nat) = 0 ∨ (v : Nat) = 12) := by decide
  exact this ⟨v, by omega⟩

example : inverseCompound 2 = 34 ∧ inverseCompound 12 = 0 := by decide

/-! ### Names of pitches -/

theorem intStr_ne_nil (z : Int) : intStr z ≠ [] := by
  cases z with
  | ofNat n => exact decStr_ne_nil n
  | negSucc n => simp [intStr]

theorem hash_notMem_decStr (n : Nat) : '#' ∉ decStr n := by
  intro h
  obtain ⟨d, _, e⟩ := mem_decStr h
  revert e
  rcases d with _ | _ | _ | _ | _ | _ | _ | _ | _ | d <;> (unfold digitChar; simp)

theorem dash_notMem_decStr (n : Nat) : '-' ∉ decStr n := by
  intro h
  obtain ⟨d, _, e⟩ := mem_decStr h
  revert e
  rcases d with _ | _ | _ | _ | _ | _ | _ | _ | _ | d <;> (unfold digitChar; simp)

theorem hash_notMem_intStr (z : Int) : '#' ∉ intStr z := by
  cases z with
  | ofNat n => exact hash_notMem_decStr n
  | negSucc n =>
    simp only [intStr, List.mem_cons, not_or]
    exact ⟨by decide, hash_notMem_decStr _⟩

theorem intStr_inj {x y : Int} (h : intStr x = intStr y) : x = y := by
  cases x with
  | ofNat m =>
    cases y with
    | ofNat n => rw [decStr_inj h]
    | negSucc n =>
      simp only [intStr] at h
      exact absurd (by rw [h]; simp) (dash_notMem_decStr m)
  | negSucc m =>
    cases y with
    | ofNat n =>
      simp only [intStr] at h
      exact absurd (by rw [← h]; simp) (dash_notMem_decStr n)
    | negSucc n =>
      simp only [intStr, List.cons.injEq, true_and] at h
      have := decStr_inj h
      omega

theorem name_append_inj (a b : Fin 12) (x y : List Char) (hx : '#' ∉ x) (hy : '#' ∉ y)
    (h : (noteNames.getD a "").toList ++ x = (noteNames.getD b "").toList ++ y) : a = b ∧ x = y := by
  have hn : ∀ a : Fin 12, ∃ c : Char, ((noteNames.getD a "").toList = [c] ∨
      (noteNames.getD a "").toList = [c, '#']) := by
    intro a
    have : ∀ a : Fin 12, (noteNames.getD a "").toList = [(noteNames.getD a "").toList.headD ' '] ∨
      (noteNames.getD a "").toList = [(noteNames.getD a "").toList.headD ' ', '#'] := by decide +kernel
    exact ⟨_, this a⟩
  have hinj : ∀ a b : Fin 12, (noteNames.getD a "").toList = (noteNames.getD b "").toList → a = b := by
    decide +kernel
  obtain ⟨c, hc⟩ := hn a
  obtain ⟨d, hd⟩ := hn b
  rcases hc with hc | hc <;> rcases hd with hd | hd <;> rw [hc, hd] at h <;> simp at h
  · exact ⟨hinj a b (by rw [hc, hd, h.1]), h.2⟩
  · exact absurd (by rw [h.2]; simp) hx
  · exact absurd (by rw [← h.2]; simp) hy
  · exact ⟨hinj a b (by rw [hc, hd, h.1]), h.2⟩

/-- C70: different pitches have different names, so the name determines the pitch; for every integer. -/
theorem C70_injective (p q : Int) (h : pitchToNote p = pitchToNote q) : p = q := by
  have hp : (p % 12).toNat < 12 := by omega
  have hq : (q % 12).toNat < 12 := by omega
  obtain ⟨h1, h2⟩ := name_append_inj ⟨_, hp⟩ ⟨_, hq⟩ _ _ (hash_notMem_intStr _) (hash_notMem_intStr _) h
  have h1' : (p % 12).toNat = (q % 12).toNat := congrArg Fin.val h1
  have h3 := intStr_inj h2
  omega

/-- C70 (decoding): the name is the chromatic name of the pitch class followed by the number of the
octave, counted from 0 for the pitches 0..11: `12 * octave + index` is the pitch. -/
theorem C70_parts (o : Int) (k : Nat) (hk : k < 12) :
    pitchToNote (12 * o + k) = (specName k).toList ++ intStr o := by
  have e1 : ((12 * o + (k : Int)) % 12).toNat = k := by omega
  have e2 : (12 * o + (k : Int)) / 12 = o := by omega
  rw [pitchToNote, e1, e2, specName, Nat.mod_eq_of_lt hk]

example : pitchToNote 60 = "C5".toList ∧ pitchToNote 127 = "G10".toList ∧
    pitchToNote (-1) = "B-1".toList := by decide +kernel

/-! ### Chords -/

theorem getChordName_some (l : List Int) (n : String) (h : getChordName l = some n) :
    getChordIntervals n = .ok l := by
  unfold getChordName at h
  rw [Option.map_eq_some_iff] at h
  obtain ⟨p, hp, rfl⟩ := h
  have hm := List.mem_of_find?_eq_some hp
  have hl := List.find?_some hp
  simp only [decide_eq_true_eq] at hl
  have : dget chordIntervals p.1 = some p.2 := dget_of_mem _ (by decide) _ _ hm
  rw [getChordIntervals, this, hl]

/-- C71 (soundness): for every list of intervals, if either lookup returns a name, the intervals of
that name are the list; if the list is the intervals of some name, both return a name. -/
theorem C71_sound (l : List Int) :
    (∀ n, getChordName l = some n → getChordIntervals n = .ok l) ∧
    (∀ n, getChordNameFromIntervals l = some n → getChordIntervals n = .ok l) ∧
    (∀ n, getChordIntervals n = .ok l →
      (∃ m, getChordName l = some m) ∧ ∃ m, getChordNameFromIntervals l = some m) := by
  refine ⟨getChordName_some l, ?_, ?_⟩
  · intro n h
    have hm := dget_mem _ _ _ h
    have : ∀ p ∈ chordIntervalsReverse, getChordIntervals p.2 = .ok p.1 := by decide
    exact this _ hm
  · intro n h
    unfold getChordIntervals at h
    split at h
    · rename_i l' e
      cases h
      have hm := dget_mem _ _ _ e
      have : ∀ p ∈ chordIntervals, (getChordName p.2).isSome ∧ (getChordNameFromIntervals p.2).isSome := by
        decide
      obtain ⟨h1, h2⟩ := this _ hm
      exact ⟨Option.isSome_iff_exists.1 h1, Option.isSome_iff_exists.1 h2⟩
    · cases h

/-- C71 (round trip): looking up the intervals of a chord name gives the name back, for every name of
the table except `aug7`, which comes back as `M7` because both have the same intervals; the lookup by
tuple gives every name back except `M7`, which comes back as `aug7`. -/
theorem C71_round_trip (n : String) (l : List Int) (h : getChordIntervals n = .ok l) :
    getChordName l = some (if n = "aug7" then "M7" else n) ∧
    getChordNameFromIntervals l = some (if n = "M7" then "aug7" else n) := by
  unfold getChordIntervals at h
  split at h
  · rename_i l' e
    cases h
    have hm := dget_mem _ _ _ e
    have : ∀ p ∈ chordIntervals, getChordName p.2 = some (if p.1 = "aug7" then "M7" else p.1) ∧
        getChordNameFromIntervals p.2 = some (if p.1 = "M7" then "aug7" else p.1) := by decide
    exact this _ hm
  · cases h

/-- C71 (disagreement): the two lookups agree on every list except `[4, 3, 4]`, where one says `M7` and
the other `aug7`. -/
theorem C71_lookups (l : List Int) :
    (getChordName l = getChordNameFromIntervals l ↔ l ≠ [4, 3, 4]) ∧
    getChordName [4, 3, 4] = some "M7" ∧ getChordNameFromIntervals [4, 3, 4] = some "aug7" := by
  refine ⟨⟨?_, ?_⟩, by decide, by decide⟩
  · intro h e
    subst e
    exact absurd h (by decide)
  · intro hl
    by_cases hk : ∃ n, getChordIntervals n = .ok l
    · obtain ⟨n, hn⟩ := hk
      obtain ⟨h1, h2⟩ := C71_round_trip n l hn
      have hne : n ≠ "aug7" ∧ n ≠ "M7" := by
        constructor <;> rintro rfl <;> (have : (.ok l : Py (List Int)) = .ok [4, 3, 4] := hn.symm.trans (by decide)) <;> cases this <;> exact hl rfl
      rw [h1, h2, if_neg hne.1, if_neg hne.2]
    · obtain ⟨s1, s2, _⟩ := C71_sound l
      have h1 : getChordName l = none := by
        cases e : getChordName l with
        | none => rfl
        | some n => exact absurd ⟨n, s1 n e⟩ hk
      have h2 : getChordNameFromIntervals l = none := by
        cases e : getChordNameFromIntervals l with
        | none => rfl
        | some n => exact absurd ⟨n, s2 n e⟩ hk
      rw [h1, h2]

example : getChordIntervals "m7b5" = .ok [3, 3, 4] := by decide

theorem chordPitches_members (r : Nat) (l : List Nat) :
    chordPitches r (l.map .member) =
      if ∀ i ∈ l, i ≤ 12 then .ok (l.map (fun i => (r + i) % 12)) else .error .key := by
  induction l with
  | nil => simp [chordPitches]
  | cons i is ih =>
    simp only [List.map_cons, chordPitches, IntervalArg.resolve, bind, Except.bind, simpleInterval]
    by_cases hi : i ≤ 12
    · simp only [hi, if_true, ih, List.forall_mem_cons, true_and]
      by_cases ha : ∀ i ∈ is, i ≤ 12
      · simp only [if_pos ha]
      · simp only [if_neg ha]
    · simp only [hi, if_false, List.forall_mem_cons, false_and]

theorem allMember (l : List Nat) : (l.map IntervalArg.member).all IntervalArg.isMember = true := by
  rw [List.all_map, List.all_eq_true]; intro _ _; rfl

/-- C71 (pitches): with interval members, every root given as a number 0..11 or as a name in either
case, the pitches are the root plus each interval modulo 12, in order; an interval beyond the octave is
a KeyError. -/
theorem C71_pitches (root : Root) (r : Nat) (hroot : root.pitch .value = .ok r) (l : List Nat) :
    chordPitchFromInterval root (l.map .member) =
      if ∀ i ∈ l, i ≤ 12 then .ok (l.map (fun i => (r + i) % 12)) else .error .key := by
  simp only [chordPitchFromInterval, allMember, Bool.not_true, Bool.and_false, Bool.false_eq_true,
    if_false, bind, Except.bind, hroot, pure, Except.pure]
  exact chordPitches_members r l

/-- C71 (transposition): moving the root moves every pitch of the chord. -/
theorem C71_transpose (r d : Nat) (hr : r + d < 12) (l : List Nat) (ps : List Nat)
    (h : chordPitchFromInterval (.num r) (l.map .member) = .ok ps) :
    chordPitchFromInterval (.num (r + d : Nat)) (l.map .member) = .ok (ps.map (fun p => (p + d) % 12)) := by
  have e : ∀ r : Nat, r < 12 → Root.pitch .value (.num r) = .ok r := by
    intro r hr
    rw [Root.pitch, if_pos (by omega)]
    congr 1
  rw [C71_pitches _ _ (e r (by omega))] at h
  rw [C71_pitches _ _ (e (r + d) hr)]
  by_cases hl : ∀ i ∈ l, i ≤ 12
  · rw [if_pos hl] at h ⊢
    cases h
    rw [List.map_map]
    congr 1
    apply List.map_congr_left
    intro i _
    simp only [Function.comp]
    omega
  · rw [if_neg hl] at h; cases h

/-- C71 (text intervals, refuted): a text is put in upper case before the lookup, so a minor interval
is read as the major one and `d5` is unknown: a minor triad written as in the documentation comes out
major. -/
theorem C71_text_refuted (r : Nat) (hr : r < 12) :
    chordPitchFromInterval (.num r) [.text "P1", .text "m3", .text "P5"] =
      .ok [r, (r + 4) % 12, (r + 7) % 12] ∧
    chordPitchFromInterval (.num r) [.text "P1", .text "d5"] = .error .key ∧
    (∀ n ∈ [2, 3, 6, 7, 9, 10, 11, 13], ∀ s ∈ [s!"m{n}"],
      IntervalArg.resolve (.text s) = IntervalArg.resolve (.text s!"M{n}")) := by
  have h1 : ∀ r : Fin 12, chordPitchFromInterval (.num (r : Nat)) [.text "P1", .text "m3", .text "P5"] =
      .ok [(r : Nat), (r + 4) % 12, (r + 7) % 12] ∧
      chordPitchFromInterval (.num (r : Nat)) [.text "P1", .text "d5"] = .error .key := by
    decide +kernel
  refine ⟨(h1 ⟨r, hr⟩).1, (h1 ⟨r, hr⟩).2, ?_⟩
  decide +kernel

/-- The notes a chord type should have: the intervals stacked above the root. -/
def specStack (ivs : List Int) : List Int := (List.range (ivs.length + 1)).map (fun k => (ivs.take k).sum)

/-- C71 (the two chord tables): stacking the intervals of one table gives the intervals from the root
in the other, for every name except exactly `dim7`, `aug7`, `13`, `M13`, `m13`; the names are the
same. -/
theorem C71_tables :
    chordIntervals.map Prod.fst = chordIntervalsMapping.map Prod.fst ∧
    ∀ n l m, dget chordIntervals n = some l → dget chordIntervalsMapping n = some m →
      (specStack l = m.map (fun i => (i : Int)) ↔ n ∉ ["dim7", "aug7", "13", "M13", "m13"]) := by
  refine ⟨by decide, ?_⟩
  intro n l m h1 h2
  have hm := dget_mem _ _ _ h1
  have : ∀ p ∈ chordIntervals, ∀ m, dget chordIntervalsMapping p.1 = some m →
      (specStack p.2 = m.map (fun i => (i : Int)) ↔ p.1 ∉ ["dim7", "aug7", "13", "M13", "m13"]) := by
    have h : ∀ p ∈ chordIntervals,
        (specStack p.2 = ((dget chordIntervalsMapping p.1).getD []).map (fun i => (i : Int)) ↔
          p.1 ∉ ["dim7", "aug7", "13", "M13", "m13"]) := by decide
    intro p hp m hm
    have := h p hp
    rw [hm] at this
    exact this
  exact this _ hm m h2

/-- C71 (the disagreements): the two answers, stacked and from the root, for each of the five chord types
on which the tables disagree. -/
theorem C71_tables_disagree :
    [("dim7", [0, 3, 6, 9], [0, 3, 6, 10]), ("aug7", [0, 4, 7, 11], [0, 4, 8, 10]),
     ("13", [0, 4, 7, 10, 14, 17, 21], [0, 4, 7, 10, 14, 21]),
     ("M13", [0, 4, 7, 11, 14, 17, 21], [0, 4, 7, 11, 14, 21]),
     ("m13", [0, 3, 7, 10, 14, 17, 21], [0, 3, 7, 10, 14, 21])].map
      (fun p => (p.1, some p.2.1, some p.2.2)) =
    ["dim7", "aug7", "13", "M13", "m13"].map (fun n =>
      (n, (dget chordIntervals n).map specStack, dget chordIntervalsMapping n)) := by decide +kernel

/-- C71 (`chord_from_scale`): the root is everything but the last character, and the type is that one
character: for each of the twelve roots the chord is the root plus the intervals of `M`, `m`, `7` or
`6`; `9` is a KeyError because of its interval beyond the octave; any other last character is an
AssertionError, so `Cm7` is refused as the root `Cm`, and an empty text is an IndexError. -/
theorem C71_chord_from_scale (r : Nat) (hr : r < 12) :
    (∀ c l, (c, l) ∈ [('M', [0, 4, 7]), ('m', [0, 3, 7]), ('7', [0, 4, 7, 10]), ('6', [0, 4, 7, 9])] →
      chordFromScale ((specName r).toList ++ [c]) = .ok (l.map (fun i => specName (r + i)))) ∧
    chordFromScale ((specName r).toList ++ ['9']) = .error .key ∧
    (∀ c, c ∉ ['M', 'm', '7', '6', '9'] → chordFromScale ((specName r).toList ++ [c]) = .error .assertion) ∧
    (∀ text c, String.ofList text ∉ noteNames → chordFromScale (text ++ [c]) = .error .value) ∧
    chordFromScale [] = .error .index := by
  refine ⟨?_, ?_, ?_, ?_, rfl⟩
  · intro c l hm
    have : ∀ r : Fin 12, ∀ p ∈ [('M', [0, 4, 7]), ('m', [0, 3, 7]), ('7', [0, 4, 7, 10]), ('6', [0, 4, 7, 9])],
        chordFromScale ((specName r).toList ++ [p.1]) = .ok (p.2.map (fun i => specName (r + i))) := by
      decide +kernel
    exact this ⟨r, hr⟩ (c, l) hm
  · have : ∀ r : Fin 12, chordFromScale ((specName r).toList ++ ['9']) = .error .key := by decide +kernel
    exact this ⟨r, hr⟩
  · intro c hc
    have hi : ∀ r : Fin 12, listIndex noteNames (String.ofList (specName r).toList) = .ok (r : Nat) := by
      decide +kernel
    have hd : dget chordIntervalsMapping (String.ofList [c]) = none := by
      rw [dget_eq_none]
      intro hk
      have hall : ∀ s ∈ dkeys chordIntervalsMapping, s.toList.length = 1 → s.toList.headD ' ' ∈ ['M', 'm', '7', '6', '9'] := by
        decide +kernel
      have := hall _ hk (by simp)
      simp only [String.toList_ofList, List.headD_cons] at this
      exact hc this
    simp only [chordFromScale, List.getLast?_append, List.getLast?_singleton, Option.some_or,
      List.dropLast_concat, hi ⟨r, hr⟩, bind, Except.bind, hd]
  · intro text c ht
    simp only [chordFromScale, List.getLast?_append, List.getLast?_singleton, Option.some_or,
      List.dropLast_concat, listIndex, ht, if_false, bind, Except.bind]

example : chordFromScale "F#7".toList = .ok ["F#", "A#", "C#", "E"] ∧
    chordFromScale "Cm7".toList = .error .value := by decide +kernel

/-- `list_of_chords` never succeeds on a non-empty list of intervals. -/
theorem C71_list_of_chords (root : Root) (ivs : List IntervalArg) (l : List String)
    (h : listOfChords root ivs = .ok l) : ivs = [] ∧ l = [] := by
  simp only [listOfChords, bind, Except.bind] at h
  split at h
  · cases h
  · rename_i ps e
    split at h
    · cases h
      refine ⟨?_, rfl⟩
      cases ivs with
      | nil => rfl
      | cons a as =>
        exfalso
        simp only [chordPitchFromInterval, bind, Except.bind] at e
        split at e
        · cases e
        · split at e
          · cases e
          · simp only [chordPitches, bind, Except.bind] at e
            split at e
            · cases e
            · split at e
              · cases e
              · split at e <;> cases e
    · cases h

/-! ### Refusals -/

/-- The texts `ScaleType(...)` accepts. -/
def specScaleTexts : List String :=
  ["major", "minor", "dorian", "phrygian", "lydian", "mixolydian", "aeolian", "locrian",
   "harmonic_minor", "melodic_minor"]

/-- C68 (names of scales): a text is accepted as a scale exactly when it is one of the ten names as
written; `intervals_from_scale` takes them in either case, gives the offsets of the textbook pattern, and
raises a KeyError for every other text. -/
theorem C68_scale_texts (iter : List Nat → List Nat) (h : ListsMembers iter) (r : Nat) (hr : r < 12)
    (s : String) :
    ((∃ notes, notesFromScale iter (.name (specName r)) (.text s) = .ok notes) ↔ s ∈ specScaleTexts) ∧
    (s ∉ specScaleTexts → notesFromScale iter (.name (specName r)) (.text s) = .error .value) ∧
    (pyUpper s ∉ specScaleTexts.map pyUpper → intervalsFromScale (.text s) = .error .key) ∧
    (∀ (k : Nat) t, specScaleTexts[k]? = some t → pyUpper s = pyUpper t → ∃ ty, ScaleType.all[k]? = some ty ∧
      intervalsFromScale (.text s) = .ok ((List.range 7).map (specDegree ty))) := by
  have hv : ScaleType.all.map ScaleType.value = specScaleTexts := by decide
  have hmem : ∀ s, s ∈ specScaleTexts ↔ ∃ t : ScaleType, t.value = s := by
    intro s
    rw [← hv, List.mem_map]
    exact ⟨fun ⟨t, _, e⟩ => ⟨t, e⟩, fun ⟨t, e⟩ => ⟨t, mem_allScales t, e⟩⟩
  obtain ⟨_, _, _, a4, a5⟩ := C68_accepts iter h
  have hno : s ∉ specScaleTexts →
      notesFromScale iter (.name (specName r)) (.text s) = .error .value := fun hs =>
    a5 _ s (fun t e => hs ((hmem s).2 ⟨t, e⟩))
  refine ⟨⟨fun ⟨n, e⟩ => ?_, fun hs => ?_⟩, hno, fun hs => ?_, fun k t hk hu => ?_⟩
  · by_contra hc
    rw [hno hc] at e
    cases e
  · obtain ⟨t, rfl⟩ := (hmem s).1 hs
    rw [a4]
    obtain ⟨n, e, _⟩ := C68_notes iter h r hr t
    exact ⟨n, e⟩
  · have : ScaleType.all.find? (fun t => pyUpper t.value = pyUpper s) = none := by
      rw [List.find?_eq_none]
      intro t _ e
      apply hs
      rw [← of_decide_eq_true e]
      exact List.mem_map.2 ⟨_, (hmem _).2 ⟨t, rfl⟩, rfl⟩
    simp only [intervalsFromScale, this]
  · have hall : ∀ p ∈ specScaleTexts.zipIdx, ∃ ty ∈ ScaleType.all, ScaleType.all[p.2]? = some ty ∧
        (match ScaleType.all.find? (fun t => pyUpper t.value = pyUpper p.1) with
          | some t => (.ok (scaleIntervals t) : Py (List Nat))
          | none => .error .key) = .ok ((List.range 7).map (specDegree ty)) := by decide +kernel
    have hz : (t, k) ∈ specScaleTexts.zipIdx := by
      rw [List.mem_zipIdx_iff_getElem?]
      exact hk
    obtain ⟨ty, _, h1, h2⟩ := hall _ hz
    refine ⟨ty, h1, ?_⟩
    simp only [intervalsFromScale, hu]
    exact h2

/-- The texts `chord_pitch_from_interval` understands, after conversion to upper case. -/
def specIntervalTexts : List (String × Nat) :=
  [("P1", 0), ("M2", 2), ("M3", 4), ("P4", 5), ("P5", 7), ("A5", 8), ("M6", 9), ("M7", 11), ("P8", 12),
   ("M9", 14), ("M10", 16), ("P11", 17), ("A11", 18), ("M11", 17), ("M13", 21), ("P13", 19),
   ("A13", 20), ("M14", 22), ("A4", 6)]

/-- No text in upper case contains a lower-case letter. -/
theorem pyUpper_no_lower (s : String) : ∀ c ∈ (pyUpper s).toList, ¬ c.isLower := by
  intro c hc
  rw [pyUpper, String.toList_ofList, List.mem_map] at hc
  obtain ⟨d, _, rfl⟩ := hc
  have : ∀ d : Char, ¬ (Char.toUpper d).isLower := by
    intro d
    unfold Char.toUpper Char.isLower
    split
    · rename_i hd
      simp only [Bool.and_eq_true, decide_eq_true_eq, UInt32.le_iff_toNat_le, ge_iff_le] at hd ⊢
      intro hx
      obtain ⟨h1, h2⟩ := hd
      obtain ⟨x1, x2⟩ := hx
      simp at h1 h2 x1 x2
      omega
    · rename_i hd
      intro hx
      apply hd
      simp only [Bool.and_eq_true, decide_eq_true_eq] at hx
      exact hx
  exact this d

/-- C71 (texts of intervals): a text is understood exactly when, in upper case, it is one of nineteen
names, and stands for their semitones; every other text is a KeyError. So no minor or diminished
interval and not `Tritone` can be given as a text. -/
theorem C71_interval_texts (s : String) :
    IntervalArg.resolve (.text s) =
      match dget specIntervalTexts (pyUpper s) with
      | some n => .ok n
      | none => .error .key := by
  have hf : ∀ (l : List (String × Nat)) (u : String), (∀ c ∈ u.toList, ¬ c.isLower) →
      dget l u = dget (l.filter (fun p => p.1.toList.all (fun c => !c.isLower))) u := by
    intro l u hu
    induction l with
    | nil => rfl
    | cons p ps ih =>
      obtain ⟨k, v⟩ := p
      rw [List.filter_cons]
      split
      · simp only [dget, ih]
      · rename_i hk
        have hne : k ≠ u := by
          rintro rfl
          apply hk
          simp only [List.all_eq_true]
          intro c hc
          simpa using hu c hc
        simp only [dget, hne, if_false, ih]
  have hs : intervalNames.filter (fun p => p.1.toList.all (fun c => !c.isLower)) = specIntervalTexts := by
    decide +kernel
  rw [IntervalArg.resolve, hf intervalNames _ (pyUpper_no_lower s), hs]
  cases dget specIntervalTexts (pyUpper s) <;> rfl

/-- C71 (refusals): a root outside 0..11 or a name that is not one of the twelve in either case is a
ValueError, a list that mixes members and texts a TypeError whatever the root, an unknown chord name a
KeyError; `list_of_chords` raises what the computation of the pitches raises, and otherwise a KeyError
as soon as there is a pitch. -/
theorem C71_refusals (root : Root) (ivs : List IntervalArg) :
    (∀ a n, .text a ∈ ivs → .member n ∈ ivs → chordPitchFromInterval root ivs = .error .type) ∧
    ((∀ a n, ¬ (.text a ∈ ivs ∧ .member n ∈ ivs)) →
      (∀ z : Int, z < 0 ∨ 11 < z → chordPitchFromInterval (.num z) ivs = .error .value) ∧
      (∀ s, pyUpper s ∉ ["C", "C#", "D", "D#", "E", "F", "F#", "G", "G#", "A", "A#", "B"] →
        chordPitchFromInterval (.name s) ivs = .error .value)) ∧
    (∀ n, n ∉ chordIntervalsMapping.map Prod.fst → getChordIntervals n = .error .key) ∧
    (∀ e, chordPitchFromInterval root ivs = .error e → listOfChords root ivs = .error e) ∧
    (∀ ps, chordPitchFromInterval root ivs = .ok ps →
      listOfChords root ivs = if ivs = [] then .ok [] else .error .key) := by
  refine ⟨?_, ?_, ?_, ?_, ?_⟩
  · intro a n ha hn
    have h1 : ivs.all IntervalArg.isText = false := by
      rw [List.all_eq_false]
      exact ⟨_, hn, by simp [IntervalArg.isText]⟩
    have h2 : ivs.all IntervalArg.isMember = false := by
      rw [List.all_eq_false]
      exact ⟨_, ha, by simp [IntervalArg.isMember]⟩
    simp only [chordPitchFromInterval, h1, h2, Bool.not_false, Bool.and_self, if_true, bind, Except.bind]
  · intro hm
    have hpass : (!(ivs.all IntervalArg.isText) && !(ivs.all IntervalArg.isMember)) = false := by
      by_contra hc
      rw [Bool.not_eq_false, Bool.and_eq_true, Bool.not_eq_true', Bool.not_eq_true',
        List.all_eq_false, List.all_eq_false] at hc
      obtain ⟨⟨x, hx, h1⟩, ⟨y, hy, h2⟩⟩ := hc
      cases x with
      | text _ => exact h1 rfl
      | member n =>
        cases y with
        | member _ => exact h2 rfl
        | text a => exact hm a n ⟨hy, hx⟩
    refine ⟨fun z hz => ?_, fun s hs => ?_⟩
    · have : Root.pitch .value (.num z) = .error .value := by
        rw [Root.pitch, if_neg (by omega)]
      simp only [chordPitchFromInterval, hpass, this, bind, Except.bind, Bool.false_eq_true, if_false,
        pure, Except.pure]
    · have : Root.pitch .value (.name s) = .error .value := by
        exact if_neg hs
      simp only [chordPitchFromInterval, hpass, this, bind, Except.bind, Bool.false_eq_true, if_false,
        pure, Except.pure]
  · intro n hn
    have : dget chordIntervals n = none := by
      rw [dget_eq_none]
      intro hk
      apply hn
      rw [← C71_tables.1]
      exact hk
    simp only [getChordIntervals, this]
  · intro e he
    simp only [listOfChords, he, bind, Except.bind]
  · intro ps hp
    have hnil : ivs = [] ↔ ps = [] := by
      constructor
      · rintro rfl
        simp only [chordPitchFromInterval, bind, Except.bind, List.all_nil, Bool.not_true, Bool.and_self,
          Bool.false_eq_true, if_false, pure, Except.pure, chordPitches] at hp
        split at hp <;> cases hp
        rfl
      · rintro rfl
        have : listOfChords root ivs = .ok [] := by simp only [listOfChords, hp, bind, Except.bind]
        exact (C71_list_of_chords root ivs [] this).1
    by_cases hi : ivs = []
    · rw [if_pos hi]
      simp only [listOfChords, hp, hnil.1 hi, bind, Except.bind]
    · rw [if_neg hi]
      cases ps with
      | nil => exact absurd (hnil.2 rfl) hi
      | cons a as => simp only [listOfChords, hp, bind, Except.bind]

example : chordPitchFromInterval (.num 0) [.text "P1", .member 4] = .error .type ∧
    chordPitchFromInterval (.num 12) [.member 4] = .error .value ∧
    IntervalArg.resolve (.text "tritone") = .error .key ∧
    listOfChords (.name "c") [.member 4] = .error .key := by decide +kernel

end NGC
