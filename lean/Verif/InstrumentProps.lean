import Verif.Instrument

/-! Property theorems C15 about `MidiInstrumentInfo`. -/

namespace NGC

namespace Spec

/-- The sixteen General MIDI families in order. -/
def families : List String :=
  ["Piano", "Chromatic Percussion", "Organ", "Guitar", "Bass", "Strings", "Ensemble", "Brass",
   "Reed", "Pipe", "Synth Lead", "Synth Pad", "Synth Effects", "Ethnic", "Percussive",
   "Sound Effects"]

/-- The family of program number `i` counted from 1: eight programs per family. -/
def family (i : Int) : String :=
  if 1 ≤ i ∧ i ≤ 128 then families.getD ((i - 1).toNat / 8) "" else "Unknown"

end Spec

theorem familyName_of_unique (t : List ((Int × Int) × String)) (i : Int) (s : String)
    (hex : ∃ r ∈ t, r.1.1 ≤ i ∧ i < r.1.2)
    (huniq : ∀ r ∈ t, r.1.1 ≤ i ∧ i < r.1.2 → r.2 = s) : familyName t i = s := by
  induction t with
  | nil => simp at hex
  | cons r rest ih =>
    obtain ⟨⟨lo, hi⟩, s'⟩ := r
    rw [familyName]
    split_ifs with h
    · exact huniq ((lo, hi), s') (by simp) h
    · refine ih ?_ (fun r hr => huniq r (List.mem_cons_of_mem _ hr))
      obtain ⟨r, hr, hh⟩ := hex
      rcases List.mem_cons.1 hr with rfl | hr
      · exact absurd hh h
      · exact ⟨r, hr, hh⟩

theorem familyName_none (t : List ((Int × Int) × String)) (i : Int)
    (h : ∀ r ∈ t, ¬ (r.1.1 ≤ i ∧ i < r.1.2)) : familyName t i = "Unknown" := by
  induction t with
  | nil => rfl
  | cons r rest ih =>
    obtain ⟨⟨lo, hi⟩, s'⟩ := r
    rw [familyName, if_neg (h ((lo, hi), s') (by simp))]
    exact ih (fun r hr => h r (List.mem_cons_of_mem _ hr))

/-- C15: exactly the numbers 0..255 are accepted, and number, flag and a given name are stored. -/
theorem C15_construct (order : List ((Int × Int) × String)) (i : Int) (name : String) (d : Bool) :
    ((∃ x, InstrumentInfo.mk? order i name d = .ok x) ↔ 0 ≤ i ∧ i ≤ 255) ∧
    (∀ e, InstrumentInfo.mk? order i name d = .error e → e = .value) ∧
    (∀ x, InstrumentInfo.mk? order i name d = .ok x →
      x.num = i ∧ x.isDrum = d ∧ (name ≠ "" → x.name = name)) := by
  unfold InstrumentInfo.mk?
  by_cases h : 0 ≤ i ∧ i ≤ 255
  · rw [if_neg (not_not.2 h)]
    refine ⟨⟨fun _ => h, fun _ => ⟨_, rfl⟩⟩, by simp, ?_⟩
    rintro x ⟨⟩
    refine ⟨by dsimp only; omega, rfl, fun hn => if_neg hn⟩
  · rw [if_pos h]
    exact ⟨⟨fun ⟨x, hx⟩ => (by cases hx), fun h' => absurd h' h⟩, by rintro e ⟨⟩; rfl, by simp⟩

/-- C15: an unnamed instrument gets the name of its General MIDI family (eight programs per family,
programs 1..128, "Unknown" elsewhere), whatever the iteration order of the frozen table is. -/
theorem C15_family (order : List ((Int × Int) × String)) (hperm : order.Perm gmTable)
    (i : Int) (d : Bool) (x : InstrumentInfo) (h : InstrumentInfo.mk? order i "" d = .ok x) :
    x.name = Spec.family i := by
  have hi := (C15_construct order i "" d).1.1 ⟨x, h⟩
  have hx : x.name = familyName order i := by
    unfold InstrumentInfo.mk? at h
    rw [if_neg (not_not.2 hi)] at h
    cases h; rfl
  rw [hx]
  unfold Spec.family
  by_cases hr : 1 ≤ i ∧ i ≤ 128
  · rw [if_pos hr]
    have key : ∀ k : Fin 128, (∃ r ∈ gmTable, r.1.1 ≤ ((k : Nat) + 1 : Int) ∧ ((k : Nat) + 1 : Int) < r.1.2) ∧
        ∀ r ∈ gmTable, r.1.1 ≤ ((k : Nat) + 1 : Int) ∧ ((k : Nat) + 1 : Int) < r.1.2 →
          r.2 = Spec.families.getD ((k : Nat) / 8) "" := by decide +kernel
    have hk := key ⟨(i - 1).toNat, by omega⟩
    have e : (((i - 1).toNat : Nat) : Int) + 1 = i := by omega
    simp only [e] at hk
    refine familyName_of_unique order i _ ?_ ?_
    · obtain ⟨r, hr, hh⟩ := hk.1
      exact ⟨r, hperm.mem_iff.2 hr, hh⟩
    · intro r hr
      exact hk.2 r (hperm.mem_iff.1 hr)
  · rw [if_neg hr]
    refine familyName_none order i ?_
    intro r hrm
    have hb : ∀ r ∈ gmTable, 1 ≤ r.1.1 ∧ r.1.2 ≤ 129 := by decide
    have := hb r (hperm.mem_iff.1 hrm)
    omega

example : InstrumentInfo.mk? gmTable.reverse 33 = .ok { num := 33, name := "Bass", isDrum := false } := by
  decide +kernel

/-- C15: round trip through the dictionary, for every instrument info the constructor can make. -/
theorem C15_round_trip (order : List ((Int × Int) × String)) (hperm : order.Perm gmTable)
    (i : Int) (name : String) (d : Bool) (x : InstrumentInfo)
    (h : InstrumentInfo.mk? order i name d = .ok x) :
    InstrumentInfo.fromDict order x.toDict = .ok x := by
  obtain ⟨h1, _, h3⟩ := C15_construct order i name d
  have hi := h1.1 ⟨x, h⟩
  obtain ⟨hn, hd, _⟩ := h3 x h
  have hne : x.name ≠ "" := by
    by_cases hname : name = ""
    · subst hname
      rw [C15_family order hperm i d x h]
      unfold Spec.family
      split_ifs with hr
      · have : ∀ k : Fin 128, Spec.families.getD ((k : Nat) / 8) "" ≠ "" := by decide +kernel
        exact this ⟨(i - 1).toNat, by omega⟩
      · decide
    · rw [(h3 x h).2.2 hname]; exact hname
  show InstrumentInfo.mk? order x.num x.name x.isDrum = .ok x
  unfold InstrumentInfo.mk?
  rw [hn, if_neg (not_not.2 hi), if_neg hne, hd]
  have e : min (max 0 i) 255 = i := by omega
  rw [e]
  cases x; simp_all

/-- C15: equality is an equivalence, it is equality of all fields, and equal infos hash equally for
every tuple hash function; `<` is a strict weak order. -/
theorem C15_eq_hash_lt :
    (∀ a b : InstrumentInfo, a.eq b = true ↔ a = b) ∧
    (∀ h (a b : InstrumentInfo), a.eq b = true → a.hash h = b.hash h) ∧
    (∀ a : InstrumentInfo, a.lt a = false) ∧
    (∀ a b c : InstrumentInfo, a.lt b = true → b.lt c = true → a.lt c = true) ∧
    (∀ a b c : InstrumentInfo, a.lt b = false → b.lt a = false → b.lt c = false → c.lt b = false →
      a.lt c = false ∧ c.lt a = false) := by
  have heq : ∀ a b : InstrumentInfo, a.eq b = true ↔ a = b := by
    rintro ⟨n, s, d⟩ ⟨n', s', d'⟩
    simp [InstrumentInfo.eq, and_assoc]
  refine ⟨heq, ?_, ?_, ?_, ?_⟩
  · intro h a b hab; rw [(heq a b).1 hab]
  · intro a; simp [InstrumentInfo.lt]
  · intro a b c; simp only [InstrumentInfo.lt, decide_eq_true_eq]; omega
  · intro a b c; simp only [InstrumentInfo.lt, decide_eq_false_iff_not]; omega

/-- C15: a dictionary without a number raises TypeError; name and drum flag are optional. -/
theorem C15_missing_keys (order : List ((Int × Int) × String)) (nm : Option String) (d : Option Bool) :
    InstrumentInfo.fromDict order { num := none, name := nm, isDrum := d } = .error .type ∧
    ∀ i, 0 ≤ i → i ≤ 255 →
      ∃ x, InstrumentInfo.fromDict order { num := some i, name := none, isDrum := none } = .ok x ∧
        x.num = i ∧ x.isDrum = false := by
  refine ⟨rfl, fun i h0 h1 => ?_⟩
  obtain ⟨x, hx⟩ := (C15_construct order i "" false).1.2 ⟨h0, h1⟩
  have := (C15_construct order i "" false).2.2 x hx
  exact ⟨x, hx, this.1, this.2.1⟩

end NGC
