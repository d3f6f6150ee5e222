import Verif.Py
import Mathlib.Data.List.Nodup

/-!
Python `dict` as an association list in insertion order, and the facts used about it.
-/

namespace NGC

section
variable {K V : Type} [DecidableEq K]

/-- `d.get(k)`: the value of the first (and only) entry for `k`. -/
def dget : List (K × V) → K → Option V
  | [], _ => none
  | p :: d, k => if p.1 = k then some p.2 else dget d k

/-- `d[k] = v`: replaces in place, or appends a new entry. -/
def dset : List (K × V) → K → V → List (K × V)
  | [], k, v => [(k, v)]
  | p :: d, k, v => if p.1 = k then (k, v) :: d else p :: dset d k v

/-- `list(d)`. -/
def dkeys (d : List (K × V)) : List K := d.map (·.1)

/-- `k in d`. -/
def dhas (d : List (K × V)) (k : K) : Bool := (dget d k).isSome

theorem dget_dset (d : List (K × V)) (k k' : K) (v : V) :
    dget (dset d k v) k' = if k = k' then some v else dget d k' := by
  induction d with
  | nil => simp [dset, dget]
  | cons p d ih =>
    unfold dset
    by_cases h : p.1 = k
    · rw [if_pos h]
      unfold dget
      by_cases h' : k = k'
      · simp [h']
      · have : ¬ p.1 = k' := by rw [h]; exact h'
        simp [h', this]
    · rw [if_neg h]
      unfold dget
      rw [ih]
      by_cases h' : k = k'
      · subst h'; simp [h]
      · simp [h']

theorem dget_dset_self (d : List (K × V)) (k : K) (v : V) : dget (dset d k v) k = some v := by
  simp [dget_dset]

theorem dget_dset_ne (d : List (K × V)) {k k' : K} (v : V) (h : k ≠ k') :
    dget (dset d k v) k' = dget d k' := by simp [dget_dset, h]

theorem dget_eq_none (d : List (K × V)) (k : K) : dget d k = none ↔ k ∉ dkeys d := by
  induction d with
  | nil => simp [dget, dkeys]
  | cons p d ih =>
    rw [dget]
    unfold dkeys at ih ⊢
    rw [List.map_cons, List.mem_cons, not_or]
    by_cases h : p.1 = k
    · simp [h]
    · rw [if_neg h, ih]
      exact ⟨fun h2 => ⟨fun e => h e.symm, h2⟩, fun h2 => h2.2⟩

theorem dhas_iff (d : List (K × V)) (k : K) : dhas d k = true ↔ k ∈ dkeys d := by
  unfold dhas
  rw [Option.isSome_iff_ne_none, ne_eq, dget_eq_none, not_not]

theorem dhas_eq_false (d : List (K × V)) (k : K) : dhas d k = false ↔ k ∉ dkeys d := by
  rw [← dhas_iff]; simp

theorem dkeys_dset (d : List (K × V)) (k : K) (v : V) :
    dkeys (dset d k v) = if k ∈ dkeys d then dkeys d else dkeys d ++ [k] := by
  induction d with
  | nil => simp [dset, dkeys]
  | cons p d ih =>
    unfold dset
    by_cases h : p.1 = k
    · simp [dkeys, h]
    · rw [if_neg h]
      simp only [dkeys, List.map_cons] at ih ⊢
      rw [ih]
      have h' : ¬ k = p.1 := fun e => h e.symm
      by_cases hm : k ∈ List.map (·.1) d
      · simp [hm]
      · simp [hm, h']

theorem mem_dkeys_dset (d : List (K × V)) (k k' : K) (v : V) :
    k' ∈ dkeys (dset d k v) ↔ k' = k ∨ k' ∈ dkeys d := by
  rw [dkeys_dset]
  split
  · rename_i h
    constructor
    · exact Or.inr
    · rintro (rfl | h') <;> assumption
  · simp [or_comm]

theorem dset_nodup (d : List (K × V)) (k : K) (v : V) (h : (dkeys d).Nodup) :
    (dkeys (dset d k v)).Nodup := by
  rw [dkeys_dset]
  split
  · exact h
  · rename_i hk
    rw [List.nodup_append]
    refine ⟨h, by simp, ?_⟩
    intro a ha b hb
    rw [List.mem_singleton] at hb
    subst hb
    intro e; subst e; exact hk ha

theorem dset_length (d : List (K × V)) (k : K) (v : V) :
    (dset d k v).length = if k ∈ dkeys d then d.length else d.length + 1 := by
  have h := congrArg List.length (dkeys_dset d k v)
  unfold dkeys at h
  rw [List.length_map] at h
  rw [h]
  unfold dkeys
  split <;> simp

theorem dget_mem (d : List (K × V)) (k : K) (v : V) (h : dget d k = some v) : (k, v) ∈ d := by
  induction d with
  | nil => cases h
  | cons p d ih =>
    unfold dget at h
    split at h
    · rename_i hp
      cases h
      subst hp
      simp
    · exact List.mem_cons_of_mem _ (ih h)

theorem dget_of_mem (d : List (K × V)) (hn : (dkeys d).Nodup) (k : K) (v : V) (h : (k, v) ∈ d) :
    dget d k = some v := by
  induction d with
  | nil => simp at h
  | cons p d ih =>
    unfold dkeys at hn
    rw [List.map_cons, List.nodup_cons] at hn
    unfold dget
    rcases List.mem_cons.1 h with rfl | h
    · simp
    · have : p.1 ≠ k := by
        intro e
        apply hn.1
        rw [e]
        exact List.mem_map.2 ⟨(k, v), h, rfl⟩
      rw [if_neg this]
      exact ih hn.2 h

theorem dget_isSome_of_mem (d : List (K × V)) (k : K) (h : k ∈ dkeys d) : ∃ v, dget d k = some v := by
  cases hv : dget d k with
  | none => exact absurd h ((dget_eq_none d k).1 hv)
  | some v => exact ⟨v, rfl⟩

theorem dset_of_new (d : List (K × V)) (k : K) (v : V) (h : k ∉ dkeys d) :
    dset d k v = d ++ [(k, v)] := by
  induction d with
  | nil => rfl
  | cons p d ih =>
    unfold dkeys at h
    rw [List.map_cons, List.mem_cons, not_or] at h
    unfold dset
    rw [if_neg (fun e => h.1 e.symm), ih h.2]
    rfl

end

end NGC
