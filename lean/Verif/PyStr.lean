import Verif.Py
import Mathlib.Tactic.IntervalCases

/-!
Python text as lists of characters: decimal numbers, `str.split`, `str.startswith`.
-/

namespace NGC

/-- The character of one decimal digit. -/
def digitChar (d : Nat) : Char :=
  match d with
  | 0 => '0' | 1 => '1' | 2 => '2' | 3 => '3' | 4 => '4'
  | 5 => '5' | 6 => '6' | 7 => '7' | 8 => '8' | _ => '9'

/-- The digit of a character. -/
def digitVal (c : Char) : Option Nat :=
  if c = '0' then some 0 else if c = '1' then some 1 else if c = '2' then some 2
  else if c = '3' then some 3 else if c = '4' then some 4 else if c = '5' then some 5
  else if c = '6' then some 6 else if c = '7' then some 7 else if c = '8' then some 8
  else if c = '9' then some 9 else none

/-- `str(n)` for `n ≥ 0`. -/
def decStr (n : Nat) : List Char :=
  if _h : n < 10 then [digitChar n] else decStr (n / 10) ++ [digitChar (n % 10)]
decreasing_by omega

/-- One more digit on the right. -/
def decStep (acc : Option Nat) (c : Char) : Option Nat :=
  match acc, digitVal c with
  | some a, some d => some (10 * a + d)
  | _, _ => none

/-- `int(s)` for a text of decimal digits, `none` for ValueError. Signs, blanks and underscores
inside the number, which Python also accepts, are left out. -/
def decVal (s : List Char) : Option Nat :=
  if s = [] then none else s.foldl decStep (some 0)

theorem digitVal_digitChar (d : Nat) (h : d < 10) : digitVal (digitChar d) = some d := by
  interval_cases d <;> decide

theorem digitChar_ne_underscore (d : Nat) : digitChar d ≠ '_' := by
  unfold digitChar; split <;> decide

theorem digitChar_ne_dot (d : Nat) : digitChar d ≠ '.' := by
  unfold digitChar; split <;> decide

theorem digitChar_ne_N (d : Nat) : digitChar d ≠ 'N' := by
  unfold digitChar; split <;> decide

theorem digitChar_ne_slash (d : Nat) : digitChar d ≠ '/' := by
  unfold digitChar; split <;> decide

theorem decStr_ne_nil (n : Nat) : decStr n ≠ [] := by
  rw [decStr]; split <;> simp

theorem mem_decStr {n : Nat} {c : Char} (h : c ∈ decStr n) : ∃ d, d < 10 ∧ c = digitChar d := by
  induction n using Nat.strong_induction_on with
  | _ n ih =>
    rw [decStr] at h
    split at h
    · rename_i hn
      rw [List.mem_singleton] at h
      exact ⟨n, hn, h⟩
    · rename_i hn
      rw [List.mem_append, List.mem_singleton] at h
      rcases h with h | h
      · exact ih (n / 10) (by omega) h
      · exact ⟨n % 10, by omega, h⟩

theorem decStr_fold (n : Nat) : (decStr n).foldl decStep (some 0) = some n := by
  induction n using Nat.strong_induction_on with
  | _ n ih =>
    rw [decStr]
    split
    · rename_i hn
      simp [decStep, digitVal_digitChar n hn]
    · rename_i hn
      rw [List.foldl_append, ih (n / 10) (by omega)]
      simp only [List.foldl_cons, List.foldl_nil, decStep, digitVal_digitChar (n % 10) (by omega)]
      congr 1
      omega

/-- `int(str(n)) == n`. -/
theorem decVal_decStr (n : Nat) : decVal (decStr n) = some n := by
  unfold decVal
  rw [if_neg (decStr_ne_nil n), decStr_fold]

theorem decStr_inj {m n : Nat} (h : decStr m = decStr n) : m = n := by
  have := decVal_decStr m
  rw [h, decVal_decStr] at this
  exact (Option.some.inj this).symm

theorem underscore_notMem_decStr (n : Nat) : '_' ∉ decStr n := by
  intro h
  obtain ⟨d, _, e⟩ := mem_decStr h
  exact digitChar_ne_underscore d e.symm

theorem dot_notMem_decStr (n : Nat) : '.' ∉ decStr n := by
  intro h
  obtain ⟨d, _, e⟩ := mem_decStr h
  exact digitChar_ne_dot d e.symm

theorem slash_notMem_decStr (n : Nat) : '/' ∉ decStr n := by
  intro h
  obtain ⟨d, _, e⟩ := mem_decStr h
  exact digitChar_ne_slash d e.symm

theorem N_notMem_decStr (n : Nat) : 'N' ∉ decStr n := by
  intro h
  obtain ⟨d, _, e⟩ := mem_decStr h
  exact digitChar_ne_N d e.symm

/-- Two texts split at the first occurrence of a separator are equal only if both parts are. -/
theorem append_sep_inj {c : Char} {a b x y : List Char} (ha : c ∉ a) (hb : c ∉ b)
    (h : a ++ c :: x = b ++ c :: y) : a = b ∧ x = y := by
  induction a generalizing b with
  | nil =>
    cases b with
    | nil => simpa using h
    | cons d b =>
      simp only [List.nil_append, List.cons_append, List.cons.injEq] at h
      exact absurd (by rw [h.1]; exact List.mem_cons_self) hb
  | cons d a ih =>
    cases b with
    | nil =>
      simp only [List.nil_append, List.cons_append, List.cons.injEq] at h
      exact absurd (by rw [← h.1]; exact List.mem_cons_self) ha
    | cons e b =>
      simp only [List.cons_append, List.cons.injEq] at h
      obtain ⟨h1, h2⟩ := ih (fun m => ha (List.mem_cons_of_mem _ m))
        (fun m => hb (List.mem_cons_of_mem _ m)) h.2
      exact ⟨by rw [h.1, h1], h2⟩

end NGC
