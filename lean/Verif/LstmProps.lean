import Verif.GatLstm
import Mathlib.Tactic.Ring
import Mathlib.Tactic.Linarith

namespace NGC

/-! ### C179 The sequence model -/

section
variable {X H : Type} [Fintype X] [Fintype H]

theorem tanh_bounds (t : ℝ) : -1 < Real.tanh t ∧ Real.tanh t < 1 := ⟨Real.neg_one_lt_tanh t, Real.tanh_lt_one t⟩

theorem step_bounded (m : LstmCell X H) (s : (H → ℝ) × (H → ℝ)) (x : X → ℝ) (j : H) : |(m.step s x).1 j| < 1 := by
  unfold LstmCell.step
  dsimp only
  have h1 := Real.sigmoid_pos (m.gate 3 x s.1 j)
  have h2 := Real.sigmoid_lt_one (m.gate 3 x s.1 j)
  rw [abs_mul, abs_of_pos h1]
  have h3 : ∀ t : ℝ, |Real.tanh t| < 1 := fun t => abs_lt.mpr (tanh_bounds t)
  have h4 := h3 (Real.sigmoid (m.gate 1 x s.1 j) * s.2 j + Real.sigmoid (m.gate 0 x s.1 j) * Real.tanh (m.gate 2 x s.1 j))
  nlinarith [abs_nonneg (Real.tanh (Real.sigmoid (m.gate 1 x s.1 j) * s.2 j + Real.sigmoid (m.gate 0 x s.1 j) * Real.tanh (m.gate 2 x s.1 j)))]

theorem run_length (m : LstmCell X H) (s : (H → ℝ) × (H → ℝ)) (xs : List (X → ℝ)) : (m.run s xs).1.length = xs.length := by
  induction xs generalizing s with
  | nil => rfl
  | cons x xs ih => simp [LstmCell.run, ih]

theorem run_bounded (m : LstmCell X H) (s : (H → ℝ) × (H → ℝ)) (xs : List (X → ℝ)) : ∀ o ∈ (m.run s xs).1, ∀ j, |o j| < 1 := by
  induction xs generalizing s with
  | nil => intro o ho; cases ho
  | cons x xs ih =>
    intro o ho j
    simp only [LstmCell.run, List.mem_cons] at ho
    rcases ho with rfl | ho
    · exact step_bounded m s x j
    · exact ih _ o ho j

theorem run_append (m : LstmCell X H) (s : (H → ℝ) × (H → ℝ)) (xs ys : List (X → ℝ)) :
    m.run s (xs ++ ys) = ((m.run s xs).1 ++ (m.run (m.run s xs).2 ys).1, (m.run (m.run s xs).2 ys).2) := by
  induction xs generalizing s with
  | nil => rfl
  | cons x xs ih => simp [LstmCell.run, ih]

theorem upper_length (ms : List (LstmCell H H)) (ss : LstmState H) (xs : List (H → ℝ)) :
    (upperRun ms ss xs).1.length = xs.length ∧ (upperRun ms ss xs).2.length = ms.length := by
  induction ms generalizing ss xs with
  | nil => exact ⟨rfl, rfl⟩
  | cons m ms ih =>
    simp only [upperRun, List.length_cons]
    refine ⟨?_, ?_⟩
    · rw [(ih _ _).1, run_length]
    · rw [(ih _ _).2]

theorem upper_bounded (ms : List (LstmCell H H)) (ss : LstmState H) (xs : List (H → ℝ)) (hx : ∀ o ∈ xs, ∀ j, |o j| < 1) :
    ∀ o ∈ (upperRun ms ss xs).1, ∀ j, |o j| < 1 := by
  induction ms generalizing ss xs with
  | nil => exact hx
  | cons m ms ih =>
    simp only [upperRun]
    exact ih _ _ (run_bounded m _ xs)

theorem upper_append (ms : List (LstmCell H H)) (ss : LstmState H) (xs ys : List (H → ℝ)) :
    upperRun ms ss (xs ++ ys) = ((upperRun ms ss xs).1 ++ (upperRun ms (upperRun ms ss xs).2 ys).1, (upperRun ms (upperRun ms ss xs).2 ys).2) := by
  induction ms generalizing ss xs ys with
  | nil => rfl
  | cons m ms ih =>
    simp only [upperRun]
    rw [run_append]
    dsimp only [List.headD_cons, List.tail_cons]
    rw [ih]

/-- C179: on every non-empty sequence the model gives one output per input, every entry strictly between -1 and 1, whatever the parameters
and the state; the state it returns has one entry per layer. An empty sequence is RuntimeError. -/
theorem C179_bounded (m : Lstm X H) (xs : List (X → ℝ)) (hidden : Option (LstmState H)) :
    m.forward [] hidden = .error .runtime ∧
    (xs ≠ [] → ∃ out st, m.forward xs hidden = .ok (out, st) ∧ out.length = xs.length ∧ st.length = m.rest.length + 1 ∧
      ∀ o ∈ out, ∀ j, -1 < o j ∧ o j < 1) := by
  refine ⟨by simp [Lstm.forward], ?_⟩
  intro h
  refine ⟨_, _, by simp only [Lstm.forward, if_neg h]; rfl, ?_, ?_, ?_⟩
  · rw [(upper_length _ _ _).1, run_length]
  · rw [List.length_cons, (upper_length _ _ _).2]
  · intro o ho j
    exact abs_lt.mp (upper_bounded _ _ _ (run_bounded m.first _ xs) o ho j)

/-- C179: reading a sequence at once or in two parts, the second from the state left by the first, is the same. So an output depends on the
inputs up to its place only. -/
theorem C179_split (m : Lstm X H) (xs ys : List (X → ℝ)) (hx : xs ≠ []) (hy : ys ≠ []) (hidden : Option (LstmState H)) :
    ∃ o1 s1 o2 s2, m.forward xs hidden = .ok (o1, s1) ∧ m.forward ys (some s1) = .ok (o2, s2) ∧
      m.forward (xs ++ ys) hidden = .ok (o1 ++ o2, s2) := by
  refine ⟨_, _, _, _, by simp only [Lstm.forward, if_neg hx]; rfl, by simp only [Lstm.forward, if_neg hy]; rfl, ?_⟩
  have hxy : xs ++ ys ≠ [] := by simp [hx]
  simp only [Lstm.forward, if_neg hxy, Option.getD_some, List.headD_cons, List.tail_cons]
  rw [run_append]
  dsimp only
  rw [upper_append]

/-- A textbook recurrence of one layer: `h t` and `c t` are output and memory after `t` inputs. -/
def Spec.Recurrence (m : LstmCell X H) (xs : List (X → ℝ)) (h c : Nat → H → ℝ) : Prop :=
  ∀ t (ht : t < xs.length) (j : H),
    let pre : Fin 4 → ℝ := fun k => (∑ a, xs[t] a * m.wi k a j) + (∑ a, h t a * m.wh k a j) + m.b k j
    c (t + 1) j = Real.sigmoid (pre 1) * c t j + Real.sigmoid (pre 0) * Real.tanh (pre 2) ∧
    h (t + 1) j = Real.sigmoid (pre 3) * Real.tanh (c (t + 1) j)

/-- C179: what a layer computes: the outputs and the last state of the recurrence `c' = f c + i g`, `h' = o tanh c'` with the four gates of input
and last output. -/
theorem C179_recurrence (m : LstmCell X H) (xs : List (X → ℝ)) (h c : Nat → H → ℝ) (hr : Spec.Recurrence m xs h c) :
    m.run (h 0, c 0) xs = ((List.range xs.length).map (fun t => h (t + 1)), (h xs.length, c xs.length)) := by
  induction xs generalizing h c with
  | nil => rfl
  | cons x xs ih =>
    have h0 := hr 0 (by simp)
    have hs : m.step (h 0, c 0) x = (h 1, c 1) := by
      have e1 : c 1 = (m.step (h 0, c 0) x).2 := funext fun j => (h0 j).1
      have e2 : h 1 = (m.step (h 0, c 0) x).1 := by
        funext j
        have := (h0 j).2
        rw [show c (0 + 1) = c 1 from rfl, e1] at this
        exact this
      exact Prod.ext e2.symm e1.symm
    have ih' := ih (fun t => h (t + 1)) (fun t => c (t + 1)) (fun t ht j => hr (t + 1) (by simpa using ht) j)
    have hrun : m.run (h 0, c 0) (x :: xs) = ((m.step (h 0, c 0) x).1 :: (m.run (m.step (h 0, c 0) x) xs).1, (m.run (m.step (h 0, c 0) x) xs).2) := rfl
    rw [hrun, hs, ih']
    simp [List.range_succ_eq_map, Function.comp_def]

/-- Every start has a recurrence. -/
theorem Spec.recurrence_exists (m : LstmCell X H) (s : (H → ℝ) × (H → ℝ)) (xs : List (X → ℝ)) :
    ∃ h c, h 0 = s.1 ∧ c 0 = s.2 ∧ Spec.Recurrence m xs h c := by
  let st : Nat → (H → ℝ) × (H → ℝ) := fun t => (xs.take t).foldl m.step s
  refine ⟨fun t => (st t).1, fun t => (st t).2, rfl, rfl, fun t ht j => ?_⟩
  have : st (t + 1) = m.step (st t) xs[t] := by
    show (xs.take (t + 1)).foldl m.step s = _
    rw [List.take_succ_eq_append_getElem ht, List.foldl_append]; rfl
  constructor
  · show (st (t + 1)).2 j = _
    rw [this]; rfl
  · show (st (t + 1)).1 j = _ * Real.tanh ((st (t + 1)).2 j)
    rw [this]; rfl

/-- C179: the first outputs are not changed by what follows. -/
theorem C179_causal (m : Lstm X H) (xs ys : List (X → ℝ)) (hx : xs ≠ []) (hidden : Option (LstmState H)) :
    ∃ o1 s1 o2 s2, m.forward xs hidden = .ok (o1, s1) ∧ m.forward (xs ++ ys) hidden = .ok (o2, s2) ∧ o2.take xs.length = o1 := by
  obtain ⟨o1, s1, h1, hl, -⟩ := (C179_bounded m xs hidden).2 hx
  by_cases hy : ys = []
  · subst hy
    rw [List.append_nil]
    exact ⟨o1, s1, o1, s1, h1, h1, by rw [← hl, List.take_length]⟩
  · obtain ⟨o1', s1', o2, s2, h3, -, h4⟩ := C179_split m xs ys hx hy hidden
    rw [h1] at h3
    have he := Except.ok.inj h3
    cases he
    exact ⟨o1, s1, _, s2, h1, h4, by rw [← hl, List.take_left']; rfl⟩

/-! ### C180 Generating -/

/-- A sequence repeated. -/
def Spec.again {T : Type} (xs : List T) (k : Nat) : List T := (List.replicate k xs).flatten

theorem again_succ {T : Type} (xs : List T) (k : Nat) : Spec.again xs (k + 1) = Spec.again xs k ++ xs := by
  unfold Spec.again
  rw [List.replicate_succ', List.flatten_append]
  simp

theorem again_ne {T : Type} (xs : List T) (h : xs ≠ []) (k : Nat) : Spec.again xs (k + 1) ≠ [] := by
  rw [again_succ]; simp [h]

theorem loop_eq {D : Type} (m : Lstm X H) (decode : (H → ℝ) → Py D) (input : List (X → ℝ)) (h : input ≠ []) (dec : (H → ℝ) → D)
    (hd : ∀ o, decode o = .ok (dec o)) (n k : Nat) (st : Option (LstmState H)) (acc : List D)
    (hst : k = 0 ∧ st = none ∨ ∃ o s, 0 < k ∧ m.forward (Spec.again input k) none = .ok (o, s) ∧ st = some s) :
    ∃ r, generateLoop m decode input n st acc = .ok (acc ++ r) ∧ r.length = n ∧
      ∀ i < n, ∃ o s last, m.forward (Spec.again input (k + i + 1)) none = .ok (o, s) ∧ o.getLast? = some last ∧ r[i]? = some (dec last) := by
  induction n generalizing k st acc with
  | zero => exact ⟨[], by simp [generateLoop], rfl, by intro i hi; omega⟩
  | succ n ih =>
    -- the next output
    have hnext : ∃ o s o' last, m.forward input st = .ok (o', s) ∧ o'.getLast? = some last ∧
        m.forward (Spec.again input (k + 1)) none = .ok (o, s) ∧ o.getLast? = some last := by
      rcases hst with ⟨rfl, rfl⟩ | ⟨o, s, hk, hf, rfl⟩
      · obtain ⟨o, s, h1, hl, -⟩ := (C179_bounded m input none).2 h
        have hne : o ≠ [] := by
          intro e; rw [e] at hl; exact h (List.length_eq_zero_iff.mp hl.symm)
        have hg : o.getLast? = some (o.getLast hne) := List.getLast?_eq_some_getLast hne
        have ha : Spec.again input (0 + 1) = input := by rw [again_succ]; rfl
        exact ⟨o, s, o, _, h1, hg, by rw [ha]; exact h1, hg⟩
      · obtain ⟨k', rfl⟩ : ∃ k', k = k' + 1 := ⟨k - 1, by omega⟩
        obtain ⟨o1, s1, o2, s2, h1, h2, h3⟩ := C179_split m (Spec.again input (k' + 1)) input (again_ne input h k') h none
        rw [hf] at h1
        cases Except.ok.inj h1
        obtain ⟨o2', s2', h4, hl, -⟩ := (C179_bounded m input (some s)).2 h
        rw [h2] at h4
        cases Except.ok.inj h4
        have hne : o2 ≠ [] := by
          intro e; rw [e] at hl; exact h (List.length_eq_zero_iff.mp hl.symm)
        have hg : o2.getLast? = some (o2.getLast hne) := List.getLast?_eq_some_getLast hne
        refine ⟨o ++ o2, s2, o2, _, h2, hg, ?_, ?_⟩
        · rw [again_succ]; exact h3
        · rw [List.getLast?_append, hg]; rfl
    obtain ⟨o, s, o', last, h1, h2, h3, h4⟩ := hnext
    obtain ⟨r, hr, hrl, hri⟩ := ih (k + 1) (some s) (acc ++ [dec last]) (Or.inr ⟨o, s, by omega, h3, rfl⟩)
    refine ⟨dec last :: r, ?_, by simp [hrl], ?_⟩
    · simp only [generateLoop, h1, bind, Except.bind, h2, hd]
      rw [hr]
      simp
    · intro i hi
      cases i with
      | zero => exact ⟨o, s, last, h3, h4, rfl⟩
      | succ i =>
        obtain ⟨o, s, last, a, b, c⟩ := hri i (by omega)
        refine ⟨o, s, last, ?_, b, by simpa using c⟩
        rw [show k + (i + 1) + 1 = k + 1 + i + 1 by omega]
        exact a

/-- C180: the generated rows. The `i`-th is the decoded last output of the model after reading the given edges `i` times from scratch; what was
generated is never read (a defect: the rows are called newly generated). There are as many as asked for, and asking for more only adds
rows at the end. -/
theorem C180_generated {D : Type} (m : Lstm X H) (dec : (H → ℝ) → D) (input : List (X → ℝ)) (h : input ≠ []) (n : Nat) (hn : 0 < n) :
    ∃ r, generateNew m (fun o => .ok (dec o)) input n = .ok r ∧ r.length = n ∧
      ∀ i < n, ∃ o s last, m.forward (Spec.again input (i + 1)) none = .ok (o, s) ∧ o.getLast? = some last ∧ r[i]? = some (dec last) := by
  obtain ⟨r, hr, hl, hi⟩ := loop_eq m (fun o => .ok (dec o)) input h dec (fun _ => rfl) n 0 none [] (Or.inl ⟨rfl, rfl⟩)
  refine ⟨r, ?_, hl, ?_⟩
  · unfold generateNew
    rw [hr]
    have : r ≠ [] := by intro e; rw [e] at hl; simp at hl; omega
    simp [bind, Except.bind, this]
  · intro i h'
    obtain ⟨o, s, last, a, b, c⟩ := hi i h'
    exact ⟨o, s, last, by rw [Nat.zero_add] at a; exact a, b, c⟩

/-- C180: asking for fewer rows gives the first of them. -/
theorem C180_prefix {D : Type} (m : Lstm X H) (dec : (H → ℝ) → D) (input : List (X → ℝ)) (h : input ≠ []) (n k : Nat) (hn : 0 < n) (hk : n ≤ k) :
    ∃ r r', generateNew m (fun o => .ok (dec o)) input n = .ok r ∧ generateNew m (fun o => .ok (dec o)) input k = .ok r' ∧ r'.take n = r := by
  obtain ⟨r, hr, hl, hi⟩ := C180_generated m dec input h n hn
  obtain ⟨r', hr', hl', hi'⟩ := C180_generated m dec input h k (by omega)
  refine ⟨r, r', hr, hr', ?_⟩
  apply List.ext_getElem?
  intro i
  rw [List.getElem?_take]
  split
  · rename_i hin
    obtain ⟨o, s, last, a, b, c⟩ := hi i hin
    obtain ⟨o', s', last', a', b', c'⟩ := hi' i (by omega)
    rw [a] at a'
    cases Except.ok.inj a'
    rw [b] at b'
    cases b'
    rw [c, c']
  · rw [List.getElem?_eq_none (by omega)]

/-- C180: nothing can be generated from no edges, and no rows cannot be asked for: RuntimeError in both cases. -/
theorem C180_refused {D : Type} (m : Lstm X H) (decode : (H → ℝ) → Py D) (input : List (X → ℝ)) (n : Nat) :
    generateNew m decode [] (n + 1) = .error .runtime ∧ generateNew m decode input 0 = .error .runtime := by
  constructor
  · simp [generateNew, generateLoop, (C179_bounded m [] none).1, bind, Except.bind]
  · simp [generateNew, generateLoop, bind, Except.bind]

end

/-! ### C181 The decoder -/

section
variable {K : Type} [Field K] [LinearOrder K]

/-- The decoder built for `n` classes (example03_lstm.py 293-294): hidden width `n`, width `2 n` for rows of the sequence model, all maps of
matching sizes. -/
def Spec.Built (d : LatentDecoder K) (n : Nat) : Prop :=
  d.hidden = n ∧ d.lstmOut = 2 * n ∧ d.w1.length = n ∧ d.b1.length = n ∧ d.w2.length = n ∧ d.b2.length = n ∧ d.w3.length = n ∧ d.b3.length = n

theorem linearRow_ok (w : List (List K)) (b : List K) (n k : Nat) (x : List K) (hx : x.length = n) (hw : w.length = k) (hb : b.length = k) :
    ∃ y, linearRow w b n x = .ok y ∧ y.length = k := by
  refine ⟨_, by simp only [linearRow, hx]; simp; rfl, ?_⟩
  simp [hw, hb]

/-- C181: which rows the decoder takes: exactly those of width `n` (rows of nodes), `2 n` (rows of the sequence model) and 2; everything else
is RuntimeError. The result has width `n`. -/
theorem C181_widths (d : LatentDecoder K) (n : Nat) (hb : Spec.Built d n) (x : List K) :
    (x.length = n ∨ x.length = 2 * n ∨ x.length = 2 → ∃ y, d.forward x = .ok y ∧ y.length = n) ∧
    (¬ (x.length = n ∨ x.length = 2 * n ∨ x.length = 2) → d.forward x = .error .runtime) := by
  obtain ⟨h1, h2, h3, h4, h5, h6, h7, h8⟩ := hb
  have two : ∀ (w : List (List K)) (b : List K) (k : Nat), x.length = k → w.length = n → b.length = n →
      ∃ y, (linearRow w b k x >>= fun y => linearRow d.w1 d.b1 d.hidden (reluRow y)) = .ok y ∧ y.length = n := by
    intro w b k hk hw hb
    obtain ⟨y, hy, hyl⟩ := linearRow_ok w b k n x hk hw hb
    obtain ⟨z, hz, hzl⟩ := linearRow_ok d.w1 d.b1 d.hidden n (reluRow y) (by simp [reluRow, hyl, h1]) h3 h4
    exact ⟨z, by simp only [hy, bind, Except.bind]; exact hz, hzl⟩
  constructor
  · intro h
    unfold LatentDecoder.forward
    by_cases c1 : x.length = d.lstmOut
    · rw [if_pos c1]
      exact two d.w2 d.b2 d.lstmOut c1 h5 h6
    · rw [if_neg c1]
      by_cases c2 : x.length = 2
      · rw [if_pos c2]
        exact two d.w3 d.b3 2 c2 h7 h8
      · rw [if_neg c2]
        have : x.length = n := by
          rcases h with h | h | h
          · exact h
          · exact absurd (h.trans h2.symm) c1
          · exact absurd h c2
        exact linearRow_ok d.w1 d.b1 d.hidden n x (this.trans h1.symm) h3 h4
  · intro h
    unfold LatentDecoder.forward
    rw [if_neg (by rw [h2]; intro e; exact h (Or.inr (Or.inl e))), if_neg (fun e => h (Or.inr (Or.inr e)))]
    unfold linearRow
    rw [if_pos (by rw [h1]; intro e; exact h (Or.inl e))]

/-- C181: which maps it applies. Rows of nodes go through the first map alone, rows of the sequence model through the second, `relu` and the
first. Defect: with exactly two classes rows of nodes go through the third map, `relu` and the first instead. -/
theorem C181_branches (d : LatentDecoder K) (n : Nat) (hb : Spec.Built d n) (hn : 0 < n) (x : List K) :
    (x.length = n → n ≠ 2 → d.forward x = linearRow d.w1 d.b1 n x) ∧
    (x.length = 2 * n → d.forward x = (linearRow d.w2 d.b2 (2 * n) x).bind (fun y => linearRow d.w1 d.b1 n (y.map (max 0)))) ∧
    (x.length = n → n = 2 → d.forward x = (linearRow d.w3 d.b3 2 x).bind (fun y => linearRow d.w1 d.b1 n (y.map (max 0)))) := by
  obtain ⟨h1, h2, -⟩ := hb
  refine ⟨?_, ?_, ?_⟩
  · intro hx hne
    unfold LatentDecoder.forward
    rw [if_neg (by rw [h2]; omega), if_neg (by omega), h1]
  · intro hx
    unfold LatentDecoder.forward
    rw [if_pos (by rw [h2]; omega), h1, h2]
    rfl
  · intro hx hne
    unfold LatentDecoder.forward
    rw [if_neg (by rw [h2]; omega), if_pos (by omega), h1]
    rfl

end

/-- A decoder for two classes whose first map is the identity and whose third is 0: a row of a node is not decoded by the first map. -/
example : Spec.Built (K := ℚ) ⟨2, 4, [[1, 0], [0, 1]], [0, 0], [[0, 0, 0, 0], [0, 0, 0, 0]], [0, 0], [[0, 0], [0, 0]], [5, 7]⟩ 2 ∧
    (LatentDecoder.mk (K := ℚ) 2 4 [[1, 0], [0, 1]] [0, 0] [[0, 0, 0, 0], [0, 0, 0, 0]] [0, 0] [[0, 0], [0, 0]] [5, 7]).forward [1, 2] = .ok [5, 7] := by
  constructor
  · exact ⟨rfl, rfl, rfl, rfl, rfl, rfl, rfl, rfl⟩
  · decide +kernel

end NGC
