import Verif.PrettyMidi
import Mathlib.Tactic.Positivity
import Mathlib.Tactic.FieldSimp
import Mathlib.Algebra.BigOperators.Group.List.Basic

/-! Properties C55, C56, C57, C60: ticks, tempo map, tick table. -/

namespace NGC

/-! ## C55 -/

theorem toAbsGo_spec (t : List Msg) : ∀ (tick : Int),
    toDeltaGo tick (toAbsGo tick t) = t := by
  induction t with
  | nil => intro tick; rfl
  | cons e es ih =>
    intro tick
    simp only [toAbsGo, toDeltaGo]
    have h1 : e.time + tick - tick = e.time := by omega
    have h2 : tick + (e.time + tick - tick) = e.time + tick := by omega
    rw [h2, ih, h1]

theorem toDeltaGo_spec (t : List Msg) : ∀ (tick : Int),
    toAbsGo tick (toDeltaGo tick t) = t := by
  induction t with
  | nil => intro tick; rfl
  | cons e es ih =>
    intro tick
    simp only [toAbsGo, toDeltaGo]
    have h1 : e.time - tick + tick = e.time := by omega
    have h2 : tick + (e.time - tick) = e.time := by omega
    rw [h1, h2, ih]

/-- **C55.** Turning the deltas of a track into absolute ticks and back, and the other way round, is
the identity on every track. -/
theorem C55_roundtrip (t : List Msg) : toDelta (toAbs t) = t ∧ toAbs (toDelta t) = t :=
  ⟨toAbsGo_spec t 0, toDeltaGo_spec t 0⟩

theorem toAbsGo_get (t : List Msg) : ∀ (tick : Int) (i : Nat),
    (toAbsGo tick t)[i]? = t[i]?.map (fun e =>
      { e with time := tick + ((t.take (i + 1)).map (fun e => e.time)).sum }) := by
  induction t with
  | nil => intro tick i; simp [toAbsGo]
  | cons e es ih =>
    intro tick i
    cases i with
    | zero => simp [toAbsGo, Int.add_comm]
    | succ i =>
      simp only [toAbsGo, List.getElem?_cons_succ, ih, List.take_succ_cons, List.map_cons,
        List.sum_cons]
      congr 1
      funext e'
      congr 1
      omega

/-- **C55, meaning.** The absolute tick of the i-th event is the sum of the first i+1 deltas, and
nothing but the tick of an event changes. -/
theorem C55_absolute_is_sum (t : List Msg) (i : Nat) :
    (toAbs t)[i]? = t[i]?.map (fun e =>
      { e with time := ((t.take (i + 1)).map (fun e => e.time)).sum }) := by
  have := toAbsGo_get t 0 i
  simpa [toAbs] using this

theorem toAbsGo_sorted (t : List Msg) (h : ∀ e ∈ t, 0 ≤ e.time) : ∀ (tick : Int),
    (∀ e ∈ toAbsGo tick t, tick ≤ e.time) ∧
    (toAbsGo tick t).Pairwise (fun a b => a.time ≤ b.time) := by
  induction t with
  | nil => intro tick; simp [toAbsGo]
  | cons e es ih =>
    intro tick
    have he := h e (by simp)
    obtain ⟨h1, h2⟩ := ih (fun x hx => h x (by simp [hx])) (e.time + tick)
    simp only [toAbsGo, List.mem_cons, List.pairwise_cons]
    refine ⟨?_, h1, h2⟩
    rintro x (rfl | hx)
    · show tick ≤ e.time + tick
      omega
    · have := h1 x hx; omega

theorem toDeltaGo_nonneg (t : List Msg) : ∀ (tick : Int), (∀ e ∈ t, tick ≤ e.time) →
    t.Pairwise (fun a b => a.time ≤ b.time) → ∀ e ∈ toDeltaGo tick t, 0 ≤ e.time := by
  induction t with
  | nil => intro tick _ _ e he; simp [toDeltaGo] at he
  | cons a es ih =>
    intro tick h hp e he
    have ha := h a (by simp)
    rw [List.pairwise_cons] at hp
    simp only [toDeltaGo, List.mem_cons] at he
    rcases he with rfl | he
    · show 0 ≤ a.time - tick
      omega
    · refine ih _ ?_ hp.2 e he
      intro x hx
      have := hp.1 x hx
      omega

/-- **C55, order.** Non-negative deltas give absolute ticks in order, and absolute ticks in order
give non-negative deltas. -/
theorem C55_order (t : List Msg) :
    ((∀ e ∈ t, 0 ≤ e.time) →
      (toAbs t).Pairwise (fun a b => a.time ≤ b.time) ∧ ∀ e ∈ toAbs t, 0 ≤ e.time) ∧
    ((∀ e ∈ t, 0 ≤ e.time) → t.Pairwise (fun a b => a.time ≤ b.time) →
      ∀ e ∈ toDelta t, 0 ≤ e.time) :=
  ⟨fun h => ⟨(toAbsGo_sorted t h 0).2, (toAbsGo_sorted t h 0).1⟩,
   fun h hp => toDeltaGo_nonneg t 0 h hp⟩

/-- A concrete track. -/
example : toAbs [⟨0, .setTempo 500000⟩, ⟨10, .noteOn 0 60 64⟩, ⟨5, .noteOff 0 60 0⟩] =
    [⟨0, .setTempo 500000⟩, ⟨10, .noteOn 0 60 64⟩, ⟨15, .noteOff 0 60 0⟩] := by decide

/-! ## C56 -/

namespace Spec

/-- The seconds per tick in force from tick `k` to tick `k + 1`: the last entry of the tempo map at or
before `k`. -/
def scaleAt (scales : List (Nat × ℚ)) (k : Nat) : ℚ :=
  (((scales.filter (fun p => decide (p.1 ≤ k))).getLast?).map (fun p => p.2)).getD 0

/-- The time of tick `k`: the sum of the lengths of all ticks before it. -/
def seconds (scales : List (Nat × ℚ)) (k : Nat) : ℚ :=
  ((List.range k).map (fun j => scaleAt scales j)).sum

/-- A tempo map: it begins at tick 0, its ticks are in order, its scales are positive. -/
structure TempoMap (scales : List (Nat × ℚ)) : Prop where
  zero : ∃ c rest, scales = (0, c) :: rest
  order : scales.Pairwise (fun a b => a.1 ≤ b.1)
  pos : ∀ p ∈ scales, 0 < p.2

end Spec

theorem seconds_succ (scales : List (Nat × ℚ)) (k : Nat) :
    Spec.seconds scales (k + 1) = Spec.seconds scales k + Spec.scaleAt scales k := by
  simp [Spec.seconds, List.range_succ]

theorem seconds_zero (scales : List (Nat × ℚ)) : Spec.seconds scales 0 = 0 := by
  simp [Spec.seconds]

theorem scaleAt_mem (scales : List (Nat × ℚ)) (h : Spec.TempoMap scales) (k : Nat) :
    ∃ p ∈ scales, p.1 ≤ k ∧ Spec.scaleAt scales k = p.2 := by
  obtain ⟨c, rest, e⟩ := h.zero
  have hne : scales.filter (fun p => decide (p.1 ≤ k)) ≠ [] := by
    rw [e]; simp
  obtain ⟨p, hp⟩ : ∃ p, (scales.filter (fun p => decide (p.1 ≤ k))).getLast? = some p :=
    ⟨_, List.getLast?_eq_some_getLast hne⟩
  have hm := List.mem_of_getLast? hp
  rw [List.mem_filter] at hm
  refine ⟨p, hm.1, by simpa using hm.2, ?_⟩
  simp [Spec.scaleAt, hp]

theorem scaleAt_pos (scales : List (Nat × ℚ)) (h : Spec.TempoMap scales) (k : Nat) :
    0 < Spec.scaleAt scales k := by
  obtain ⟨p, hp, _, e⟩ := scaleAt_mem scales h k
  rw [e]; exact h.pos p hp

theorem seconds_strictMono (scales : List (Nat × ℚ)) (h : Spec.TempoMap scales) {i j : Nat}
    (hij : i < j) : Spec.seconds scales i < Spec.seconds scales j := by
  induction j with
  | zero => omega
  | succ j ih =>
    have := scaleAt_pos scales h j
    rw [seconds_succ]
    rcases Nat.lt_succ_iff_lt_or_eq.1 hij with hl | rfl
    · have := ih hl; linarith
    · linarith

/-- Between two entries the scale is that of the earlier one. -/
theorem scaleAt_between (pre : List (Nat × ℚ)) (s : Nat) (c : ℚ) (rest : List (Nat × ℚ)) (k : Nat)
    (h1 : ∀ p ∈ pre, p.1 ≤ s) (hs : s ≤ k) (h2 : ∀ p ∈ rest, k < p.1) :
    Spec.scaleAt (pre ++ (s, c) :: rest) k = c := by
  have e1 : pre.filter (fun p => decide (p.1 ≤ k)) = pre := by
    rw [List.filter_eq_self]
    intro p hp
    have := h1 p hp
    simp; omega
  have e2 : rest.filter (fun p => decide (p.1 ≤ k)) = [] := by
    rw [List.filter_eq_nil_iff]
    intro p hp
    have := h2 p hp
    simp; omega
  unfold Spec.scaleAt
  rw [List.filter_append, List.filter_cons, e1, e2]
  simp [hs]

/-- From entry `(s, c)` on, up to the next entry, the seconds grow linearly. -/
theorem seconds_linear (pre : List (Nat × ℚ)) (s : Nat) (c : ℚ) (rest : List (Nat × ℚ)) (n : Nat)
    (h1 : ∀ p ∈ pre, p.1 ≤ s) (h2 : ∀ p ∈ rest, s + n ≤ p.1) :
    Spec.seconds (pre ++ (s, c) :: rest) (s + n) = Spec.seconds (pre ++ (s, c) :: rest) s + c * n := by
  induction n with
  | zero => simp
  | succ n ih =>
    have := ih (fun p hp => by have := h2 p hp; omega)
    rw [← Nat.add_assoc, seconds_succ, this,
      scaleAt_between pre s c rest (s + n) h1 (by omega) (fun p hp => by have := h2 p hp; omega)]
    push_cast
    ring

theorem sliceSet_length (arr : List ℚ) (s n : Nat) (f : Nat → ℚ) : (sliceSet arr s n f).length = arr.length := by
  simp [sliceSet]

theorem sliceSet_get (arr : List ℚ) (s n : Nat) (f : Nat → ℚ) (i : Nat) (h : i < arr.length) :
    (sliceSet arr s n f)[i]? = some (if s ≤ i ∧ i < s + n then f (i - s) else arr[i]) := by
  simp only [sliceSet, List.getElem?_mapIdx, List.getElem?_eq_getElem h, Option.map_some]

theorem fillTable_spec (M : Nat) (full : List (Nat × ℚ)) :
    ∀ (suf pre : List (Nat × ℚ)) (last : ℚ) (arr : List ℚ), full = pre ++ suf → suf ≠ [] →
    full.Pairwise (fun a b => a.1 ≤ b.1) → (∀ p ∈ full, p.1 ≤ M) → arr.length = M + 1 →
    (∀ p, suf.head? = some p → last = Spec.seconds full p.1 ∧
      ∀ i, i < p.1 → arr[i]? = some (Spec.seconds full i)) →
    (fillTable M suf last arr).length = M + 1 ∧
    ∀ i, i ≤ M → (fillTable M suf last arr)[i]? = some (Spec.seconds full i) := by
  intro suf
  induction suf with
  | nil => intro pre last arr _ h; exact absurd rfl h
  | cons p suf ih =>
    intro pre last arr hf _ ho hM hlen hp
    obtain ⟨s, c⟩ := p
    obtain ⟨hlast, hprev⟩ := hp (s, c) rfl
    simp only at hlast hprev
    have hpre : ∀ p ∈ pre, p.1 ≤ s := by
      intro p hp
      rw [hf, List.pairwise_append] at ho
      exact ho.2.2 p hp (s, c) (by simp)
    have hsuf : ∀ p ∈ suf, s ≤ p.1 := by
      intro p hp
      rw [hf, List.pairwise_append, List.pairwise_cons] at ho
      exact ho.2.1.1 p hp
    have hsM : s ≤ M := hM (s, c) (by rw [hf]; simp)
    have hlin : ∀ i, s ≤ i → (∀ p ∈ suf, i ≤ p.1) → last + c * ((i - s : Nat) : ℚ) = Spec.seconds full i := by
      intro i hi hi2
      have h := seconds_linear pre s c suf (i - s) hpre (fun p hp => by have := hi2 p hp; omega)
      rw [← hf] at h
      rw [show s + (i - s) = i by omega] at h
      rw [h, hlast]
    cases suf with
    | nil =>
      rw [fillTable]
      refine ⟨by rw [sliceSet_length, hlen], ?_⟩
      intro i hi
      rw [sliceSet_get _ _ _ _ _ (by omega)]
      by_cases hsi : s ≤ i
      · rw [if_pos ⟨hsi, by omega⟩, hlin i hsi (by simp)]
      · rw [if_neg (by omega)]
        have := hprev i (by omega)
        rw [List.getElem?_eq_getElem (by omega)] at this
        exact this
    | cons q rest =>
      obtain ⟨e, c'⟩ := q
      rw [fillTable]
      have hse : s ≤ e := hsuf (e, c') (by simp)
      have heM : e ≤ M := hM (e, c') (by rw [hf]; simp)
      have hrest : ∀ p ∈ (e, c') :: rest, e ≤ p.1 := by
        intro p hp
        rcases List.mem_cons.1 hp with rfl | hp
        · exact Nat.le_refl _
        · rw [hf, List.pairwise_append, List.pairwise_cons, List.pairwise_cons] at ho
          exact ho.2.1.2.1 p hp
      have hval : ∀ i, i ≤ e →
          (sliceSet arr s (e + 1 - s) (fun i => last + c * i))[i]? = some (Spec.seconds full i) := by
        intro i hi
        rw [sliceSet_get _ _ _ _ _ (by omega)]
        by_cases hsi : s ≤ i
        · rw [if_pos ⟨hsi, by omega⟩, hlin i hsi (fun p hp => by have := hrest p hp; omega)]
        · rw [if_neg (by omega)]
          have := hprev i (by omega)
          rw [List.getElem?_eq_getElem (by omega)] at this
          exact this
      refine ih (pre ++ [(s, c)]) _ _ (by rw [hf]; simp) (by simp) ho hM
        (by rw [sliceSet_length, hlen]) ?_
      intro p hp
      simp only [List.head?_cons, Option.some.injEq] at hp
      subst hp
      refine ⟨?_, fun i hi => hval i (by omega)⟩
      have := hval e (Nat.le_refl _)
      simp [List.getD, this]

theorem foldl_max_nat (l : List Nat) (x : Nat) : x ≤ l.foldl max x ∧ ∀ y ∈ l, y ≤ l.foldl max x := by
  induction l generalizing x with
  | nil => simp
  | cons z zs ih =>
    obtain ⟨h1, h2⟩ := ih (max x z)
    simp only [List.foldl_cons, List.mem_cons]
    refine ⟨le_trans (le_max_left _ _) h1, ?_⟩
    rintro y (rfl | hy)
    · exact le_trans (le_max_right _ _) h1
    · exact h2 y hy

/-- The table is the list of the seconds of ticks 0, 1, ..., M, where M is at least the given tick and
every tick of the tempo map. -/
theorem tickTable_eq (scales : List (Nat × ℚ)) (h : Spec.TempoMap scales) (m : Nat) :
    ∃ M, m ≤ M ∧ (∀ p ∈ scales, p.1 ≤ M) ∧
      tickTable scales m = (List.range (M + 1)).map (fun k => Spec.seconds scales k) := by
  obtain ⟨c, rest, e⟩ := h.zero
  obtain ⟨h1, h2⟩ := foldl_max_nat (scales.map (fun p => p.1)) m
  refine ⟨_, h1, fun p hp => h2 p.1 (List.mem_map_of_mem hp), ?_⟩
  have := fillTable_spec ((scales.map (fun p => p.1)).foldl max m) scales scales [] 0
    (List.replicate ((scales.map (fun p => p.1)).foldl max m + 1) 0) rfl (by rw [e]; simp) h.order
    (fun p hp => h2 p.1 (List.mem_map_of_mem hp)) (by simp)
    (by
      intro p hp
      rw [e] at hp
      simp only [List.head?_cons, Option.some.injEq] at hp
      subst hp
      exact ⟨by simp [seconds_zero], fun i hi => by simp at hi⟩)
  obtain ⟨k1, k2⟩ := this
  apply List.ext_getElem?
  intro i
  unfold tickTable
  simp only
  by_cases hi : i ≤ (scales.map (fun p => p.1)).foldl max m
  · rw [k2 i hi]
    rw [List.getElem?_map, List.getElem?_range (by omega)]
    rfl
  · rw [List.getElem?_eq_none (by omega), List.getElem?_eq_none (by simp; omega)]

/-- A `Clock` as the API produces it: a tempo map and a table that holds the seconds of the ticks
0..M, with M at least the last tick of the map. -/
def ClockOk (c : Clock) : Prop :=
  0 < c.res ∧ Spec.TempoMap c.scales ∧ ∃ M, (∀ p ∈ c.scales, p.1 ≤ M) ∧
    c.times = (List.range (M + 1)).map (fun k => Spec.seconds c.scales k)

/-- **C56, what `tick_to_time` returns.** On every object with a tempo map and a correct table,
`tick_to_time(k)` returns, for every tick below one milliard, the sum of the lengths of the ticks
before `k`, each taken at the tempo in force there; the tempo map is unchanged and the (perhaps grown)
table is still correct. Larger ticks raise IndexError. -/
theorem C56_tick_to_time (c : Clock) (h : ClockOk c) (k : Nat) :
    (k < 1000000000 → ∃ c', c.tickToTime k = .ok (Spec.seconds c.scales k, c') ∧ ClockOk c' ∧
      c'.scales = c.scales ∧ c'.res = c.res ∧ c.times <+: c'.times) ∧
    (1000000000 ≤ k → c.tickToTime k = .error .index) := by
  obtain ⟨hres, hm, M, hM, ht⟩ := h
  refine ⟨fun hk => ?_, fun hk => by unfold Clock.tickToTime; rw [if_pos hk]⟩
  unfold Clock.tickToTime
  rw [if_neg (by omega)]
  by_cases hl : c.times.length ≤ k
  · simp only [hl, if_true]
    obtain ⟨M', h1, h2, h3⟩ := tickTable_eq c.scales hm k
    refine ⟨{ c with times := tickTable c.scales k }, ?_, ⟨hres, hm, M', h2, h3⟩, rfl, rfl, ?_⟩
    · rw [h3, List.getElem?_map, List.getElem?_range (by omega)]
      rfl
    · show c.times <+: tickTable c.scales k
      rw [h3, ht]
      have hMM : M + 1 ≤ M' + 1 := by rw [ht] at hl; simp at hl; omega
      rw [List.prefix_iff_eq_take, ← List.map_take, List.take_range]
      simp [Nat.min_eq_left hMM]
  · simp only [hl, if_false]
    refine ⟨c, ?_, ⟨hres, hm, M, hM, ht⟩, rfl, rfl, List.prefix_rfl⟩
    have : k < M + 1 := by rw [ht] at hl; simpa using hl
    rw [ht, List.getElem?_map, List.getElem?_range this]
    rfl

/-- **C56, shape.** Tick 0 is at time 0, each tick adds the (positive) length in force, so the times
are strictly increasing. -/
theorem C56_increasing (scales : List (Nat × ℚ)) (h : Spec.TempoMap scales) :
    Spec.seconds scales 0 = 0 ∧
    (∀ k, Spec.seconds scales (k + 1) = Spec.seconds scales k + Spec.scaleAt scales k ∧
      0 < Spec.scaleAt scales k) ∧
    (∀ i j, i < j → Spec.seconds scales i < Spec.seconds scales j) :=
  ⟨seconds_zero scales, fun k => ⟨seconds_succ scales k, scaleAt_pos scales h k⟩,
   fun _ _ => seconds_strictMono scales h⟩

/-- **C56, fresh objects.** An object built without a file from a positive tempo and resolution has a
correct table. -/
theorem C56_fresh (res : Nat) (tempo : ℚ) (hr : 0 < res) (ht : 0 < tempo) :
    ∃ c, Clock.fresh res tempo = .ok c ∧ ClockOk c ∧ c.scales = [(0, 60 / (tempo * res))] := by
  have hrq : (0 : ℚ) < res := by exact_mod_cast hr
  have hpos : 0 < tempo * res := mul_pos ht hrq
  refine ⟨_, by unfold Clock.fresh; rw [if_neg (ne_of_gt hpos)], ⟨hr, ⟨⟨_, _, rfl⟩, by simp, ?_⟩, 0, by simp, ?_⟩, rfl⟩
  · intro p hp
    simp only [List.mem_singleton] at hp
    subst hp
    exact div_pos (by norm_num) hpos
  · simp [List.range_succ, Spec.seconds]

/-- A user asking for the times of several ticks one after the other, on the same object. -/
def askAll : Clock → List Nat → Py (List ℚ)
  | _, [] => .ok []
  | c, k :: ks => do
    let r ← c.tickToTime k
    let ts ← askAll r.2 ks
    .ok (r.1 :: ts)

/-- **C56, any history of queries.** Whatever ticks are asked in whatever order (all below one
milliard), growing the table in between, each answer is the same as on the initial object. -/
theorem C56_history (c : Clock) (h : ClockOk c) (ks : List Nat) (hk : ∀ k ∈ ks, k < 1000000000) :
    askAll c ks = .ok (ks.map (fun k => Spec.seconds c.scales k)) := by
  induction ks generalizing c with
  | nil => rfl
  | cons k ks ih =>
    obtain ⟨d, e1, e2, e3, _, _⟩ := (C56_tick_to_time c h k).1 (hk k (by simp))
    have := ih d e2 (fun x hx => hk x (by simp [hx]))
    simp only [askAll, e1, bind, Except.bind, this, e3, List.map_cons]

example : (Clock.mk 2 [(0, 1/4), (2, 1/2)] (tickTable [(0, 1/4), (2, 1/2)] 3)).times =
    [0, 1/4, 1/2, 1] := by decide +kernel

/-! ## C57 -/

theorem roundHE_nearest (x : ℚ) (k : Int) : |x - roundHE x| ≤ |x - k| := by
  have h := roundHE_spec x
  by_cases hk : k = roundHE x
  · rw [hk]
  · have h1 : (1 : ℚ) ≤ |(k : ℚ) - roundHE x| := by
      have : (1 : Int) ≤ |k - roundHE x| := Int.one_le_abs (by omega)
      exact_mod_cast this
    have h2 : |(k : ℚ) - roundHE x| ≤ |x - k| + |x - roundHE x| := by
      have := abs_sub_le (k : ℚ) x (roundHE x)
      rw [abs_sub_comm (k : ℚ) x] at this
      exact this
    linarith

/-- Beyond the last entry of the map the seconds are linear. -/
theorem seconds_beyond (scales : List (Nat × ℚ)) (h : Spec.TempoMap scales) (M : Nat)
    (hM : ∀ p ∈ scales, p.1 ≤ M) (p : Nat × ℚ) (hp : scales.getLast? = some p) (n : Nat) :
    Spec.seconds scales (M + n) = Spec.seconds scales M + p.2 * n := by
  obtain ⟨ys, e⟩ := List.getLast?_eq_some_iff.1 hp
  have hle : ∀ q ∈ ys, q.1 ≤ p.1 := by
    intro q hq
    have := h.order
    rw [e, List.pairwise_append] at this
    exact this.2.2 q hq p (by simp)
  have hpM : p.1 ≤ M := hM p (by rw [e]; simp)
  have l1 := seconds_linear ys p.1 p.2 [] (M - p.1) hle (by simp)
  have l2 := seconds_linear ys p.1 p.2 [] (M - p.1 + n) hle (by simp)
  rw [show ys ++ (p.1, p.2) :: [] = scales by rw [e]] at l1 l2
  rw [show p.1 + (M - p.1) = M by omega] at l1
  rw [show p.1 + (M - p.1 + n) = M + n by omega] at l2
  rw [l1, l2]
  push_cast
  ring

theorem searchsorted_spec (c : Clock) (h : ClockOk c) (x : ℚ) :
    searchsortedLeft c.times x ≤ c.times.length ∧
    (∀ i, i < searchsortedLeft c.times x → Spec.seconds c.scales i < x) ∧
    (∀ i, searchsortedLeft c.times x ≤ i → i < c.times.length → x ≤ Spec.seconds c.scales i) := by
  obtain ⟨_, hm, M, hM, ht⟩ := h
  have hw : StrictWeakOn (fun a b : ℚ => decide (a < b)) (x :: c.times) := by
    constructor
    · intro a _ b _ hab
      simp only [decide_eq_true_eq, decide_eq_false_iff_not, not_lt] at *
      exact le_of_lt hab
    · intro a _ b _ d _ had
      simp only [decide_eq_true_eq] at *
      by_cases hab : a < b
      · exact Or.inl hab
      · exact Or.inr (lt_of_le_of_lt (not_lt.1 hab) had)
  have hs : SortedLt (fun a b : ℚ => decide (a < b)) c.times := by
    unfold SortedLt
    rw [ht, List.pairwise_map]
    refine (List.pairwise_lt_range).imp ?_
    intro a b hab
    have := seconds_strictMono c.scales hm hab
    simp only [decide_eq_false_iff_not, not_lt]
    exact le_of_lt this
  obtain ⟨h1, h2, h3⟩ := bisectLeft_spec _ c.times x hw hs
  have hget : ∀ i (hi : i < c.times.length), c.times[i] = Spec.seconds c.scales i := by
    intro i hi
    simp [ht]
  refine ⟨h1, ?_, ?_⟩
  · intro i hi
    have hl : i < c.times.length := lt_of_lt_of_le hi h1
    have := h2 i hl hi
    rw [hget i hl] at this
    simpa using this
  · intro i hi hl
    have := h3 i hl hi
    rw [hget i hl] at this
    simpa using this

/-- **C57, nearest tick.** `time_to_tick(t)` returns, for every time `t` (also negative, also beyond
the table), a non-negative tick whose time is nearest to `t` among all ticks. -/
theorem C57_nearest (c : Clock) (h : ClockOk c) (t : ℚ) :
    ∃ k : Nat, c.timeToTick t = .ok (k : Int) ∧
      ∀ j : Nat, |t - Spec.seconds c.scales k| ≤ |t - Spec.seconds c.scales j| := by
  obtain ⟨s1, s2, s3⟩ := searchsorted_spec c h t
  obtain ⟨_, hm, M, hM, ht⟩ := h
  have hlen : c.times.length = M + 1 := by rw [ht]; simp
  have hgetD : ∀ i, i ≤ M → c.times.getD i 0 = Spec.seconds c.scales i := by
    intro i hi
    rw [List.getD, ht, List.getElem?_map, List.getElem?_range (by omega)]
    rfl
  obtain ⟨c0, rest, e0⟩ := hm.zero
  obtain ⟨p, hp⟩ : ∃ p, c.scales.getLast? = some p :=
    ⟨_, List.getLast?_eq_some_getLast (by rw [e0]; simp)⟩
  have hpos : 0 < p.2 := hm.pos p (List.mem_of_getLast? hp)
  unfold Clock.timeToTick
  simp only
  by_cases he : searchsortedLeft c.times t = c.times.length
  · rw [if_pos he]
    have hlast : c.times.getLast? = some (Spec.seconds c.scales M) := by
      rw [ht, List.range_succ, List.map_append]; simp
    simp only [hp, hlast]
    rw [if_neg (ne_of_gt hpos)]
    have htM : Spec.seconds c.scales M < t := s2 M (by omega)
    have hx0 : 0 < (t - Spec.seconds c.scales M) / p.2 := div_pos (by linarith) hpos
    have hxM : (((M : Nat) : Int) : ℚ) ≤ ((c.times.length : Nat) : ℚ) - 1 + (t - Spec.seconds c.scales M) / p.2 := by
      rw [hlen]; push_cast; linarith
    have hrM : ((M : Nat) : Int) ≤ roundHE (((c.times.length : Nat) : ℚ) - 1 + (t - Spec.seconds c.scales M) / p.2) := by
      have := roundHE_mono hxM
      rwa [roundHE_int] at this
    set x := ((c.times.length : Nat) : ℚ) - 1 + (t - Spec.seconds c.scales M) / p.2 with hx
    have hxe : x = M + (t - Spec.seconds c.scales M) / p.2 := by rw [hx, hlen]; push_cast; ring
    have htx : t = Spec.seconds c.scales M + p.2 * (x - M) := by
      rw [hxe]; field_simp; ring
    have hsec : ∀ j : Nat, M ≤ j → t - Spec.seconds c.scales j = p.2 * (x - j) := by
      intro j hj
      have := seconds_beyond c.scales hm M hM p hp (j - M)
      rw [show M + (j - M) = j by omega] at this
      rw [this, Nat.cast_sub hj]
      linarith
    obtain ⟨k, hk⟩ : ∃ k : Nat, roundHE x = (k : Int) := ⟨(roundHE x).toNat, by omega⟩
    refine ⟨k, by rw [hk], ?_⟩
    have hkM : M ≤ k := by omega
    have hk' : ((roundHE x : Int) : ℚ) = (k : ℚ) := by rw [hk]; push_cast; rfl
    intro j
    rw [hsec k hkM, abs_mul, abs_of_pos hpos]
    by_cases hj : M ≤ j
    · rw [hsec j hj, abs_mul, abs_of_pos hpos]
      have := roundHE_nearest x (j : Int)
      rw [hk'] at this
      push_cast at this
      exact mul_le_mul_of_nonneg_left this (le_of_lt hpos)
    · have hjM : Spec.seconds c.scales j < Spec.seconds c.scales M := seconds_strictMono _ hm (by omega)
      have h1 := roundHE_nearest x (M : Int)
      rw [hk'] at h1
      push_cast at h1
      have h2 : p.2 * |x - k| ≤ p.2 * |x - M| := mul_le_mul_of_nonneg_left h1 (le_of_lt hpos)
      have h3 : p.2 * |x - M| = t - Spec.seconds c.scales M := by
        rw [abs_of_nonneg (by rw [hxe]; linarith), htx]; ring
      rw [h3] at h2
      rw [abs_of_pos (show 0 < t - Spec.seconds c.scales j by linarith)]
      linarith
  · rw [if_neg he]
    have hlt : searchsortedLeft c.times t < c.times.length := by omega
    set q := searchsortedLeft c.times t with hq
    have hqM : q ≤ M := by omega
    have hup : t ≤ Spec.seconds c.scales q := s3 q (le_refl _) hlt
    have habove : ∀ j, q ≤ j → |t - Spec.seconds c.scales q| ≤ |t - Spec.seconds c.scales j| := by
      intro j hj
      have hj' : Spec.seconds c.scales q ≤ Spec.seconds c.scales j := by
        rcases Nat.eq_or_lt_of_le hj with e | hl
        · rw [e]
        · exact le_of_lt (seconds_strictMono _ hm hl)
      rw [abs_of_nonpos (by linarith), abs_of_nonpos (by linarith)]
      linarith
    by_cases hc : q ≠ 0 ∧ |t - c.times.getD (q - 1) 0| < |t - c.times.getD q 0|
    · rw [if_pos hc]
      refine ⟨q - 1, by congr 1; omega, ?_⟩
      rw [hgetD _ (by omega), hgetD _ hqM] at hc
      intro j
      by_cases hj : q ≤ j
      · exact le_trans (le_of_lt hc.2) (habove j hj)
      · have hl := s2 (q - 1) (by omega)
        have hj' : Spec.seconds c.scales j ≤ Spec.seconds c.scales (q - 1) := by
          rcases Nat.eq_or_lt_of_le (show j ≤ q - 1 by omega) with e | hl
          · rw [e]
          · exact le_of_lt (seconds_strictMono _ hm hl)
        rw [abs_of_pos (by linarith), abs_of_pos (by linarith)]
        linarith
    · rw [if_neg hc]
      refine ⟨q, rfl, ?_⟩
      intro j
      by_cases hj : q ≤ j
      · exact habove j hj
      · have hq0 : q ≠ 0 := by omega
        have hc' : |t - Spec.seconds c.scales q| ≤ |t - Spec.seconds c.scales (q - 1)| := by
          rw [hgetD _ (by omega), hgetD _ hqM] at hc
          by_contra hcon
          exact hc ⟨hq0, not_le.1 hcon⟩
        have hl := s2 (q - 1) (by omega)
        have hj' : Spec.seconds c.scales j ≤ Spec.seconds c.scales (q - 1) := by
          rcases Nat.eq_or_lt_of_le (show j ≤ q - 1 by omega) with e | hl
          · rw [e]
          · exact le_of_lt (seconds_strictMono _ hm hl)
        rw [abs_of_pos (show 0 < t - Spec.seconds c.scales (q - 1) by linarith)] at hc'
        rw [abs_of_pos (show 0 < t - Spec.seconds c.scales j by linarith)]
        linarith

/-- **C57, inverse.** `time_to_tick(tick_to_time(k)) = k` for every tick, in and beyond the table. -/
theorem C57_inverse (c : Clock) (h : ClockOk c) (k : Nat) (hk : k < 1000000000) :
    ∃ t c', c.tickToTime k = .ok (t, c') ∧ c.timeToTick t = .ok (k : Int) ∧
      c'.timeToTick t = .ok (k : Int) := by
  have key : ∀ d : Clock, ClockOk d → d.timeToTick (Spec.seconds d.scales k) = .ok (k : Int) := by
    intro d hd
    obtain ⟨j, e, hj⟩ := C57_nearest d hd (Spec.seconds d.scales k)
    have h0 := hj k
    rw [sub_self, abs_zero] at h0
    have h1 : Spec.seconds d.scales k - Spec.seconds d.scales j = 0 := abs_nonpos_iff.1 h0
    have : j = k := by
      rcases Nat.lt_trichotomy j k with hl | he | hl
      · have := seconds_strictMono _ hd.2.1 hl; linarith
      · exact he
      · have := seconds_strictMono _ hd.2.1 hl; linarith
    rw [e, this]
  obtain ⟨c', e1, e2, e3, _, _⟩ := (C56_tick_to_time c h k).1 hk
  refine ⟨_, c', e1, key c h, ?_⟩
  have := key c' e2
  rw [e3] at this
  exact this

example : (Clock.mk 2 [(0, 1/4), (2, 1/2)] (tickTable [(0, 1/4), (2, 1/2)] 3)).timeToTick (3/5) = .ok 2
    ∧ (Clock.mk 2 [(0, 1/4), (2, 1/2)] (tickTable [(0, 1/4), (2, 1/2)] 3)).timeToTick (26/10) = .ok 6 := by
  decide +kernel

/-! ## C60 -/

namespace Spec

/-- Seconds per tick of a tempo given in microseconds per quarter note: `tempo` / 1e6 seconds per
quarter note, divided into `res` ticks. -/
def perTick (res tempo : Nat) : ℚ := (tempo : ℚ) / 1000000 / res

/-- The tempo events of a track: tick and tempo. -/
def tempoEvents (track : List Msg) : List (Nat × Nat) :=
  track.filterMap (fun e => match e.body with | .setTempo t => some (e.time.toNat, t) | _ => none)

/-- The seconds per tick after tick `k` according to the tempo events: the last event at or before
`k`, and 120 quarter notes per minute (500000 microseconds each) before the first one. -/
def tempoInForce (res : Nat) (track : List Msg) (k : Nat) : ℚ :=
  match ((tempoEvents track).filter (fun p => decide (p.1 ≤ k))).getLast? with
  | some p => perTick res p.2
  | none => perTick res 500000

/-- A track as loaded: non-negative ticks in order, no zero tempo. -/
structure GoodTrack (track : List Msg) : Prop where
  nonneg : ∀ e ∈ track, 0 ≤ e.time
  order : track.Pairwise (fun a b => a.time ≤ b.time)
  tempo : ∀ e ∈ track, e.body ≠ .setTempo 0

end Spec

theorem tickScale_eq (res tempo : Nat) (hr : 0 < res) (ht : tempo ≠ 0) :
    tickScale res tempo = .ok (Spec.perTick res tempo) := by
  have h1 : (res : ℚ) ≠ 0 := by exact_mod_cast (by omega : res ≠ 0)
  have h2 : (tempo : ℚ) ≠ 0 := by exact_mod_cast ht
  unfold tickScale Spec.perTick
  rw [if_neg (by omega)]
  congr 1
  field_simp
  norm_num

theorem perTick_pos (res tempo : Nat) (hr : 0 < res) (ht : tempo ≠ 0) : 0 < Spec.perTick res tempo := by
  have h1 : (0 : ℚ) < res := by exact_mod_cast hr
  have h2 : (0 : ℚ) < tempo := by exact_mod_cast (by omega : 0 < tempo)
  unfold Spec.perTick
  positivity

/-- The scale in force at tick `k` as the last entry at or before `k`. -/
theorem scaleAt_append_ge (scales : List (Nat × ℚ)) (t : Nat) (s : ℚ) (k : Nat) (h : t ≤ k) :
    Spec.scaleAt (scales ++ [(t, s)]) k = s := by
  simp [Spec.scaleAt, List.filter_append, h]

theorem scaleAt_append_lt (scales : List (Nat × ℚ)) (t : Nat) (s : ℚ) (k : Nat) (h : k < t) :
    Spec.scaleAt (scales ++ [(t, s)]) k = Spec.scaleAt scales k := by
  simp [Spec.scaleAt, List.filter_append, show ¬ t ≤ k by omega]

theorem scaleAt_all (scales : List (Nat × ℚ)) (k : Nat) (p : Nat × ℚ) (hp : scales.getLast? = some p)
    (h : ∀ q ∈ scales, q.1 ≤ k) : Spec.scaleAt scales k = p.2 := by
  have : scales.filter (fun p => decide (p.1 ≤ k)) = scales := by
    rw [List.filter_eq_self]
    intro q hq
    simpa using h q hq
  simp [Spec.scaleAt, this, hp]

theorem loadTempo_snoc (res : Nat) (hr : 0 < res) (track : List Msg) (hg : Spec.GoodTrack track) :
    ∃ scales, loadTempo res track = .ok scales ∧ Spec.TempoMap scales ∧
      (∀ p ∈ scales, p.1 = 0 ∨ ∃ e ∈ track, p.1 = e.time.toNat) ∧
      scales.IsChain (fun a b => a.2 ≠ b.2) ∧
      ∀ k, Spec.scaleAt scales k = Spec.tempoInForce res track k := by
  have hrq : (res : ℚ) ≠ 0 := by exact_mod_cast (by omega : res ≠ 0)
  unfold loadTempo
  rw [if_neg (by omega)]
  induction track using List.reverseRecOn with
  | nil =>
    have hd : (60 : ℚ) / (120 * res) = Spec.perTick res 500000 := by
      unfold Spec.perTick; field_simp; norm_num
    refine ⟨_, rfl, ⟨⟨_, _, rfl⟩, by simp, ?_⟩, by simp, by simp, ?_⟩
    · intro p hp
      simp only [List.mem_singleton] at hp
      subst hp
      show 0 < (60 : ℚ) / (120 * res)
      rw [hd]; exact perTick_pos res 500000 hr (by decide)
    · intro k
      simp [Spec.scaleAt, Spec.tempoInForce, Spec.tempoEvents, hd]
  | append_singleton es e ih =>
    have hg' : Spec.GoodTrack es :=
      ⟨fun x hx => hg.nonneg x (by simp [hx]), (List.pairwise_append.1 hg.order).1,
       fun x hx => hg.tempo x (by simp [hx])⟩
    obtain ⟨scales, h1, h2, h3, h4, h5⟩ := ih hg'
    have hle : ∀ x ∈ es, x.time ≤ e.time := fun x hx =>
      (List.pairwise_append.1 hg.order).2.2 x hx e (by simp)
    have he0 := hg.nonneg e (by simp)
    rw [List.foldlM_append]
    simp only [h1, bind, Except.bind, List.foldlM_cons, List.foldlM_nil]
    have hother : (∀ t, e.body ≠ .setTempo t) → tempoStep res scales e = .ok scales ∧
        ∀ k, Spec.tempoInForce res (es ++ [e]) k = Spec.tempoInForce res es k := by
      intro hb
      constructor
      · unfold tempoStep
        split
        · rename_i t ht; exact absurd ht (hb t)
        · rfl
      · intro k
        have : Spec.tempoEvents (es ++ [e]) = Spec.tempoEvents es := by
          unfold Spec.tempoEvents
          rw [List.filterMap_append]
          have : (List.filterMap (fun e : Msg => match e.body with
            | .setTempo t => some (e.time.toNat, t) | _ => none) [e]) = [] := by
            rw [List.filterMap_cons]
            split
            · rfl
            · rename_i b hb'
              split at hb'
              · rename_i t ht; exact absurd ht (hb t)
              · cases hb'
          rw [this, List.append_nil]
        simp only [Spec.tempoInForce, this]
    by_cases hb : ∃ t, e.body = .setTempo t
    · obtain ⟨t, ht⟩ := hb
      have ht0 : t ≠ 0 := fun h0 => hg.tempo e (by simp) (by rw [ht, h0])
      have hev : Spec.tempoEvents (es ++ [e]) = Spec.tempoEvents es ++ [(e.time.toNat, t)] := by
        simp [Spec.tempoEvents, ht]
      have hforce_ge : ∀ k, e.time.toNat ≤ k →
          Spec.tempoInForce res (es ++ [e]) k = Spec.perTick res t := by
        intro k hk
        simp [Spec.tempoInForce, hev, List.filter_append, hk]
      have hforce_lt : ∀ k, k < e.time.toNat →
          Spec.tempoInForce res (es ++ [e]) k = Spec.tempoInForce res es k := by
        intro k hk
        simp [Spec.tempoInForce, hev, List.filter_append, show ¬ e.time.toNat ≤ k by omega]
      obtain ⟨c0, rest, e0⟩ := h2.zero
      obtain ⟨p, hp⟩ : ∃ p, scales.getLast? = some p :=
        ⟨_, List.getLast?_eq_some_getLast (by rw [e0]; simp)⟩
      have hmax : ∀ q ∈ scales, q.1 ≤ e.time.toNat := by
        intro q hq
        rcases h3 q hq with h0 | ⟨x, hx, hqx⟩
        · omega
        · have := hle x hx; omega
      have hstep : tempoStep res scales e =
          if e.time = 0 then .ok [(0, Spec.perTick res t)]
          else if Spec.perTick res t ≠ p.2 then .ok (scales ++ [(e.time.toNat, Spec.perTick res t)])
          else .ok scales := by
        unfold tempoStep
        simp only [ht, tickScale_eq res t hr ht0, bind, Except.bind, hp]
      rw [hstep]
      by_cases hz : e.time = 0
      · simp only [hz, if_true, pure, Except.pure]
        refine ⟨_, rfl, ⟨⟨_, _, rfl⟩, by simp, ?_⟩, by simp, by simp, ?_⟩
        · intro q hq
          simp only [List.mem_singleton] at hq
          subst hq
          exact perTick_pos res t hr ht0
        · intro k
          rw [hforce_ge k (by omega)]
          simp [Spec.scaleAt]
      · simp only [hz, if_false]
        by_cases hs : Spec.perTick res t ≠ p.2
        · simp only [hs, if_true, pure, Except.pure, ne_eq, not_false_eq_true]
          refine ⟨_, rfl, ⟨⟨c0, rest ++ [(e.time.toNat, Spec.perTick res t)], by rw [e0]; rfl⟩, ?_, ?_⟩,
            ?_, ?_, ?_⟩
          · rw [List.pairwise_append]
            exact ⟨h2.order, by simp, fun a ha b hb => by
              simp only [List.mem_singleton] at hb
              subst hb
              exact hmax a ha⟩
          · intro q hq
            rcases List.mem_append.1 hq with hq | hq
            · exact h2.pos q hq
            · simp only [List.mem_singleton] at hq
              subst hq
              exact perTick_pos res t hr ht0
          · intro q hq
            rcases List.mem_append.1 hq with hq | hq
            · rcases h3 q hq with h0 | ⟨x, hx, hqx⟩
              · exact Or.inl h0
              · exact Or.inr ⟨x, by simp [hx], hqx⟩
            · simp only [List.mem_singleton] at hq
              subst hq
              exact Or.inr ⟨e, by simp, rfl⟩
          · rw [List.isChain_append]
            refine ⟨h4, by simp, ?_⟩
            intro x hx y hy
            rw [hp] at hx
            simp only [Option.mem_def, Option.some.injEq, List.head?_cons] at hx hy
            subst hx; subst hy
            exact fun h => hs h.symm
          · intro k
            by_cases hk : e.time.toNat ≤ k
            · rw [scaleAt_append_ge _ _ _ _ hk, hforce_ge k hk]
            · rw [scaleAt_append_lt _ _ _ _ (by omega), hforce_lt k (by omega), h5]
        · simp only [hs, if_false, pure, Except.pure]
          have hs' : Spec.perTick res t = p.2 := by simpa using hs
          refine ⟨_, rfl, h2, ?_, h4, ?_⟩
          · intro q hq
            rcases h3 q hq with h0 | ⟨x, hx, hqx⟩
            · exact Or.inl h0
            · exact Or.inr ⟨x, by simp [hx], hqx⟩
          · intro k
            by_cases hk : e.time.toNat ≤ k
            · rw [hforce_ge k hk, scaleAt_all scales k p hp (fun q hq => by have := hmax q hq; omega), hs']
            · rw [hforce_lt k (by omega), h5]
    · obtain ⟨k1, k2⟩ := hother (fun t ht => hb ⟨t, ht⟩)
      rw [k1]
      refine ⟨_, rfl, h2, ?_, h4, fun k => by rw [k2, h5]⟩
      intro q hq
      rcases h3 q hq with h0 | ⟨x, hx, hqx⟩
      · exact Or.inl h0
      · exact Or.inr ⟨x, by simp [hx], hqx⟩

/-- **C60.** Loading the tempo events of a track with ticks in order never raises and gives a tempo map
that begins at tick 0, has its ticks in order, positive scales and no two equal neighbours; at every
tick the scale is the one of the last tempo event at or before it (120 quarter notes per minute before
the first). -/
theorem C60_tempo_map (res : Nat) (hr : 0 < res) (track : List Msg) (hg : Spec.GoodTrack track) :
    ∃ scales, loadTempo res track = .ok scales ∧ Spec.TempoMap scales ∧
      scales.IsChain (fun a b => a.2 ≠ b.2) ∧
      ∀ k, Spec.scaleAt scales k = Spec.tempoInForce res track k := by
  obtain ⟨s, h1, h2, _, h4, h5⟩ := loadTempo_snoc res hr track hg
  exact ⟨s, h1, h2, h4, h5⟩

/-- A track with a tempo change, a repetition and another change. -/
def exTempoTrack : List Msg :=
  [⟨0, .setTempo 500000⟩, ⟨0, .noteOn 0 60 64⟩, ⟨240, .setTempo 250000⟩, ⟨300, .setTempo 250000⟩,
   ⟨480, .setTempo 1000000⟩, ⟨481, .endOfTrack⟩]

example : Spec.GoodTrack exTempoTrack := by
  refine ⟨?_, ?_, ?_⟩ <;> decide

example : (loadTempo 480 exTempoTrack).map (fun s => s.map (fun p => p.1)) = .ok [0, 240, 480] := by
  decide +kernel

/-- **C60, loaded objects.** The scales loaded from a file give a correct table, for every file whose
ticks stay below the limit: `tick_times` then covers every tick up to `m`. -/
theorem C60_loaded_clock (res : Nat) (hr : 0 < res) (track : List Msg) (hg : Spec.GoodTrack track)
    (m : Nat) : ∃ scales, loadTempo res track = .ok scales ∧
      ClockOk ⟨res, scales, tickTable scales m⟩ ∧ m < (tickTable scales m).length := by
  obtain ⟨s, h1, h2, _, _⟩ := C60_tempo_map res hr track hg
  obtain ⟨M, g1, g2, g3⟩ := tickTable_eq s h2 m
  exact ⟨s, h1, ⟨hr, h2, M, g2, g3⟩, by rw [g3]; simp; omega⟩

end NGC
