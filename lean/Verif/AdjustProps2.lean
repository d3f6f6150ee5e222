import Verif.AdjustProps
import Verif.BeatsProps2

/-! Property theorems C125 (tempo map after `adjust_times`) and C126 (time signatures after `adjust_times`). -/

namespace NGC

open Spec (seconds scaleAt TempoMap tickPts TickStrict NearestTick)

theorem timeMap_strict (m : List (ℚ × ℚ)) (hm : Spec.Strict2 m) : timeMap m = m := by
  have hmono := Strict2.mono hm
  unfold timeMap
  rw [sortByKey_of_sorted Prod.fst m (hm.imp (fun h => h.1.le)), dedupKeys_of_strict m (hm.imp (fun h => h.1))]
  cases m with
  | nil => rfl
  | cons p rest =>
    have h' := List.pairwise_cons.1 hmono
    dsimp only
    rw [runMax_of_mono p.2 rest (h'.2.imp (fun h => h.2)) (fun q hq => (h'.1 q hq).2)]

/-! ## C125 -/

/-- **C125, the new tempo map.** `adjust_times(original, new)` on an object with a tempo map: let every original time have a
nearest tick, let these ticks and the new times increase strictly (at least two points), and let the first new time be `n`
ticks at 120 quarter notes per minute (`n = 0` if it is 0). Then the new tempo map is a tempo map at the same
resolution. It gives the first `n` ticks 120 quarter notes per minute. From there on tick `n + k - a` of the new
map is at the moved time of tick `k` of the old one, where the move is the linear interpolation of the points put on their
nearest ticks. -/
theorem C125_tempo_map (c : Clock) (h : ClockOk c) (hs : ∀ p ∈ c.scales, p.1 < 1000000000) (m : List (ℚ × ℚ))
    (a b : Nat × ℚ) (P : List (Nat × ℚ)) (hP : TickStrict P) (h2 : 2 ≤ P.length) (ha : P.head? = some a)
    (hb : P.getLast? = some b) (n : Nat) (hn : a.2 = n * (60 / (120 * (c.res : ℚ))))
    (hm : List.Forall₂ (fun e p => e.2 = p.2 ∧ NearestTick c.scales e.1 p.1) m P) :
    ∃ c', adjTempo c m = .ok c' ∧ ClockOk c' ∧ c'.res = c.res ∧
      (∀ j, j ≤ n → seconds c'.scales j = j * (60 / (120 * (c.res : ℚ)))) ∧
      ∀ k, a.1 ≤ k → k ≤ b.1 →
        seconds c'.scales (n + k - a.1) = interp (tickPts c.scales P) (seconds c.scales k) := by
  obtain ⟨a', p2, rest, rfl⟩ : ∃ a' p2 rest, P = a' :: p2 :: rest := by
    match P, h2 with
    | x :: y :: z, _ => exact ⟨x, y, z, rfl⟩
  simp only [List.head?_cons, Option.some.injEq] at ha
  subst ha
  obtain ⟨c', e1, e2, e3, e4, e5⟩ := adjTempo_eq c h hs m a' p2 b rest hP hb n hn hm
  exact ⟨c', e1, e2, e3, e5, e4⟩

theorem nearest_self (S : List (Nat × ℚ)) (hS : TempoMap S) (k : Nat) : NearestTick S (seconds S k) k := by
  intro j hj
  rw [sub_self, abs_zero, abs_pos, sub_ne_zero]
  rcases Nat.lt_or_gt_of_ne hj with h | h
  · exact ne_of_gt (seconds_strictMono S hS h)
  · exact ne_of_lt (seconds_strictMono S hS h)

theorem timeToTick_seconds (c : Clock) (h : ClockOk c) (k : Nat) : c.timeToTick (seconds c.scales k) = .ok (k : Int) := by
  obtain ⟨k', e1, e2⟩ := C57_nearest c h (seconds c.scales k)
  by_cases hk : k' = k
  · rw [← hk]; rw [← hk] at e1; exact e1
  · exact absurd (e2 k) (not_le.2 (nearest_self c.scales h.2.1 k k' hk))

/-- A clock as the API can leave it: a tempo map and a table of the seconds of the first ticks, however short. -/
def ClockLoose (c : Clock) : Prop :=
  0 < c.res ∧ TempoMap c.scales ∧ ∃ M, c.times = (List.range (M + 1)).map (fun k => seconds c.scales k)

theorem ClockOk.loose {c : Clock} (h : ClockOk c) : ClockLoose c := by
  obtain ⟨h1, h2, M, _, h3⟩ := h
  exact ⟨h1, h2, M, h3⟩

theorem tickToTime_loose (c : Clock) (h : ClockLoose c) (k : Nat) (hk : k < 1000000000) :
    ∃ c', c.tickToTime k = .ok (seconds c.scales k, c') ∧ ClockLoose c' ∧ c'.scales = c.scales ∧ c'.res = c.res ∧
      k < c'.times.length ∧ c.times.length ≤ c'.times.length := by
  obtain ⟨hres, hm, M, ht⟩ := h
  unfold Clock.tickToTime
  rw [if_neg (by omega)]
  by_cases hl : c.times.length ≤ k
  · simp only [hl, if_true]
    obtain ⟨M', h1, h2, h3⟩ := tickTable_eq c.scales hm k
    refine ⟨{ c with times := tickTable c.scales k }, ?_, ⟨hres, hm, M', h3⟩, rfl, rfl, ?_, ?_⟩
    · rw [h3, List.getElem?_map, List.getElem?_range (by omega)]
      rfl
    · show k < (tickTable c.scales k).length
      rw [h3]; simp; omega
    · show _ ≤ (tickTable c.scales k).length
      rw [h3]; simp; omega
  · simp only [hl, if_false]
    refine ⟨c, ?_, ⟨hres, hm, M, ht⟩, rfl, rfl, by omega, le_refl _⟩
    have : k < M + 1 := by rw [ht] at hl; simpa using hl
    rw [ht, List.getElem?_map, List.getElem?_range this]
    rfl

theorem tempoChangesGo_loose : ∀ (l : List (Nat × ℚ)) (c : Clock), ClockLoose c → (∀ p ∈ l, p.1 < 1000000000 ∧ 0 < p.2) →
    ∃ c', tempoChangesGo c l = .ok (l.map (fun p => (seconds c.scales p.1, 60 / (p.2 * (c.res : ℚ)))), c') ∧ ClockLoose c' ∧
      c'.scales = c.scales ∧ c'.res = c.res ∧ (∀ p ∈ l, p.1 < c'.times.length) ∧ c.times.length ≤ c'.times.length := by
  intro l
  induction l with
  | nil => intro c h _; exact ⟨c, rfl, h, rfl, rfl, by simp, le_refl _⟩
  | cons p l ih =>
    intro c hc hl
    obtain ⟨tick, s⟩ := p
    obtain ⟨hp1, hp2⟩ := hl (tick, s) (by simp)
    obtain ⟨d, e1, e2, e3, e4, e5, e6⟩ := tickToTime_loose c hc tick hp1
    obtain ⟨c', f1, f2, f3, f4, f5, f6⟩ := ih d e2 (fun q hq => hl q (by simp [hq]))
    have hr : (0 : ℚ) < c.res := by exact_mod_cast hc.1
    have hne : ¬ (s * (d.res : ℚ) = 0) := by
      rw [e4]; exact ne_of_gt (mul_pos hp2 hr)
    refine ⟨c', ?_, f2, f3.trans e3, f4.trans e4, ?_, le_trans e6 f6⟩
    · unfold tempoChangesGo
      simp only [e1, bind, Except.bind, f1, if_neg hne]
      rw [e3, f4, e4]
      rfl
    · intro q hq
      rcases List.mem_cons.1 hq with rfl | hq
      · exact lt_of_lt_of_le e5 f6
      · exact f5 q hq

/-- `get_tempo_changes()` on such a clock: the tempo changes, and a clock whose table reaches the last tempo change. -/
theorem tempoChanges_loose (c : Clock) (h : ClockLoose c) (hs : ∀ p ∈ c.scales, p.1 < 1000000000) :
    ∃ c', c.tempoChanges = .ok (c.scales.map (fun p => (seconds c.scales p.1, 60 / (p.2 * (c.res : ℚ)))), c') ∧ ClockOk c' ∧
      c'.scales = c.scales ∧ c'.res = c.res := by
  obtain ⟨c', f1, ⟨g1, g2, M, g3⟩, f3, f4, f5, _⟩ :=
    tempoChangesGo_loose c.scales c h (fun p hp => ⟨hs p hp, h.2.1.pos p hp⟩)
  refine ⟨c', f1, ⟨g1, g2, M, ?_, g3⟩, f3, f4⟩
  intro p hp
  have := f5 p (f3 ▸ hp)
  rw [g3] at this
  simp at this
  omega

/-- **C125, notes keep their ticks.** Let the original times be times of ticks (the points `P`), strictly increasing like the new times, the
first new time `n` ticks at 120 quarter notes per minute. If `adjust_times` succeeds, every note that starts and ends on ticks within the range has
a counterpart with the same pitch and velocity in the same instrument, and its start and end are at the same ticks as before,
all shifted by the same number of ticks. -/
theorem C125_notes_keep_ticks (fuel : Nat) (pm pm' : PM) (h : ClockLoose pm.clock) (hs : ∀ p ∈ pm.clock.scales, p.1 < 1000000000)
    (a b : Nat × ℚ) (P : List (Nat × ℚ)) (hP : TickStrict P) (h2 : 2 ≤ P.length) (ha : P.head? = some a)
    (hb : P.getLast? = some b) (n : Nat) (hn : a.2 = n * (60 / (120 * (pm.clock.res : ℚ))))
    (hadj : pm.adjustTimes fuel (tickPts pm.clock.scales P) = .ok (some pm'))
    (i : Nat) (inst : PInst) (hi : pm.insts[i]? = some inst) (x : PNote) (hx : x ∈ inst.notes) (k1 k2 : Nat) (hk : k1 < k2)
    (hk1 : a.1 ≤ k1) (hk2 : k2 ≤ b.1) (hx1 : x.start = seconds pm.clock.scales k1) (hx2 : x.stop = seconds pm.clock.scales k2) :
    ∃ inst' x', pm'.insts[i]? = some inst' ∧ x' ∈ inst'.notes ∧ x'.pitch = x.pitch ∧ x'.velocity = x.velocity ∧
      pm'.clock.timeToTick x'.start = .ok ((n + k1 - a.1 : Nat) : Int) ∧
      pm'.clock.timeToTick x'.stop = .ok ((n + k2 - a.1 : Nat) : Int) := by
  have hS := h.2.1
  have hr : (0 : ℚ) < pm.clock.res := by exact_mod_cast h.1
  have hm : List.Forall₂ (fun e p => e.2 = p.2 ∧ NearestTick pm.clock.scales e.1 p.1) (tickPts pm.clock.scales P) P := by
    unfold tickPts
    generalize P = Q
    induction Q with
    | nil => exact .nil
    | cons y Q ih => exact .cons ⟨rfl, nearest_self _ hS _⟩ ih
  obtain ⟨c0, t1, t2, t3, t4⟩ := tempoChanges_loose pm.clock h hs
  obtain ⟨c', e1, e2, e3, _, e5⟩ := C125_tempo_map c0 t2 (by rw [t3]; exact hs) _ a b P hP h2 ha hb n (by rw [t4]; exact hn)
    (by rw [t3]; exact hm)
  rw [t3] at e5
  have hstr := tickPts_strict pm.clock.scales hS P hP
  have hmap := timeMap_strict _ hstr
  have hhead : (tickPts pm.clock.scales P).head? = some (seconds pm.clock.scales a.1, a.2) := by
    unfold tickPts; rw [List.head?_map, ha]; rfl
  have hlast : (tickPts pm.clock.scales P).getLast? = some (seconds pm.clock.scales b.1, b.2) := by
    unfold tickPts; rw [List.getLast?_map, hb]; rfl
  unfold PM.adjustTimes at hadj
  cases hd : pm.downbeats fuel 0 with
  | error e => rw [hd] at hadj; simp [bind, Except.bind] at hadj
  | ok o =>
    rw [hd] at hadj
    cases o with
    | none => simp [bind, Except.bind] at hadj
    | some ds =>
      simp only [bind, Except.bind, hmap, hhead, t1, e1, Except.ok.injEq, Option.some.injEq] at hadj
      subst hadj
      refine ⟨adjInst (tickPts pm.clock.scales P) inst,
        { x with start := interp (tickPts pm.clock.scales P) x.start, stop := interp (tickPts pm.clock.scales P) x.stop },
        by simp [hi], ?_, rfl, rfl, ?_, ?_⟩
      · unfold adjInst adjNotes
        rw [hhead, hlast]
        have hpos : ∀ t, 0 ≤ interp (tickPts pm.clock.scales P) t := by
          intro t
          have h0 : 0 ≤ a.2 := by rw [hn]; positivity
          refine le_trans h0 ?_
          cases P with
          | nil => simp at ha
          | cons y Q =>
            simp only [List.head?_cons, Option.some.injEq] at ha
            subst ha
            exact interp_ge_head (tickPts pm.clock.scales Q) _ t (Strict2.mono hstr)
        have hclip : ∀ q : ℚ, 0 ≤ q → clip0 q = q := by
          intro q hq
          unfold clip0
          split
          · rfl
          · linarith
        rw [List.mem_filter, List.mem_map]
        refine ⟨⟨x, List.mem_filter.2 ⟨hx, ?_⟩, ?_⟩, ?_⟩
        · rw [hx1, hx2]
          exact decide_eq_true ⟨seconds_mono _ hS hk1, seconds_mono _ hS hk2⟩
        · simp only [hclip _ (hpos _)]
        · refine decide_eq_true ?_
          show interp _ _ < interp _ _
          rw [hx1, hx2]
          exact interp_strict _ _ _ _ _ hstr hhead hlast (seconds_mono _ hS hk1) (seconds_strictMono _ hS hk) (seconds_mono _ hS hk2)
      · show c'.timeToTick (interp _ x.start) = _
        rw [hx1, ← e5 k1 hk1 (by omega)]
        exact timeToTick_seconds c' e2 _
      · show c'.timeToTick (interp _ x.stop) = _
        rw [hx2, ← e5 k2 (by omega) hk2]
        exact timeToTick_seconds c' e2 _

theorem nonRepeatsGo_flat : ∀ (l : List (ℚ × ℚ)) (p : ℚ × ℚ), (∀ q ∈ l, q.2 = p.2) → nonRepeatsGo p l = [] := by
  intro l
  induction l with
  | nil => intro _ _; rfl
  | cons q l ih =>
    intro p h
    have hq := h q (by simp)
    unfold nonRepeatsGo
    rw [if_neg (fun hc => hc.1 hq.symm)]
    exact ih q (fun x hx => by rw [h x (by simp [hx]), hq])

/-- **C125, everything to one moment.** If all new times are the same (in particular, if there is only one), `adjust_times`
ends in an IndexError when it computes the tempo map. -/
theorem C125_one_moment (c : Clock) (h : ClockOk c) (hs : ∀ p ∈ c.scales, p.1 < 1000000000) (m : List (ℚ × ℚ)) (v : ℚ)
    (hm : ∀ p ∈ m, p.2 = v) : adjTempo c m = .error .index := by
  have hgrid : (∃ ts c', gridTimes c (m.map Prod.fst) = .ok (ts, c') ∧ ClockOk c' ∧ c'.scales = c.scales) ∨
      gridTimes c (m.map Prod.fst) = .error .index := by
    unfold gridTimes
    cases hl : (m.map Prod.fst).getLast? with
    | none => right; rfl
    | some last =>
      obtain ⟨k, e1, _⟩ := C57_nearest c h last
      obtain ⟨M, hM1, hM2, hM3⟩ := tickTable_eq c.scales h.2.1 k
      have hok : ClockOk { c with times := tickTable c.scales k } := ⟨h.1, h.2.1, M, hM2, hM3⟩
      simp only [e1, bind, Except.bind, Int.toNat_natCast]
      have key : ∀ l : List ℚ, (∃ ts, l.mapM ({ c with times := tickTable c.scales k } : Clock).gridTime = .ok ts) ∨
          l.mapM ({ c with times := tickTable c.scales k } : Clock).gridTime = .error .index := by
        intro l
        induction l with
        | nil => left; exact ⟨[], rfl⟩
        | cons t l ih =>
          have hg : (∃ x, ({ c with times := tickTable c.scales k } : Clock).gridTime t = .ok x) ∨
              ({ c with times := tickTable c.scales k } : Clock).gridTime t = .error .index := by
            obtain ⟨j, j1, _⟩ := C57_nearest _ hok t
            unfold Clock.gridTime
            simp only [j1, bind, Except.bind]
            split
            · left; exact ⟨_, rfl⟩
            · right; rfl
          rw [List.mapM_cons]
          rcases hg with ⟨x, hg⟩ | hg
          · rcases ih with ⟨ts, ih⟩ | ih
            · left; refine ⟨x :: ts, ?_⟩
              rw [hg, ih]; rfl
            · right; rw [hg, ih]; rfl
          · right; rw [hg]; rfl
      rcases key (m.map Prod.fst) with ⟨ts, hk⟩ | hk
      · left; rw [hk]; exact ⟨ts, _, rfl, hok, rfl⟩
      · right; rw [hk]
  unfold adjTempo
  rcases hgrid with ⟨ts, c', g1, g2, g3⟩ | g1
  · obtain ⟨c2, t1⟩ := C99_tempo_changes c' g2 (by rw [g3]; exact hs)
    simp only [g1, t1, bind, Except.bind]
    have hsnd : ∀ p ∈ ts.zip (m.map Prod.snd), p.2 = v := by
      intro p hp
      have := (List.of_mem_zip hp).2
      obtain ⟨y, hy, e⟩ := List.mem_map.1 this
      rw [← e]; exact hm y hy
    have hshort : ∀ l : List (ℚ × ℚ), (∀ p ∈ l, p.2 = v) → nonRepeats l = [] ∨ ∃ p, nonRepeats l = [p] := by
      intro l hl
      cases l with
      | nil => left; rfl
      | cons p l =>
        right
        refine ⟨p, ?_⟩
        show p :: nonRepeatsGo p l = _
        rw [nonRepeatsGo_flat l p (fun q hq => by rw [hl q (by simp [hq]), hl p (by simp)])]
    rcases hshort _ hsnd with e | ⟨p, e⟩ <;> rw [e]
  · simp only [g1, bind, Except.bind]

/-- Non-vacuity: an object at 4 ticks per quarter note with a tempo change at tick 8 (2 s) is stretched: 1 s goes to 0,
2.5 s to 3 s, 4 s to 6 s. All conditions hold. -/
example : ∃ c', adjTempo (beatPM 8 []).clock [(1, 0), (5/2, 3), (4, 6)] = .ok c' ∧ ClockOk c' ∧
    seconds c'.scales 8 = 3 ∧ seconds c'.scales 20 = 6 := by
  obtain ⟨c', e1, e2, _, _, e5⟩ := C125_tempo_map (beatPM 8 []).clock (beatPM_clock 8 []) (by decide) [(1, 0), (5/2, 3), (4, 6)]
    (4, 0) (24, 6) [(4, 0), (12, 3), (24, 6)] (by unfold TickStrict; decide +kernel) (by decide) rfl rfl 0 (by simp)
    (by
      have hS := (beatPM_clock 8 []).2.1
      refine .cons ⟨rfl, ?_⟩ (.cons ⟨rfl, ?_⟩ (.cons ⟨rfl, ?_⟩ .nil))
      · rw [show ((1 : ℚ), (0 : ℚ)).1 = seconds (beatPM 8 []).clock.scales 4 by decide +kernel]; exact nearest_self _ hS 4
      · rw [show ((5/2 : ℚ), (3 : ℚ)).1 = seconds (beatPM 8 []).clock.scales 12 by decide +kernel]; exact nearest_self _ hS 12
      · rw [show ((4 : ℚ), (6 : ℚ)).1 = seconds (beatPM 8 []).clock.scales 24 by decide +kernel]; exact nearest_self _ hS 24)
  refine ⟨c', e1, e2, ?_, ?_⟩
  · rw [show (8 : Nat) = 0 + 12 - 4 from rfl, e5 12 (by decide) (by decide)]; decide +kernel
  · rw [show (20 : Nat) = 0 + 24 - 4 from rfl, e5 24 (by decide) (by decide)]; decide +kernel

/-- The same object, the result in full: the whole method succeeds, its note from 0 to 4 s (outside the range) is gone; with the
range starting at 0 it is kept, and ends at tick 24 as before. -/
example : ((beatPM 8 []).adjustTimes 20 [(1, 0), (4, 6)]).toOption.join.map (fun pm => pm.insts.map PInst.notes) = some [[]] ∧
    ((beatPM 8 []).adjustTimes 20 [(0, 0), (4, 6)]).toOption.join.map
      (fun pm => (pm.clock.scales, pm.insts.map PInst.notes, pm.clock.timeToTick 6)) =
    some ([(0, 3/8), (8, 3/16)], [[⟨90, 60, 0, 6⟩]], .ok 24) := by
  decide +kernel

/-- **C125, defect: a pause that is cut out.** If two neighbouring new times are equal (the music between them is dropped), the tempo map is
computed without the second point: here seconds 0 to 1 are dropped, a note from 1 to 2 s (ticks 4 to 8) is moved to 0 to 1 s, and
in the new map that is ticks 0 to 8: the note became twice as many ticks long, its ticks no longer match the
metre. -/
theorem C125_cut_out :
    adjNotes (timeMap [(0, 0), (1, 0), (2, 1)]) [⟨90, 60, 1, 2⟩] = [⟨90, 60, 0, 1⟩] ∧
    ((beatPM 8 []).clock.timeToTick 1 = .ok 4 ∧ (beatPM 8 []).clock.timeToTick 2 = .ok 8) ∧
    ((adjTempo (beatPM 8 []).clock [(0, 0), (1, 0), (2, 1)]).toOption.map (fun c => (c.timeToTick 0, c.timeToTick 1))) =
      some (.ok 0, .ok 8) := by
  decide +kernel

/-! ## C126 -/

theorem adjTimeSigs_eq (d : ℚ) (ds : List ℚ) (u v : List (Int × Int × ℚ)) (hu : ∀ e ∈ u, e.2.2 ≤ d) (hv : ∀ e ∈ v, d < e.2.2) :
    adjTimeSigs (d :: ds) (u ++ v) = u.dropLast.filter (fun t => decide (t.2.2 ≥ d)) ++
      (match u.getLast? with
       | some e => ((e.1, e.2.1, d) : Int × Int × ℚ)
       | none => (4, 4, d)) :: v := by
  have hf : (u ++ v).zipIdx.filter (fun e => decide (e.1.2.2 ≤ d)) = u.zipIdx := by
    rw [List.zipIdx_append, List.filter_append]
    have h1 : u.zipIdx.filter (fun e => decide (e.1.2.2 ≤ d)) = u.zipIdx := by
      rw [List.filter_eq_self]
      intro e he
      have := List.fst_mem_of_mem_zipIdx he
      simpa using hu _ this
    have h2 : (v.zipIdx (0 + u.length)).filter (fun e => decide (e.1.2.2 ≤ d)) = [] := by
      rw [List.filter_eq_nil_iff]
      intro e he
      have := hv _ (List.fst_mem_of_mem_zipIdx he)
      simpa using this
    rw [h1, h2, List.append_nil]
  unfold adjTimeSigs
  simp only [hf]
  rcases List.eq_nil_or_concat u with rfl | ⟨u', e, rfl⟩
  · simp
  · have hz : (u' ++ [e]).zipIdx.getLast? = some (e, u'.length) := by
      rw [List.zipIdx_append]
      simp
    rw [List.concat_eq_append] at *
    rw [hz]
    simp only [List.getLast?_append, List.getLast?_singleton, Option.some_or, List.dropLast_concat]
    rw [List.append_assoc, List.set_append_right _ _ (Nat.le_refl _)]
    simp only [Nat.sub_self, List.singleton_append, List.set_cons_zero, List.filter_append]
    rw [List.filter_cons_of_pos (by simp)]
    congr 2
    rw [List.filter_eq_self]
    intro e he
    have := hv e he
    simp only [ge_iff_le, decide_eq_true_eq]
    linarith

theorem inForce_sorted {E : Type} (time : E → ℚ) (l : List E) (h : l.Pairwise (fun x y => time x ≤ time y)) (t : ℚ) :
    Spec.inForce time l t = (l.filter (fun e => decide (time e ≤ t))).getLast? := by
  unfold Spec.inForce
  rw [sortByKey_of_sorted time l h]

theorem adjTimeSigs_spec (d : ℚ) (ds : List ℚ) (sigs : List (Int × Int × ℚ))
    (hs : sigs.Pairwise (fun x y => x.2.2 ≤ y.2.2)) :
    (∀ x ∈ adjTimeSigs (d :: ds) sigs, d ≤ x.2.2) ∧ (∃ x ∈ adjTimeSigs (d :: ds) sigs, x.2.2 = d) ∧
    ∀ t, d ≤ t → (Spec.inForce (fun e => e.2.2) (adjTimeSigs (d :: ds) sigs) t).map (fun e => (e.1, e.2.1)) =
      some (((Spec.inForce (fun e => e.2.2) sigs t).map (fun e => (e.1, e.2.1))).getD (4, 4)) := by
  obtain ⟨u, v, e1, e2, e3⟩ := filter_le_of_sorted (fun e : Int × Int × ℚ => e.2.2) hs d
  have hu : ∀ e ∈ u, e.2.2 ≤ d := by
    intro e he
    rw [← e2] at he
    exact of_decide_eq_true (List.mem_filter.1 he).2
  have heq := adjTimeSigs_eq d ds u v hu e3
  rw [← e1] at heq
  obtain ⟨x, hxd, hx⟩ : ∃ x : Int × Int × ℚ, x.2.2 = d ∧
      adjTimeSigs (d :: ds) sigs = u.dropLast.filter (fun t => decide (t.2.2 ≥ d)) ++ x :: v := by
    refine ⟨_, ?_, heq⟩
    cases u.getLast? <;> rfl
  have hvs : v.Pairwise (fun x y => x.2.2 ≤ y.2.2) := by
    rw [e1, List.pairwise_append] at hs
    exact hs.2.1
  have hfd : ∀ y ∈ u.dropLast.filter (fun t => decide (t.2.2 ≥ d)), y.2.2 = d := by
    intro y hy
    have h1 := of_decide_eq_true (List.mem_filter.1 hy).2
    have h2 := hu y (List.dropLast_subset u (List.mem_filter.1 hy).1)
    linarith
  refine ⟨?_, ⟨x, by rw [hx]; simp, hxd⟩, ?_⟩
  · intro y hy
    rw [hx, List.mem_append, List.mem_cons] at hy
    rcases hy with hy | rfl | hy
    · exact (hfd y hy).ge
    · exact hxd.ge
    · exact (e3 y hy).le
  · intro t ht
    have hsorted : (adjTimeSigs (d :: ds) sigs).Pairwise (fun x y => x.2.2 ≤ y.2.2) := by
      rw [hx, List.pairwise_append, List.pairwise_cons]
      refine ⟨?_, ⟨fun y hy => by rw [hxd]; exact (e3 y hy).le, hvs⟩, ?_⟩
      · refine List.Pairwise.filter _ ?_
        rw [e1, List.pairwise_append] at hs
        exact hs.1.sublist (List.dropLast_sublist u)
      · intro y hy z hz
        rw [hfd y hy]
        rcases List.mem_cons.1 hz with rfl | hz
        · exact hxd.ge
        · exact (e3 z hz).le
    rw [inForce_sorted _ _ hsorted, inForce_sorted _ _ hs, heq]
    rw [List.filter_append, List.getLast?_append, e1, List.filter_append, List.getLast?_append]
    have hu' : u.filter (fun e => decide (e.2.2 ≤ t)) = u := by
      rw [List.filter_eq_self]
      intro y hy
      have := hu y hy
      simp only [decide_eq_true_eq]; linarith
    rw [hu']
    rcases List.eq_nil_or_concat u with rfl | ⟨u', e, rfl⟩
    · simp only [List.getLast?_nil]
      rw [List.filter_cons_of_pos (by simpa using ht), List.getLast?_cons]
      cases (v.filter (fun e => decide (e.2.2 ≤ t))).getLast? <;> rfl
    · simp only [List.concat_eq_append, List.getLast?_append, List.getLast?_singleton, Option.some_or]
      rw [List.filter_cons_of_pos (by simpa using ht), List.getLast?_cons]
      cases (v.filter (fun e => decide (e.2.2 ≤ t))).getLast? <;> rfl

/-- **C126.** Let `adjust_times` succeed with strictly increasing times, and let `d` be the first downbeat of the object
in the original range. Then there is a time signature at the moved `d` and none before it, and at
every moment from `d` to the end of the range the moved moment has the metre that the moment had; if it had none, it has
4/4. -/
theorem C126_metre (fuel : Nat) (pm pm' : PM) (l : List (ℚ × ℚ)) (hl : Spec.Strict2 l) (a b : ℚ × ℚ) (ha : l.head? = some a)
    (hb : l.getLast? = some b) (downs : List ℚ) (hd : pm.downbeats fuel 0 = .ok (some downs))
    (d : ℚ) (hd0 : (downs.filter (fun x => decide (a.1 ≤ x))).head? = some d)
    (hadj : pm.adjustTimes fuel l = .ok (some pm')) :
    (∀ x ∈ pm'.timeSigs, interp l d ≤ x.2.2) ∧ (∃ x ∈ pm'.timeSigs, x.2.2 = interp l d) ∧
    ∀ t, d ≤ t → t < b.1 →
      (Spec.inForce (fun e => e.2.2) pm'.timeSigs (interp l t)).map (fun e => (e.1, e.2.1)) =
        some (((Spec.inForce (fun e => e.2.2) pm.timeSigs t).map (fun e => (e.1, e.2.1))).getD (4, 4)) := by
  have hmap := timeMap_strict _ hl
  have hmono := Strict2.mono hl
  unfold PM.adjustTimes at hadj
  rw [hd] at hadj
  simp only [bind, Except.bind, hmap, ha] at hadj
  cases ht : pm.clock.tempoChanges with
  | error e => rw [ht] at hadj; simp at hadj
  | ok tc =>
  rw [ht] at hadj
  simp only at hadj
  cases hc : adjTempo tc.2 l with
  | error e => rw [hc] at hadj; simp at hadj
  | ok c =>
    rw [hc] at hadj
    simp only [Except.ok.injEq, Option.some.injEq] at hadj
    subst hadj
    simp only
    have had : a.1 ≤ d := of_decide_eq_true (List.mem_filter.1 (List.mem_of_head? hd0)).2
    obtain ⟨ds, hds⟩ : ∃ ds, (downs.filter (fun x => decide (x ≥ a.1))) = d :: ds := by
      cases hf : downs.filter (fun x => decide (a.1 ≤ x)) with
      | nil => rw [hf] at hd0; simp at hd0
      | cons y ys =>
        rw [hf] at hd0
        simp only [List.head?_cons, Option.some.injEq] at hd0
        subst hd0
        exact ⟨ys, rfl⟩
    rw [hds, List.map_cons]
    obtain ⟨g1, g2, g3⟩ := adjTimeSigs_spec (interp l d) (ds.map (interp l)) _
      (adj_sorted (fun e : Int × Int × ℚ => e.2.2) (fun e t => (e.1, e.2.1, t)) (fun _ _ => rfl) l hmono a b ha hb pm.timeSigs)
    refine ⟨g1, g2, ?_⟩
    intro t h1 h2
    rw [g3 _ (interp_mono l _ _ hmono h1)]
    have := C121_in_force (fun e : Int × Int × ℚ => e.2.2) (fun e t => (e.1, e.2.1, t)) (fun _ _ => rfl) l hl a b ha hb
      pm.timeSigs t (by linarith) h2
    rw [hmap] at this
    rw [this, Option.map_map]
    rfl

/-- Non-vacuity: an object with 4/4 from 0 s and 6/8 from 2.5 s, of which the part from 1 s on is moved to 0 and slowed down: the first
downbeat in the part is at 2.5 s; its 6/8 is moved with it, and the rest of the bar before it has no signature any more. -/
example : (beatPM 8 [(4, 4, 0), (6, 8, 5/2)]).downbeats 20 0 = .ok (some [0, 5/2]) ∧
    ((beatPM 8 [(4, 4, 0), (6, 8, 5/2)]).adjustTimes 20 [(1, 0), (4, 6)]).toOption.join.map PM.timeSigs = some [(6, 8, 3)] := by
  decide +kernel

end NGC
