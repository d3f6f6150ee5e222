import Verif.WriterProps2

/-! Property theorems C129 (the tempo map written) and C130 (songs with a constant tempo can be written). -/

namespace NGC

open Spec (seconds TempoMap line Strict2 Monotone2 scaleAt Tame Close TempoList)

/-! ### C129 -/

theorem timeToTick_single (c : Clock) (h : c.times = [0]) (p : Nat × ℚ) (hp : c.scales.getLast? = some p) (h0 : p.2 ≠ 0) (t : ℚ) (ht : 0 ≤ t) :
    c.timeToTick t = .ok (roundHE (t / p.2)) := by
  unfold Clock.timeToTick searchsortedLeft
  rw [h]
  by_cases hz : t = 0
  · subst hz
    simp only [show bisectLeft (fun a b : ℚ => decide (a < b)) [0] 0 = 0 by decide +kernel]
    simp [show roundHE 0 = 0 by decide +kernel]
  · have hpos : 0 < t := lt_of_le_of_ne ht (Ne.symm hz)
    have hb : bisectLeft (fun a b : ℚ => decide (a < b)) [0] t = 1 := by
      simp [bisectLeft, bisectGo, hpos]
    simp only [hb, List.length_singleton, if_true, hp, List.getLast?_singleton, if_neg h0]
    simp

/-- **C129, where tempo changes are written.** Whatever the tempo list (times not negative, tempi positive), the tempo changes are written in
the order of the list, each at its own tempo; the tick of each is its time in seconds divided by the tick length of the entry
just before it (rounded), as if that tempo had been in force from the start. -/
theorem C129_tempo_ticks (res : Nat) (hres : 0 < res) (t0 : ℚ) (h0 : 0 < t0) (l : List TempoSig) (hl : ∀ q ∈ l, 0 ≤ q.time ∧ 0 < q.qpm) :
    ∃ c c', Clock.fresh res t0 = .ok c ∧ writeTempos c l = .ok c' ∧ c'.res = res ∧ c'.times = [0] ∧ c'.scales.length = l.length + 1 ∧
      c'.scales[0]? = some (0, 60 / (t0 * res)) ∧
      ∀ (k : Nat) q p, l[k]? = some q → c'.scales[k]? = some p →
        c'.scales[k + 1]? = some ((roundHE (q.time / p.2)).toNat, 60 / (res * q.qpm)) := by
  have hr : (0 : ℚ) < res := by exact_mod_cast hres
  have hfresh : Clock.fresh res t0 = .ok { res := res, scales := [(0, 60 / (t0 * res))], times := [0] } := by
    unfold Clock.fresh
    rw [if_neg (by positivity)]
  have key : ∀ (l : List TempoSig) (c : Clock) (p : Nat × ℚ), (∀ q ∈ l, 0 ≤ q.time ∧ 0 < q.qpm) → c.res = res → c.times = [0] →
      c.scales.getLast? = some p → 0 < p.2 →
      ∃ c' tail, writeTempos c l = .ok c' ∧ c'.res = res ∧ c'.times = [0] ∧ c'.scales = c.scales ++ tail ∧ tail.length = l.length ∧
        ∀ (k : Nat) q x, l[k]? = some q → (p :: tail)[k]? = some x →
          (p :: tail)[k + 1]? = some ((roundHE (q.time / x.2)).toNat, 60 / (res * q.qpm)) := by
    intro l
    induction l with
    | nil => intro c p _ h1 h2 _ _; exact ⟨c, [], rfl, h1, h2, by simp, rfl, by simp⟩
    | cons q l ih =>
      intro c p hq h1 h2 h3 h4
      obtain ⟨hq1, hq2⟩ := hq q (by simp)
      have hpush : c.pushTempo q.time q.qpm =
          .ok { c with scales := c.scales ++ [((roundHE (q.time / p.2)).toNat, 60 / (res * q.qpm))], times := [0] } := by
        unfold Clock.pushTempo
        rw [h1, if_neg (by positivity), timeToTick_single c h2 p h3 h4.ne' _ hq1]
        rfl
      obtain ⟨c', tail, e1, e2, e3, e4, e5, e6⟩ := ih
        { c with scales := c.scales ++ [((roundHE (q.time / p.2)).toNat, 60 / (res * q.qpm))], times := [0] }
        ((roundHE (q.time / p.2)).toNat, 60 / (res * q.qpm)) (fun x hx => hq x (by simp [hx])) h1 rfl (by simp) (by positivity)
      refine ⟨c', ((roundHE (q.time / p.2)).toNat, 60 / (res * q.qpm)) :: tail, ?_, e2, e3, by rw [e4]; simp, by simp [e5], ?_⟩
      · unfold writeTempos
        rw [List.foldlM_cons, hpush]
        exact e1
      · intro k q' x hk hx
        cases k with
        | zero =>
          simp only [List.getElem?_cons_zero, Option.some.injEq] at hk hx
          subst hk; subst hx
          rfl
        | succ k =>
          rw [List.getElem?_cons_succ] at hk hx ⊢
          exact e6 k q' x hk hx
  obtain ⟨c', tail, e1, e2, e3, e4, e5, e6⟩ := key l { res := res, scales := [(0, 60 / (t0 * res))], times := [0] } (0, 60 / (t0 * res)) hl rfl rfl rfl (by positivity)
  refine ⟨_, c', hfresh, e1, e2, e3, by rw [e4]; simp [e5], by rw [e4]; rfl, ?_⟩
  rw [e4]
  exact e6

/-- **C129, one tempo change is right**: a song with its initial tempo at 0 and one change after it is written with the first tempo from the
start and the second from the tick nearest to its time. -/
theorem C129_one_change (res : Nat) (hres : 0 < res) (x y : TempoSig) (hx : x.time = 0) (hx0 : 0 < x.qpm) (hy : 0 ≤ y.time) (hy0 : 0 < y.qpm) :
    ∃ c c' k, Clock.fresh res (initialTempo [x, y]) = .ok c ∧ writeTempos c [x, y] = .ok c' ∧ c'.res = res ∧
      TempoMap c'.scales ∧ |seconds c'.scales k - y.time| ≤ 60 / (res * x.qpm) / 2 ∧
      (∀ j, j < k → scaleAt c'.scales j = 60 / (res * x.qpm)) ∧ ∀ j, k ≤ j → scaleAt c'.scales j = 60 / (res * y.qpm) := by
  have hr : (0 : ℚ) < res := by exact_mod_cast hres
  have hin : initialTempo [x, y] = x.qpm := by simp [initialTempo, hx]
  rw [hin]
  obtain ⟨c, c', e1, e2, e3, _, e5, e6, e7⟩ := C129_tempo_ticks res hres x.qpm hx0 [x, y] (by
    intro q hq
    simp only [List.mem_cons, List.not_mem_nil, or_false] at hq
    rcases hq with rfl | rfl
    · exact ⟨by rw [hx], hx0⟩
    · exact ⟨hy, hy0⟩)
  have f1 := e7 0 x _ rfl e6
  rw [hx, zero_div, show roundHE 0 = 0 by decide +kernel] at f1
  have f2 := e7 1 y _ rfl f1
  have hsc : c'.scales = [(0, 60 / (x.qpm * res)), (0, 60 / (res * x.qpm)), ((roundHE (y.time / (60 / (res * x.qpm)))).toNat, 60 / (res * y.qpm))] := by
    apply List.ext_getElem?
    intro i
    match i with
    | 0 => exact e6
    | 1 => exact f1
    | 2 => exact f2
    | i + 3 => rw [List.getElem?_eq_none (by rw [e5]; simp), List.getElem?_eq_none (by simp)]
  have hs : 0 < 60 / ((res : ℚ) * x.qpm) := by positivity
  have hsy : 0 < 60 / ((res : ℚ) * y.qpm) := by positivity
  have hcomm : x.qpm * (res : ℚ) = res * x.qpm := mul_comm _ _
  generalize hk : (roundHE (y.time / (60 / (res * x.qpm)))).toNat = k at hsc
  have hdiv : 0 ≤ y.time / (60 / (res * x.qpm)) := div_nonneg hy hs.le
  have hscale1 : ∀ j, j < k → scaleAt c'.scales j = 60 / (res * x.qpm) := by
    intro j hj
    have hnot : ¬ k ≤ j := by omega
    simp [scaleAt, hsc, hnot]
  refine ⟨c, c', k, e1, e2, e3, ?_, ?_, hscale1, ?_⟩
  · refine ⟨⟨_, _, hsc⟩, ?_, ?_⟩
    · rw [hsc]; simp
    · rw [hsc]
      intro p hp
      simp only [List.mem_cons, List.not_mem_nil, or_false] at hp
      rcases hp with rfl | rfl | rfl
      · show 0 < 60 / (x.qpm * (res : ℚ)); rw [hcomm]; exact hs
      · exact hs
      · exact hsy
  · have hsec : seconds c'.scales k = k * (60 / (res * x.qpm)) := by
      unfold seconds
      rw [List.map_congr_left (g := fun _ => 60 / ((res : ℚ) * x.qpm)) (fun j hj => hscale1 j (List.mem_range.1 hj))]
      simp
    rw [hsec]
    have habs := roundHE_spec (y.time / (60 / (res * x.qpm)))
    rw [abs_sub_comm] at habs
    have hnn : 0 ≤ roundHE (y.time / (60 / (res * x.qpm))) := roundHE_nonneg hdiv
    have hcast : ((k : Nat) : ℚ) = ((roundHE (y.time / (60 / (res * x.qpm))) : Int) : ℚ) := by
      rw [← hk]
      exact_mod_cast (Int.toNat_of_nonneg hnn)
    rw [hcast]
    have : ((roundHE (y.time / (60 / (res * x.qpm))) : Int) : ℚ) * (60 / (res * x.qpm)) - y.time =
        (((roundHE (y.time / (60 / (res * x.qpm))) : Int) : ℚ) - y.time / (60 / (res * x.qpm))) * (60 / (res * x.qpm)) := by
      rw [sub_mul, div_mul_cancel₀ _ hs.ne']
    rw [this, abs_mul, abs_of_pos hs]
    have h2 : |((roundHE (y.time / (60 / (res * x.qpm))) : Int) : ℚ) - y.time / (60 / (res * x.qpm))| ≤ 1/2 := habs
    nlinarith
  · intro j hj
    simp [scaleAt, hsc, hj]

/-- **C129, defect: the second change is wrong.** 120 quarter notes per minute from 0, 60 from 10 s, 120 again from 20 s, four ticks per
quarter note: the second change should be at tick 120 (20 s), and is written at tick 80, the tick of the first change: in the written
object the tempo 60 is never in force, and the second change is at 10 s. -/
theorem C129_second_change_wrong : ∃ c c', Clock.fresh 4 120 = .ok c ∧
    writeTempos c [⟨0, 120, 4, 0⟩, ⟨10, 60, 4, 1⟩, ⟨20, 120, 4, 2⟩] = .ok c' ∧
    c'.scales = [(0, 1/8), (0, 1/8), (80, 1/4), (80, 1/8)] ∧ (c'.tempoChanges.map Prod.fst) = .ok [(0, 120), (0, 120), (10, 60), (10, 120)] := by
  refine ⟨⟨4, [(0, 1/8)], [0]⟩, ⟨4, [(0, 1/8), (0, 1/8), (80, 1/4), (80, 1/8)], [0]⟩, ?_, ?_, ?_, ?_⟩ <;> decide +kernel

/-! ### Examples -/

/-- A waltz in a minor key with a melody (with bends and control changes) and a drum, at 120. -/
def songPM : PM :=
  { clock := { res := 4, scales := [(0, 1/8)], times := [0] }, drum := 9, timeSigs := [(3, 4, 0)], keySigs := [(21, 0)], lyrics := []
    insts := [⟨5, false, "", [⟨90, 60, 0, 1/2⟩, ⟨80, 62, 1/2, 1⟩], [(100, 0), (50, 1/2)], [(7, 100, 1/2), (64, 127, 1)]⟩,
              ⟨0, true, "", [⟨70, 36, 1/2, 2⟩], [], []⟩] }

/-- Reading an object and writing the song. -/
def viaWrite (pm : PM) (fs te : Option ℚ) : Py (Option PM) := do
  let s ← readSong pm
  s.write (sortByKey Sig.time) byCount 40 (initialTempo s.tempos) "a.mid" false fs te

/-- The song is written: the hypotheses of C127_checks, C127_needs_pulse and C128 hold of a real song. Program 5 becomes 0. -/
example : ((viaWrite songPM none (some 2)).toOption.join.map (fun pm => pm.insts.map (fun i => (i.program, i.isDrum, i.notes)))) =
    some [(0, false, []), (0, false, [⟨90, 60, 0, 1/2⟩, ⟨80, 62, 1/2, 1⟩]), (0, true, [⟨70, 36, 1/2, 2⟩])] := by decide +kernel

/-- `from_start = 1` does not cut the first second off: the song is squeezed into the second second. -/
example : ((viaWrite songPM (some 1) (some 2)).toOption.join.map (fun pm => pm.insts.map (fun i => i.notes))) =
    some [[], [⟨90, 60, 1, 5/4⟩, ⟨80, 62, 5/4, 3/2⟩], [⟨70, 36, 5/4, 2⟩]] := by decide +kernel

example : (viaWrite songPM none none).toOption.join.isSome = false := by decide +kernel

/-- The tracks of the song that was read all have an index. -/
example : ∃ s ts, readSong songPM = .ok s ∧ Spec.Registered s ts ∧ s.tracks.allSeqs = .ok ts ∧ ts.length = 2 ∧
    ∀ t ∈ ts, ∀ n ∈ t.notes, 0 ≤ n.start ∧ n.start < n.stop := by
  cases h : readSong songPM with
  | error e =>
    exact absurd (show (readSong songPM).toOption.isSome = true by decide +kernel) (by simp [h, Except.toOption])
  | ok s =>
    have hex : (readSong songPM).toOption.bind (fun s => s.tracks.allSeqs.toOption.map
        (fun ts => (s.tracks.seqs.keys, decide (s.tracks.toIdx.lookup 0 = some 0 ∧ s.tracks.toIdx.lookup 1 = some 1 ∧
          s.tracks.seqs.lookup 0 = ts[0]? ∧ s.tracks.seqs.lookup 1 = ts[1]? ∧ ts.length = 2 ∧
          ∀ t ∈ ts, ∀ n ∈ t.notes, 0 ≤ n.start ∧ n.start < n.stop)))) = some ([0, 1], true) := by decide +kernel
    cases ha : s.tracks.allSeqs with
    | error e => simp [h, Except.toOption, ha] at hex
    | ok ts =>
      simp only [h, Except.toOption, ha, Option.bind_some, Option.map_some, Option.some.injEq, Prod.mk.injEq, decide_eq_true_eq] at hex
      obtain ⟨hk, h0, h1, h2, h3, h4, h5⟩ := hex
      match ts, h4, ha with
      | [a, b], _, ha =>
        refine ⟨s, [a, b], rfl, ?_, ha, rfl, h5⟩
        unfold Spec.Registered
        rw [hk]
        have g : ∀ (k : Int) (v : MSeq), 0 ≤ k → k < 128 → s.tracks.toIdx.lookup k = some k → s.tracks.seqs.lookup k = some v →
            s.tracks.getItem (s.defaultTrack k) k = .ok (v, s.tracks) := by
          intro k v hk0 hk1 e1 e2
          have e0 : s.tracks.toIdx.has k = true := by
            by_contra hc
            rw [(SDict.lookup_none_iff _ _).2 (Bool.eq_false_iff.2 hc)] at e1
            cases e1
          unfold Tracks.getItem
          simp [e0, e1, e2, SDict.getItem, bind, Except.bind, show ¬ (k < 0 ∨ k ≥ 128) by omega]
        exact .cons (g 0 a (by decide) (by decide) h0 h2) (.cons (g 1 b (by decide) (by decide) h1 h3) .nil)

/-- The same song with control changes put on the first track: of the two at time 0 (volume and pan) only the second is written, the
one at the end of the last note (2) is not (C128_events). -/
example : ((readSong songPM).toOption.bind (fun s => (s.modifyItem 0 (fun t => .ok { t with ccs :=
      [CC.mk' 7 100 0, CC.mk' 10 64 0, CC.mk' 64 127 2, CC.mk' 1 9 1] })).toOption.bind (fun s =>
        ((s.write (sortByKey Sig.time) byCount 40 120 "a.mid" false none (some 2)).toOption.join
          |>.map (fun pm => pm.insts.map (fun i => i.controls)))))) = some [[], [(10, 64, 0), (1, 9, 1)], []] := by decide +kernel

/-- A set of sequences filled by assignment, with the notes of the melody: never written (C127_assigned_never_written). -/
example : ((readSong songPM).toOption.bind (fun s => s.tracks.allSeqs.toOption.bind (fun ts => ts.head?.bind (fun t =>
      ((Tracks.empty : Tracks MSeq).setItem 0 t).toOption.bind (fun d =>
        (({ s with tracks := d } : Song).write (sortByKey Sig.time) byCount 40 120 "a.mid" false none (some 2)).toOption.join
          |>.map (fun pm => pm.insts.length)))))) = none := by decide +kernel

end NGC
