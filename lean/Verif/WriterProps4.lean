import Verif.WriterProps3
import Verif.DownbeatsProps

/-! Property theorem C130: songs with a constant tempo are written. -/

namespace NGC

namespace Spec

/-- A song with tracks `ts` (all of them with an index), at the constant tempo `q`, whose notes and signatures are in order. -/
structure Constant (s : Song) (ts : List MSeq) (q : ℚ) : Prop where
  reg : Registered s ts
  all : s.tracks.allSeqs = .ok ts
  res : 0 < s.resolution
  pos : 0 < q
  tempo : ∀ x ∈ s.tempos, x.time = 0 ∧ x.qpm = q
  proper : ∀ t ∈ ts, ∀ n ∈ t.notes, 0 ≤ n.start ∧ n.start < n.stop
  times : ∀ x ∈ s.times, 0 < x.numer ∧ 0 < x.denom ∧ 0 ≤ x.time
  distinct : (s.times.map TimeSig.time).Nodup
  apart : ∀ x ∈ s.times, ∀ y ∈ s.times, x.time < y.time → ¬ Close x.time y.time
  early : ∀ x ∈ s.times, 0 < x.time → ¬ Close 0 x.time
  keys : ∀ x ∈ s.keys, 0 ≤ x.key ∧ x.key < 12 ∧ 0 ≤ x.time

/-- Some two successive note starts are between 50 ms and 2 s apart. -/
def Pulse (ts : List MSeq) : Prop :=
  ∃ x y, (∃ t ∈ ts, ∃ n ∈ t.notes, n.start = x) ∧ (∃ t ∈ ts, ∃ n ∈ t.notes, n.start = y) ∧ 1/20 < y - x ∧ y - x < 2 ∧
    ∀ t ∈ ts, ∀ n ∈ t.notes, ¬ (x < n.start ∧ n.start < y)

end Spec

open Spec (seconds TempoMap line Strict2 Monotone2 scaleAt Tame Close TempoList NearestTick)

/-! ### A constant tempo -/

theorem scaleAt_const (n : Nat) (s : ℚ) (j : Nat) : scaleAt (List.replicate (n + 1) (0, s)) j = s := by
  unfold scaleAt
  rw [List.filter_eq_self.2 (by intro p hp; rw [List.eq_of_mem_replicate hp]; simp)]
  simp [List.getLast?_replicate]

theorem seconds_const (n : Nat) (s : ℚ) (k : Nat) : seconds (List.replicate (n + 1) (0, s)) k = k * s := by
  unfold seconds
  rw [List.map_congr_left (g := fun _ => s) (fun j _ => scaleAt_const n s j)]
  simp

theorem tempoMap_const (n : Nat) (s : ℚ) (hs : 0 < s) : TempoMap (List.replicate (n + 1) (0, s)) :=
  ⟨⟨s, List.replicate n (0, s), rfl⟩, List.pairwise_of_forall_mem_list (by
    intro a ha b hb
    rw [List.eq_of_mem_replicate ha, List.eq_of_mem_replicate hb]), by
    intro p hp
    rw [List.eq_of_mem_replicate hp]; exact hs⟩

theorem clockOk_const (c : Clock) (n : Nat) (s : ℚ) (hr : 0 < c.res) (hs : 0 < s) (hc : c.scales = List.replicate (n + 1) (0, s)) (ht : c.times = [0]) :
    ClockOk c := by
  refine ⟨hr, by rw [hc]; exact tempoMap_const n s hs, 0, ?_, ?_⟩
  · intro p hp
    rw [hc] at hp
    rw [List.eq_of_mem_replicate hp]
  · rw [ht]; simp [seconds]

theorem writeTempos_const (res : Nat) (hres : 0 < res) (q : ℚ) (hq : 0 < q) : ∀ (l : List TempoSig) (n : Nat) (c : Clock),
    (∀ x ∈ l, x.time = 0 ∧ x.qpm = q) → c.res = res → c.times = [0] → c.scales = List.replicate (n + 1) (0, 60 / (q * res)) →
    ∃ c', writeTempos c l = .ok c' ∧ c'.res = res ∧ c'.times = [0] ∧ c'.scales = List.replicate (n + l.length + 1) (0, 60 / (q * res)) := by
  intro l
  have hr : (0 : ℚ) < res := by exact_mod_cast hres
  induction l with
  | nil => intro n c _ h1 h2 h3; exact ⟨c, rfl, h1, h2, h3⟩
  | cons x l ih =>
    intro n c hx h1 h2 h3
    obtain ⟨e1, e2⟩ := hx x (by simp)
    have hpush : c.pushTempo x.time x.qpm =
        .ok { c with scales := c.scales ++ [(0, 60 / (q * res))], times := [0] } := by
      unfold Clock.pushTempo
      rw [h1, if_neg (by rw [e2]; positivity), timeToTick_single c h2 (0, 60 / (q * res)) (by rw [h3]; simp [List.getLast?_replicate])
        (by positivity) _ e1.ge, e1, e2, zero_div, show roundHE 0 = 0 by decide +kernel, mul_comm (res : ℚ) q]
      rfl
    obtain ⟨c', f1, f2, f3, f4⟩ := ih (n + 1) { c with scales := c.scales ++ [(0, 60 / (q * res))], times := [0] }
      (fun y hy => hx y (by simp [hy])) h1 rfl (by
        show c.scales ++ _ = _
        rw [h3, ← List.replicate_succ'])
    refine ⟨c', ?_, f2, f3, ?_⟩
    · unfold writeTempos
      rw [List.foldlM_cons, hpush]
      exact f1
    · rw [f4, List.length_cons]
      congr 1
      omega

theorem nearest_const (n : Nat) (s e : ℚ) (hs : 0 < s) (k : Nat) (hk : |e - k * s| < s / 2) : NearestTick (List.replicate (n + 1) (0, s)) e k := by
  intro j hj
  rw [seconds_const, seconds_const]
  have h1 : s ≤ |(k : ℚ) * s - j * s| := by
    rw [← sub_mul, abs_mul, abs_of_pos hs]
    have : (1 : ℚ) ≤ |(k : ℚ) - j| := by
      have h2 : ((k : Int) - (j : Int)) ≠ 0 := by omega
      have h3 := Int.one_le_abs h2
      have : ((1 : Int) : ℚ) ≤ ((|(k : Int) - (j : Int)| : Int) : ℚ) := by exact_mod_cast h3
      simpa using this
    nlinarith
  have h2 : |(k : ℚ) * s - j * s| ≤ |e - k * s| + |e - j * s| := by
    have := abs_sub_abs_le_abs_sub (e - j * s) (e - k * s)
    have h3 : (k : ℚ) * s - j * s = (e - j * s) - (e - k * s) := by ring
    rw [h3]
    have := abs_sub (e - j * s) (e - k * s)
    linarith
  linarith

theorem timeToTick_nearest (c : Clock) (h : ClockOk c) (e : ℚ) (k : Nat) (hk : NearestTick c.scales e k) : c.timeToTick e = .ok (k : Int) := by
  obtain ⟨k', e1, e2⟩ := C57_nearest c h e
  by_cases hkk : k' = k
  · rw [← hkk]; exact e1
  · exact absurd (e2 k) (not_le.2 (hk k' hkk))

theorem skipTempi_zero (q : ℚ) : ∀ (n : Nat), skipTempi 0 q (List.replicate n (0, q)) = (q, []) := by
  intro n
  induction n with
  | zero => rfl
  | succ n ih => rw [List.replicate_succ, skipTempi, if_pos (le_refl _)]; exact ih

/-- The tempo map after stretching a song of constant tempo to its own length: the length is put on a whole number of ticks. -/
theorem adjTempo_const (c : Clock) (h : ClockOk c) (n : Nat) (q : ℚ) (hq : 0 < q)
    (hc : c.scales = List.replicate (n + 1) (0, 60 / (q * c.res))) (e : ℚ) (he : 0 < e) (k : Nat) (hk0 : 0 < k)
    (hk : |e - k * (60 / (q * c.res))| < 60 / (q * c.res) / 2) :
    ∃ c', adjTempo c [(0, 0), (e, e)] = .ok c' ∧ ClockOk c' ∧ c'.res = c.res ∧ c'.scales = [(0, e / k)] := by
  have hr : (0 : ℚ) < c.res := by exact_mod_cast h.1
  have hkq : (0 : ℚ) < k := by exact_mod_cast hk0
  generalize hs : 60 / (q * (c.res : ℚ)) = s at hc hk
  have hspos : 0 < s := by rw [← hs]; positivity
  have hne := nearest_const n s e hspos k hk
  rw [← hc] at hne
  have htick := timeToTick_nearest c h e k hne
  obtain ⟨M, hM1, hM2, hM3⟩ := tickTable_eq c.scales h.2.1 k
  have h2 : ClockOk { c with times := tickTable c.scales k } := ⟨h.1, h.2.1, M, hM2, hM3⟩
  have hsec : ∀ j, seconds c.scales j = j * s := by intro j; rw [hc]; exact seconds_const n s j
  have hg : ∀ t j, NearestTick c.scales t j → j ≤ k → ({ c with times := tickTable c.scales k } : Clock).gridTime t = .ok (j * s) := by
    intro t j hj hjk
    unfold Clock.gridTime
    rw [timeToTick_nearest _ h2 t j hj]
    simp only [bind, Except.bind, Int.toNat_natCast]
    rw [hM3, List.getElem?_map, List.getElem?_range (by omega)]
    simp [hsec]
  have hg0 := hg 0 0 (by have := nearest_self c.scales h.2.1 0; rw [hsec] at this; simpa using this) (by omega)
  have hge := hg e k hne (le_refl _)
  obtain ⟨c3, f1, f2, f3, f4⟩ := tempoChanges_loose _ h2.loose (by
    intro p hp
    show p.1 < 1000000000
    have hp' : p ∈ c.scales := hp
    rw [hc] at hp'
    rw [List.eq_of_mem_replicate hp']; norm_num)
  have htempi : c.scales.map (fun p => (seconds c.scales p.1, 60 / (p.2 * (c.res : ℚ)))) = List.replicate (n + 1) (0, q) := by
    rw [hc, List.map_replicate, ← hc, hsec]
    congr 1
    rw [← hs]
    simp only [Nat.cast_zero, zero_mul, Prod.mk.injEq, true_and]
    field_simp
  have f1' : ({ c with times := tickTable c.scales k } : Clock).tempoChanges = .ok (List.replicate (n + 1) (0, q), c3) := by
    rw [f1]; exact congrArg (fun x => Except.ok (x, c3)) htempi
  have hgrid : gridTimes c [0, e] = .ok ([0, k * s], { c with times := tickTable c.scales k }) := by
    unfold gridTimes
    simp only [List.getLast?_cons_cons, List.getLast?_singleton, htick, bind, Except.bind, Int.toNat_natCast]
    rw [List.mapM_cons, List.mapM_cons, hg0, hge]
    simp [bind, Except.bind, pure, Except.pure]
  have hks : (0 : ℚ) < k * s := by positivity
  have hpts : nonRepeats ([0, (k : ℚ) * s].zip [0, e]) = [(0, 0), (k * s, e)] := by
    simp [nonRepeats, nonRepeatsGo, he.ne, hks.ne]
  have hzones : zonesGo [(0, 0), (k * s, e)] q [] = [(0, q * ((k * s - 0) / (e - 0)))] := by
    simp [zonesGo, zoneTempi]
  have hsc : 60 / (q * ((k * s - 0) / (e - 0)) * (c.res : ℚ)) = e / k := by
    rw [← hs, sub_zero, sub_zero]
    field_simp
  have hpos : 0 < e / (k : ℚ) := by positivity
  refine ⟨{ c3 with scales := [(0, e / k)], times := tickTable [(0, e / k)] (0 + 1) }, ?_, ?_, f4, rfl⟩
  · unfold adjTempo
    simp only [List.map_cons, List.map_nil, hgrid, bind, Except.bind, f1', hpts]
    rw [List.replicate_succ]
    simp only [skipTempi_zero, hzones, List.map_cons, List.map_nil]
    have hi : interp [(0, 0), (k * s, e)] 0 = 0 := by
      rw [points_interp _ _ _ _ hks he.le (le_refl _) hks.le]; simp [line]
    rw [hi]
    simp only [if_true]
    have hres : (c3.res : ℚ) = c.res := by rw [f4]
    rw [hres, hsc]
    simp [scalesGo]
  · have hT := tempoMap_const 0 (e / k) hpos
    obtain ⟨M, _, g1, g2⟩ := tickTable_eq [(0, e / k)] hT 1
    exact ⟨f2.1, hT, M, g1, g2⟩

/-! ### The steps succeed -/

theorem sliceGo_skip (a b : ℚ) (acc : MSeq) : ∀ (l : List Note), (∀ n ∈ l, n.start < a) → sliceGo a b l acc = .ok acc := by
  intro l
  induction l with
  | nil => intro _; rfl
  | cons n l ih =>
    intro h
    rw [sliceGo, if_pos (.inl (h n (by simp)))]
    exact ih (fun m hm => h m (by simp [hm]))

theorem maxEventTime_ok (s : Song) (ts : List MSeq) (hall : s.tracks.allSeqs = .ok ts)
    (hv : ∀ t ∈ ts, ∀ n ∈ t.notes, 0 ≤ n.start ∧ n.start < n.stop) (e b : ℚ) (h1 : ∀ t ∈ ts, ∀ n ∈ t.notes, n.stop ≤ e)
    (h2 : ∃ t ∈ ts, ∃ n ∈ t.notes, n.stop = e) : s.maxEventTime (some b) = .ok e := by
  unfold Tracks.allSeqs at hall
  have hev : s.tracks.allEvents = .ok (sortByKey Note.start (ts.flatMap MSeq.notes)) := by
    unfold Tracks.allEvents
    rw [hall]; rfl
  have hmem : ∀ n, n ∈ sortByKey Note.start (ts.flatMap MSeq.notes) ↔ ∃ t ∈ ts, n ∈ t.notes := by
    intro n; rw [(sortByKey_perm _ _).mem_iff, List.mem_flatMap]
  obtain ⟨t0, ht0, n0, hn0, hn1⟩ := h2
  have hmax : maxEnd (sortByKey Note.start (ts.flatMap MSeq.notes)) = e := by
    apply maxDefault_eq_of
    · rw [← hn1]; exact List.mem_map_of_mem ((hmem n0).2 ⟨t0, ht0, hn0⟩)
    · intro y hy
      obtain ⟨n, hn, rfl⟩ := List.mem_map.1 hy
      obtain ⟨t, ht, hnt⟩ := (hmem n).1 hn
      exact h1 t ht n hnt
  unfold Song.maxEventTime Tracks.truncate
  rw [hev]
  dsimp only [bind, Except.bind]
  rw [if_neg (by intro h0; have := (hmem n0).2 ⟨t0, ht0, hn0⟩; rw [h0] at this; cases this)]
  unfold Tracks.trim
  rw [hall]
  dsimp only [bind, Except.bind]
  rw [hmax, mapM_map (fun x : MSeq => x.slice e b) (fun x => x.cloneEmpty.setTotal (min x.total b)) ts (by
    intro t ht
    unfold MSeq.slice
    rw [sliceGo_skip e b t.cloneEmpty t.notes (fun n hn => lt_of_lt_of_le (hv t ht n hn).2 (h1 t ht n hn))]
    rfl)]
  rfl

/-- The object before its times are adjusted. -/
theorem build_const (srt : List TimeSig → List TimeSig) (hsrt : ∀ l, (srt l).Perm l) (s : Song) (ts : List MSeq) (q : ℚ) (hC : Spec.Constant s ts q)
    (e b : ℚ) (h1 : ∀ t ∈ ts, ∀ n ∈ t.notes, n.stop ≤ e) (h2 : ∃ t ∈ ts, ∃ n ∈ t.notes, n.stop = e) :
    ∃ c n, s.build srt q (some b) = .ok
      { clock := c, drum := 9
        timeSigs := (sliceTimeSigs srt e s.times).map (fun x => (x.numer, x.denom, x.time))
        keySigs := (sliceKeySigs e s.keys).map (fun x => ((keyNumber x).toNat, x.time)), lyrics := []
        insts := { program := 0, isDrum := false, name := "", notes := [], bends := [], controls := [] } :: ts.map (writeInst e) } ∧
      ClockOk c ∧ c.res = s.resolution.toNat ∧ c.scales = List.replicate (n + 1) (0, 60 / (q * c.res)) := by
  have hres : 0 < s.resolution.toNat := by have := hC.res; omega
  have hr : (0 : ℚ) < (s.resolution.toNat : ℚ) := by exact_mod_cast hres
  obtain ⟨c, f1, f2, f3, f4⟩ := writeTempos_const s.resolution.toNat hres q hC.pos (sliceTempos e s.tempos) 0
    { res := s.resolution.toNat, scales := [(0, 60 / (q * s.resolution.toNat))], times := [0] }
    (fun x hx => hC.tempo x (List.mem_of_mem_filter hx)) rfl rfl rfl
  refine ⟨c, 0 + (sliceTempos e s.tempos).length, ?_, ?_, f2, by rw [f4, f2]⟩
  · unfold Song.build
    rw [maxEventTime_ok s ts hC.all hC.proper e b h1 h2]
    dsimp only [bind, Except.bind]
    rw [if_neg hC.res.ne', show Clock.fresh s.resolution.toNat q = .ok { res := s.resolution.toNat, scales := [(0, 60 / (q * s.resolution.toNat))], times := [0] } by
      unfold Clock.fresh; rw [if_neg (by have := hC.pos; positivity)]]
    dsimp only
    rw [mapM_map writeTimeSig (fun x => (x.numer, x.denom, x.time)) _ (by
      intro x hx
      have hx' := hC.times x ((hsrt _).mem_iff.1 (List.mem_of_mem_filter hx))
      unfold writeTimeSig; rw [if_pos hx'])]
    dsimp only
    rw [mapM_map writeKeySig (fun x => ((keyNumber x).toNat, x.time)) _ (by
      intro x hx
      obtain ⟨k1, k2, k3⟩ := hC.keys x ((sortByKey_perm _ _).mem_iff.1 (List.mem_of_mem_filter hx))
      unfold writeKeySig
      have : 0 ≤ keyNumber x ∧ keyNumber x < 24 := by
        unfold keyNumber; split_ifs <;> omega
      rw [if_pos ⟨this.1, this.2, k3⟩])]
    dsimp only
    rw [f1]
    dsimp only
    rw [visitAll_registered s ts hC.reg]
  · refine clockOk_const c _ _ (by rw [f2]; exact hres) ?_ f4 f3
    have := hC.pos
    positivity

theorem downGo_ok (beats : List ℚ) : ∀ (l : List (Int × Int × ℚ)) (e : Nat), (∀ x ∈ l, 0 < x.1) → ∃ r, downGo beats l e = .ok r := by
  intro l
  induction l with
  | nil => intro e _; exact ⟨[], rfl⟩
  | cons x l ih =>
    intro e h
    cases l with
    | nil =>
      obtain ⟨r, hr, _⟩ := strided_spec beats (closeIdx beats x.2.2 e) none (barBeats x.1) (barLen_pos x.1 (h x (by simp)))
      exact ⟨r, hr⟩
    | cons y l =>
      obtain ⟨r, hr, _⟩ := strided_spec beats (closeIdx beats x.2.2 0) (some (closeIdx beats y.2.2 (closeIdx beats x.2.2 0))) (barBeats x.1)
        (barLen_pos x.1 (h x (by simp)))
      obtain ⟨r', hr'⟩ := ih (closeIdx beats y.2.2 (closeIdx beats x.2.2 0)) (fun z hz => h z (by simp [hz]))
      refine ⟨r ++ r', ?_⟩
      unfold downGo
      simp only [hr, hr', bind, Except.bind]

theorem downbeats_total (beats : List ℚ) (l : List (Int × Int × ℚ)) (start : ℚ) (h : ∀ x ∈ l, 0 < x.1) : ∃ r, downbeats beats l start = .ok r := by
  unfold downbeats
  have : ∃ r, downGo beats (match l with
    | [] => [(4, 4, start)]
    | x :: xs => if start < x.2.2 then (4, 4, start) :: x :: xs else x :: xs) 0 = .ok r := by
    apply downGo_ok
    intro x hx
    cases l with
    | nil =>
      simp only [List.mem_singleton] at hx
      subst hx; norm_num
    | cons y ys =>
      dsimp only at hx
      split_ifs at hx
      · rcases List.mem_cons.1 hx with rfl | hx
        · norm_num
        · exact h x hx
      · exact h x hx
  obtain ⟨r, hr⟩ := this
  cases l <;> (dsimp only at hr ⊢; rw [hr]; exact ⟨_, rfl⟩)

theorem adjacent_of_sorted (l : List ℚ) (hl : l.Pairwise (· ≤ ·)) (x y : ℚ) (hx : x ∈ l) (hy : y ∈ l) (hxy : x < y)
    (hn : ∀ z ∈ l, ¬ (x < z ∧ z < y)) : Spec.Adjacent l x y := by
  induction l with
  | nil => cases hx
  | cons a l ih =>
    rw [List.pairwise_cons] at hl
    have hy' : y ∈ l := by
      rcases List.mem_cons.1 hy with rfl | h
      · rcases List.mem_cons.1 hx with rfl | h
        · exact absurd hxy (lt_irrefl _)
        · exact absurd (hl.1 x h) (not_le.2 hxy)
      · exact h
    by_cases hxl : x ∈ l
    · obtain ⟨pre, post, e⟩ := ih hl.2 hxl hy' (fun z hz => hn z (by simp [hz]))
      exact ⟨a :: pre, post, by rw [e]; rfl⟩
    · rcases List.mem_cons.1 hx with rfl | h
      · cases l with
        | nil => cases hy'
        | cons c l =>
          have hc1 : x ≤ c := hl.1 c (by simp)
          have hc2 : c ≠ x := by rintro rfl; exact hxl (by simp)
          have hc3 : c ≤ y := by
            rcases List.mem_cons.1 hy' with rfl | h
            · exact le_refl _
            · exact (List.pairwise_cons.1 hl.2).1 y h
          have : c = y := by
            by_contra hcy
            exact hn c (by simp) ⟨lt_of_le_of_ne hc1 (Ne.symm hc2), lt_of_le_of_ne hc3 hcy⟩
          exact ⟨[], l, by rw [this]; rfl⟩
      · exact absurd h hxl

theorem tame_const {c : Clock} {n : Nat} {q : ℚ} (h : ClockOk c) (hq : 0 < q) (hc : c.scales = List.replicate (n + 1) (0, 60 / (q * c.res)))
    {tss : List (Int × Int × ℚ)} (h1 : ∀ x ∈ tss, 0 < x.1 ∧ 0 < x.2.1 ∧ 0 ≤ x.2.2) (h2 : (tss.map (fun x => x.2.2)).Nodup)
    (h3 : ∀ x ∈ tss, ∀ y ∈ tss, x.2.2 < y.2.2 → ¬ Close x.2.2 y.2.2) (h4 : ∀ x ∈ tss, 0 < x.2.2 → ¬ Close 0 x.2.2) :
    Tame (Spec.tempi c) tss := by
  have hr : (0 : ℚ) < c.res := by exact_mod_cast h.1
  have ht : Spec.tempi c = List.replicate (n + 1) (0, q) := by
    unfold Spec.tempi
    rw [hc, List.map_replicate, seconds_const]
    congr 1
    simp only [Nat.cast_zero, zero_mul, Prod.mk.injEq, true_and]
    field_simp
  have hmem : ∀ p ∈ Spec.tempi c, p = (0, q) := by
    intro p hp; rw [ht] at hp; exact List.eq_of_mem_replicate hp
  refine ⟨⟨by rw [ht]; simp, ?_, ?_⟩, fun y hy => ⟨(h1 y hy).1, (h1 y hy).2.1⟩, h2, h3, ?_, ?_⟩
  · intro p hp; rw [hmem p hp]; exact hq
  · apply List.pairwise_of_forall_mem_list
    intro a ha b hb
    rw [hmem a ha, hmem b hb]
  · intro y hy p hp hlt
    rw [hmem p hp] at hlt ⊢
    exact h4 y hy hlt
  · intro y hy p hp hlt
    rw [hmem p hp] at hlt
    exact absurd (h1 y hy).2.2 (not_le.2 hlt)

/-! ### C130 -/

/-- **C130.** A song at a constant tempo is written whole: let its tracks have an index, its notes, time and key signatures be in order, two successive
note starts be between 50 ms and 2 s apart, the end `e` of its last note be nearer than half a tick to tick `k > 0`, and `to_end` not be before `e`. Then
`write` succeeds, with the same object however long the loops are allowed to run, provided it is long enough; every
track is there with exactly its notes; and the object has the resolution of the song and one tempo, which puts tick `k` at
exactly `e`: the tempo of the song if `e` is on tick `k`. -/
theorem C130_written (srt : List TimeSig → List TimeSig) (hsrt : ∀ l, (srt l).Perm l) (srt' : List (ℚ × ℚ) → List (ℚ × ℚ))
    (hs : ∀ l, (srt' l).Perm l ∧ (srt' l).Pairwise (fun c d => d.2 ≤ c.2)) (s : Song) (ts : List MSeq) (q : ℚ) (hC : Spec.Constant s ts q)
    (hp : Spec.Pulse ts) (e b : ℚ) (h1 : ∀ t ∈ ts, ∀ n ∈ t.notes, n.stop ≤ e) (h2 : ∃ t ∈ ts, ∃ n ∈ t.notes, n.stop = e) (hb : e ≤ b)
    (k : Nat) (hk0 : 0 < k) (hk : |e - k * (60 / (q * s.resolution))| < 60 / (q * s.resolution) / 2)
    (fn : String) (hfn : fn ≠ "") (ex : Bool) (ow : Overwrite) (hex : ow = .no → ex = false) (fs : Option ℚ) (hfs : fs.getD 0 = 0) :
    ∃ pm' N, (∀ fuel ≥ N, s.write srt srt' fuel q fn ex fs (some b) ow = .ok (some pm')) ∧
      ((pm'.clock.res : Int) = s.resolution ∧ ClockOk pm'.clock ∧ pm'.clock.scales = [(0, e / k)] ∧
        (e = k * (60 / (q * s.resolution)) → e / k = 60 / (q * s.resolution))) ∧
      pm'.insts.length = ts.length + 1 ∧
      ∀ (j : Nat) t, ts[j]? = some t → ∃ i, pm'.insts[j + 1]? = some i ∧ i.isDrum = t.instr.isDrum ∧
        i.notes = t.notes.map (fun n => ⟨n.velocity.toNat, n.pitch.toNat, n.start, n.stop⟩) := by
  obtain ⟨c, n, hbuild, hclock, hcres, hscale⟩ := build_const srt hsrt s ts q hC e b h1 h2
  have hresq : ((s.resolution.toNat : Nat) : ℚ) = (s.resolution : ℚ) := by
    have := hC.res
    exact_mod_cast (Int.toNat_of_nonneg this.le)
  obtain ⟨t1, ht1, n1, hn1, hn1e⟩ := h2
  have he : 0 < e := by have := hC.proper t1 ht1 n1 hn1; linarith
  obtain ⟨mx, evs, c0, r, hB⟩ := build_some hbuild
  have hkq : (0 : ℚ) < k := by exact_mod_cast hk0
  have hticks : ∀ p ∈ c.scales, p.1 < 1000000000 := by
    intro p hp; rw [hscale] at hp; rw [List.eq_of_mem_replicate hp]; norm_num
  -- the time signatures
  have hslice : ∀ x ∈ sliceTimeSigs srt e s.times, x ∈ s.times ∧ x.time ≤ e := by
    intro x hx
    obtain ⟨ha, hb'⟩ := List.mem_filter.1 hx
    exact ⟨(hsrt _).mem_iff.1 ha, by simpa using hb'⟩
  have hnd : (((sliceTimeSigs srt e s.times).map (fun x => (x.numer, x.denom, x.time))).map (fun x => x.2.2)).Nodup := by
    rw [List.map_map]
    have hsub : ((sliceTimeSigs srt e s.times).map TimeSig.time).Sublist ((srt s.times).map TimeSig.time) := (List.filter_sublist).map _
    exact hsub.nodup ((((hsrt s.times).map TimeSig.time).nodup_iff).2 hC.distinct)
  generalize hpm : ({ clock := c, drum := 9
                      timeSigs := (sliceTimeSigs srt e s.times).map (fun x => (x.numer, x.denom, x.time))
                      keySigs := (sliceKeySigs e s.keys).map (fun x => ((keyNumber x).toNat, x.time)), lyrics := []
                      insts := { program := 0, isDrum := false, name := "", notes := [], bends := [], controls := [] } :: ts.map (writeInst e) } : PM) = pm at *
  have hpmc : pm.clock = c := by rw [← hpm]
  have hpmt : pm.timeSigs = (sliceTimeSigs srt e s.times).map (fun x => (x.numer, x.denom, x.time)) := by rw [← hpm]
  have hpmi : pm.insts = { program := 0, isDrum := false, name := "", notes := [], bends := [], controls := [] } :: ts.map (writeInst e) := by rw [← hpm]
  have hgood : ∀ x ∈ pm.timeSigs, 0 < x.1 ∧ 0 < x.2.1 ∧ 0 ≤ x.2.2 := by
    intro x hx
    rw [hpmt] at hx
    obtain ⟨y, hy, rfl⟩ := List.mem_map.1 hx
    exact hC.times y (hslice y hy).1
  have hT : Tame (Spec.tempi pm.clock) pm.timeSigs := by
    rw [hpmc]
    refine tame_const hclock hC.pos hscale hgood (by rw [hpmt]; exact hnd) ?_ ?_
    · rw [hpmt]
      intro x hx y hy hxy
      obtain ⟨x', hx', rfl⟩ := List.mem_map.1 hx
      obtain ⟨y', hy', rfl⟩ := List.mem_map.1 hy
      exact hC.apart x' (hslice x' hx').1 y' (hslice y' hy').1 hxy
    · rw [hpmt]
      intro x hx h0
      obtain ⟨x', hx', rfl⟩ := List.mem_map.1 hx
      exact hC.early x' (hslice x' hx').1 h0
  obtain ⟨stop, beats, N, hend, hbeats, _⟩ := C123_beats pm (by rw [hpmc]; exact hclock) (by rw [hpmc]; exact hticks) hT 0
  -- the end
  have hr : r = (ts, s.tracks) := by
    have := hB.visit
    rw [visitAll_registered s ts hC.reg] at this
    exact (Except.ok.inj this).symm
  subst hr
  have hmx : mx = e := by
    have h3 := hB.mx_eq
    have h4 := hB.events
    unfold Tracks.allEvents at h4
    have h5 := hC.all
    unfold Tracks.allSeqs at h5
    rw [h5] at h4
    simp only [bind, Except.bind] at h4
    cases h4
    rw [h3]
    apply maxDefault_eq_of
    · rw [← hn1e]
      apply List.mem_map_of_mem
      rw [(sortByKey_perm _ _).mem_iff, List.mem_flatMap]
      exact ⟨t1, ht1, hn1⟩
    · intro y hy
      obtain ⟨x, hx, rfl⟩ := List.mem_map.1 hy
      rw [(sortByKey_perm _ _).mem_iff, List.mem_flatMap] at hx
      obtain ⟨t, ht, hxt⟩ := hx
      exact h1 t ht x hxt
  subst hmx
  have hstop : stop = mx := by
    apply le_antisymm
    · exact built_end hB h1 he.le (fun x hx => (hC.tempo x hx).1) stop hend
    · obtain ⟨_, _, _, h5, _⟩ := C122_end_time pm stop hend
      have := (h5 (writeInst mx t1) (by rw [hpmi]; exact List.mem_cons_of_mem _ (List.mem_map_of_mem ht1))).1 (writeNote n1) (List.mem_map_of_mem hn1)
      rw [← hn1e]; exact this
  subst hstop
  obtain ⟨downs, hdowns⟩ := downbeats_total beats (sortByKey (fun x => x.2.2) pm.timeSigs) 0 (by
    intro x hx
    exact (hgood x ((sortByKey_perm _ _).mem_iff.1 hx)).1)
  -- the tempo map
  obtain ⟨c1, f1, f2, f3, f4⟩ := tempoChanges_loose pm.clock (by rw [hpmc]; exact hclock.loose) (by rw [hpmc]; exact hticks)
  have hk' : |stop - k * (60 / (q * (c1.res : ℚ)))| < 60 / (q * (c1.res : ℚ)) / 2 := by
    rw [f4, hpmc, hcres, hresq]; exact hk
  obtain ⟨c2, g1, g2, g3, g4⟩ := adjTempo_const c1 f2 n q hC.pos (by rw [f3, f4, hpmc]; exact hscale) stop he k hk0 hk'
  have hmap : timeMap [(0, 0), (stop, stop)] = [(0, 0), (stop, stop)] := by
    rw [points_timeMap stop 0 stop he, max_eq_right he.le]
  have hpts : writePoints stop fs (some b) = [(0, 0), (stop, stop)] := by
    unfold writePoints
    rw [hfs, Option.getD_some, clipTo_eq _ _ (le_refl _), clipTo_eq _ _ (le_trans he.le hb), min_eq_left he.le, min_eq_right hb]
  -- the result
  generalize hpm' : ({ pm with
        clock := c2
        insts := pm.insts.map (adjInst [(0, 0), (stop, stop)])
        keySigs := adjEvents (fun e => e.2) (fun e t => (e.1, t)) [(0, 0), (stop, stop)] pm.keySigs
        lyrics := adjEvents (fun e => e.2) (fun e t => (e.1, t)) [(0, 0), (stop, stop)] pm.lyrics
        timeSigs := adjTimeSigs ((downs.filter (fun d => decide (d ≥ 0))).map (interp [(0, 0), (stop, stop)]))
          (adjEvents (fun e => e.2.2) (fun e t => (e.1, e.2.1, t)) [(0, 0), (stop, stop)] pm.timeSigs) } : PM) = pm'
  have hpc : pm'.clock = c2 := by rw [← hpm']
  have hpi : pm'.insts = pm.insts.map (adjInst [(0, 0), (stop, stop)]) := by rw [← hpm']
  have hadj : ∀ fuel ≥ N, pm.adjustTimes fuel [(0, 0), (stop, stop)] = .ok (some pm') := by
    intro fuel hf
    unfold PM.adjustTimes PM.downbeats
    rw [hbeats fuel hf]
    dsimp only [bind, Except.bind]
    rw [hdowns]
    dsimp only
    rw [hmap]
    dsimp only [List.head?_cons]
    rw [f1]
    dsimp only
    rw [g1]
    dsimp only
    rw [hpm']
  have hnotes : ∀ (j : Nat) t, ts[j]? = some t → ∃ i, pm'.insts[j + 1]? = some i ∧ i.isDrum = t.instr.isDrum ∧
      i.notes = t.notes.map (fun n => ⟨n.velocity.toNat, n.pitch.toNat, n.start, n.stop⟩) := by
    intro j t hj
    have ht : t ∈ ts := List.mem_of_getElem? hj
    refine ⟨adjInst [(0, 0), (stop, stop)] (writeInst stop t), by simp [hpi, hpmi, hj], rfl, ?_⟩
    have := whole_notes stop he stop t (hC.proper t ht) (h1 t ht)
    rw [hmap] at this
    exact this
  have hestimate : ∃ x, estimateTempo srt' pm'.insts = .ok x := by
    obtain ⟨x, hx, _⟩ := (C122_estimate srt' hs pm'.insts).2 (by
      obtain ⟨x, y, ⟨tx, htx, nx, hnx, rfl⟩, ⟨ty, hty, ny, hny, rfl⟩, hd1, hd2, hno⟩ := hp
      obtain ⟨o1, o2⟩ := C122_onsets pm'.insts
      have hmem : ∀ z, z ∈ onsets pm'.insts ↔ ∃ t ∈ ts, ∃ n ∈ t.notes, n.start = z := by
        intro z
        rw [o2.mem_iff, List.mem_flatMap]
        constructor
        · rintro ⟨i, hi, hz⟩
          rw [hpi, hpmi, List.map_cons, List.map_map, List.mem_cons] at hi
          rcases hi with rfl | hi
          · simp [adjInst, adjNotes_nil] at hz
          · obtain ⟨t, ht, rfl⟩ := List.mem_map.1 hi
            have := whole_notes stop he stop t (hC.proper t ht) (h1 t ht)
            rw [hmap] at this
            simp only [Function.comp] at hz
            rw [this] at hz
            simp only [List.map_map, List.mem_map] at hz
            obtain ⟨m, hm, rfl⟩ := hz
            exact ⟨t, ht, m, hm, rfl⟩
        · rintro ⟨t, ht, m, hm, rfl⟩
          refine ⟨adjInst [(0, 0), (stop, stop)] (writeInst stop t), ?_, ?_⟩
          · rw [hpi, hpmi]
            exact List.mem_map_of_mem (List.mem_cons_of_mem _ (List.mem_map_of_mem ht))
          · have := whole_notes stop he stop t (hC.proper t ht) (h1 t ht)
            rw [hmap] at this
            rw [this, List.map_map]
            exact List.mem_map_of_mem (f := PNote.start ∘ fun n : Note => (⟨n.velocity.toNat, n.pitch.toNat, n.start, n.stop⟩ : PNote)) hm
      refine ⟨nx.start, ny.start, adjacent_of_sorted _ o1 _ _ ((hmem _).2 ⟨tx, htx, nx, hnx, rfl⟩) ((hmem _).2 ⟨ty, hty, ny, hny, rfl⟩) (by linarith) ?_, hd1, hd2⟩
      intro z hz
      obtain ⟨t, ht, m, hm, rfl⟩ := (hmem z).1 hz
      exact hno t ht m hm)
    exact ⟨x, hx⟩
  obtain ⟨x, hx⟩ := hestimate
  have hend' : ∃ e', pm'.endTime = .ok e' := by
    obtain ⟨c3, k1, _⟩ := tempoChanges_loose pm'.clock (by rw [hpc]; exact g2.loose) (by
      rw [hpc, g4]; intro p hp; simp at hp; rw [hp]; norm_num)
    unfold PM.endTime
    rw [k1]
    exact ⟨_, rfl⟩
  obtain ⟨e', he'⟩ := hend'
  have hlen : s.tracks.len ≠ 0 := by
    intro h0
    have h5 := hC.reg
    unfold Spec.Registered at h5
    have h6 : s.tracks.seqs.dict = [] := List.length_eq_zero_iff.1 h0
    have h7 := hC.all
    unfold Tracks.allSeqs SDict.values at h7
    cases hkeys : s.tracks.seqs.keys with
    | nil =>
      rw [hkeys] at h7
      cases h7
      cases ht1
    | cons a l =>
      rw [hkeys, List.mapM_cons] at h7
      simp [SDict.getItem, SDict.lookup, h6, bind, Except.bind] at h7
  refine ⟨pm', N, ?_, ⟨?_, by rw [hpc]; exact g2, by rw [hpc]; exact g4, ?_⟩, by rw [hpi, hpmi]; simp, hnotes⟩
  · intro fuel hf
    unfold Song.write
    have hb0 : ¬ b < 0 := not_lt.2 (le_trans he.le hb)
    rw [if_neg hlen, if_neg hfn, if_neg (by rintro ⟨ha, hb⟩; rw [hex ha] at hb; cases hb)]
    have hf1 : ¬ (fs.any (fun x => decide (x < 0)) = true) := by
      cases fs with
      | none => simp
      | some a => simp only [Option.getD_some] at hfs; simp [hfs]
    have hf2 : ¬ (badRange fs (some b) = true) := by
      cases fs with
      | none => simp [badRange]
      | some a => simp only [Option.getD_some] at hfs; simp [badRange, hfs, not_lt.1 hb0]
    rw [if_neg hf1, if_neg (by simpa using not_lt.1 hb0), if_neg hf2]
    unfold Song.toPrettyMidi
    rw [hbuild]
    simp only [bind, Except.bind, Option.isSome_some, or_true, if_true, hend, hpts, hadj fuel hf, he', hx]
  · rw [hpc, g3, f4, hpmc, hcres]
    exact Int.toNat_of_nonneg hC.res.le
  · intro hek
    rw [div_eq_iff hkq.ne', mul_comm]
    exact hek

/-! ### C129: which signatures are written -/

theorem mapM_value_any {α β : Type} (f : α → Py β) (l : List α) (h : ∀ a ∈ l, (∃ b, f a = .ok b) ∨ f a = .error .value)
    (hx : ∃ a ∈ l, f a = .error .value) : l.mapM f = .error .value := by
  induction l with
  | nil => obtain ⟨a, ha, _⟩ := hx; simp at ha
  | cons x xs ih =>
    rw [List.mapM_cons]
    rcases h x (by simp) with ⟨b, hb⟩ | hb
    · obtain ⟨a, ha, hae⟩ := hx
      have : ∃ a ∈ xs, f a = .error .value := by
        rcases List.mem_cons.1 ha with rfl | ha
        · rw [hb] at hae; cases hae
        · exact ⟨a, ha, hae⟩
      rw [hb, ih (fun a ha => h a (by simp [ha])) this]
      rfl
    · rw [hb]; rfl

theorem mapM_values_each {α β : Type} (f : α → Py β) (l : List α) : ∀ (v : List β), l.mapM f = .ok v → ∀ x ∈ l, ∃ y, f x = .ok y := by
  induction l with
  | nil => intro v _ x hx; simp at hx
  | cons a l ih =>
    intro v h x hx
    rw [List.mapM_cons] at h
    cases ha : f a with
    | error e => rw [ha] at h; cases h
    | ok y =>
      cases hl : l.mapM f with
      | error e => rw [ha, hl] at h; cases h
      | ok ys =>
        rcases List.mem_cons.1 hx with rfl | hx
        · exact ⟨y, ha⟩
        · exact ih ys hl x hx

theorem mapM_values_map {α β : Type} (f : α → Py β) (g : α → β) (hg : ∀ x y, f x = .ok y → y = g x) (l : List α) :
    ∀ (v : List β), l.mapM f = .ok v → v = l.map g := by
  induction l with
  | nil => intro v h; cases h; rfl
  | cons a l ih =>
    intro v h
    rw [List.mapM_cons] at h
    cases ha : f a with
    | error e => rw [ha] at h; cases h
    | ok y =>
      cases hl : l.mapM f with
      | error e => rw [ha, hl] at h; cases h
      | ok ys =>
        rw [ha, hl] at h
        obtain rfl : y :: ys = v := Except.ok.inj h
        rw [hg a y ha, ih ys hl]
        rfl

/-- **C129, which signatures are written.** Let the tracks of a song be proper and `e` the end of the last note. If the object is made at all, then,
before its times are adjusted, it has the initial tempo and then the tempo signatures up to time `e`, the last one included, in list
order, at the ticks of C129_tempo_ticks; and its time signatures and key signatures are those of the song up to time `e`, each with its own time. -/
theorem C129_which (srt : List TimeSig → List TimeSig) (hsrt : ∀ l, (srt l).Perm l) (s : Song) (ts : List MSeq) (t0 b e : ℚ) (pm : PM)
    (h : s.build srt t0 (some b) = .ok pm) (hall : s.tracks.allSeqs = .ok ts) (hv : ∀ t ∈ ts, ∀ n ∈ t.notes, 0 ≤ n.start ∧ n.start < n.stop)
    (h1 : ∀ t ∈ ts, ∀ n ∈ t.notes, n.stop ≤ e) (h2 : ∃ t ∈ ts, ∃ n ∈ t.notes, n.stop = e) :
    (0 < s.resolution → 0 < t0 → (∀ q ∈ s.tempos, 0 ≤ q.time ∧ 0 < q.qpm) →
      (pm.clock.res : Int) = s.resolution ∧ pm.clock.scales[0]? = some (0, 60 / (t0 * s.resolution)) ∧
      pm.clock.scales.length = (s.tempos.filter (fun q => decide (q.time ≤ e))).length + 1 ∧
      ∀ (k : Nat) q p, (s.tempos.filter (fun q => decide (q.time ≤ e)))[k]? = some q → pm.clock.scales[k]? = some p →
        pm.clock.scales[k + 1]? = some ((roundHE (q.time / p.2)).toNat, 60 / (s.resolution * q.qpm))) ∧
    pm.timeSigs.Perm ((s.times.filter (fun x => decide (x.time ≤ e))).map (fun x => (x.numer, x.denom, x.time))) ∧
    (pm.keySigs.map (fun x => ((x.1 : Int), x.2))).Perm ((s.keys.filter (fun x => decide (x.time ≤ e))).map (fun x => (keyNumber x, x.time))) := by
  obtain ⟨mx, evs, c0, r, hB⟩ := build_some h
  have hmx : mx = e := by
    have h4 := maxEventTime_ok s ts hall hv e b h1 h2
    have hev := hB.events
    unfold Tracks.allEvents at hev
    unfold Tracks.allSeqs at hall
    rw [hall] at hev
    simp only [bind, Except.bind] at hev
    obtain rfl := Except.ok.inj hev
    have hmem : ∀ n, n ∈ sortByKey Note.start (ts.flatMap MSeq.notes) ↔ ∃ t ∈ ts, n ∈ t.notes := by
      intro n; rw [(sortByKey_perm _ _).mem_iff, List.mem_flatMap]
    obtain ⟨ta, hta, na, hna, hnae⟩ := h2
    rw [hB.mx_eq]
    apply maxDefault_eq_of
    · rw [← hnae]; exact List.mem_map_of_mem ((hmem na).2 ⟨ta, hta, hna⟩)
    · intro y hy
      obtain ⟨n, hn, rfl⟩ := List.mem_map.1 hy
      obtain ⟨t, ht, hnt⟩ := (hmem n).1 hn
      exact h1 t ht n hnt
  have hpos : 0 < e := by
    obtain ⟨t, ht, n, hn, hne⟩ := h2
    have := hv t ht n hn
    rw [hne] at this
    linarith
  refine ⟨?_, ?_, ?_⟩
  · intro hres h0 hl
    have hf : sliceTempos mx s.tempos = s.tempos.filter (fun q => decide (q.time ≤ e)) := by
      unfold sliceTempos
      rw [hmx]
      apply List.filter_congr
      intro q _
      by_cases hq : q.time ≤ e
      · simp [hq]
      · simp [hq, hpos.ne', not_le.1 hq]
    have hr : (s.resolution.toNat : Int) = s.resolution := Int.toNat_of_nonneg hres.le
    have hrq : ((s.resolution.toNat : Nat) : ℚ) = ((s.resolution : Int) : ℚ) := by exact_mod_cast congrArg (Int.cast : Int → ℚ) hr
    obtain ⟨c, c', e1, e2, e3, -, e5, e6, e7⟩ := C129_tempo_ticks s.resolution.toNat (by omega) t0 h0
      (s.tempos.filter (fun q => decide (q.time ≤ e))) (fun q hq => hl q (List.mem_filter.1 hq).1)
    have hfr := hB.fresh
    rw [if_neg hres.ne', e1] at hfr
    obtain rfl := Except.ok.inj hfr
    have hc := hB.clock
    rw [hf, e2] at hc
    obtain rfl := Except.ok.inj hc
    rw [hrq] at e6 e7
    exact ⟨by rw [e3]; exact hr, e6, e5, e7⟩
  · have := hB.times
    rw [hmx] at this
    have e1 : pm.timeSigs = (sliceTimeSigs srt e s.times).map (fun x => (x.numer, x.denom, x.time)) := by
      refine mapM_values_map _ _ ?_ _ _ this
      intro x y hy
      unfold writeTimeSig at hy
      split_ifs at hy
      exact (Except.ok.inj hy).symm
    rw [e1]
    refine List.Perm.map _ ?_
    unfold sliceTimeSigs
    refine ((hsrt s.times).filter _).trans ?_
    rw [List.filter_congr]
    intro x _
    by_cases hx : x.time ≤ e
    · simp [hx]
    · simp [hx, not_le.1 hx]
  · have := hB.keys
    rw [hmx] at this
    have e1 : pm.keySigs = (sliceKeySigs e s.keys).map (fun x => ((keyNumber x).toNat, x.time)) ∧
        ∀ x ∈ sliceKeySigs e s.keys, 0 ≤ keyNumber x := by
      constructor
      · refine mapM_values_map _ _ ?_ _ _ this
        intro x y hy
        unfold writeKeySig at hy
        split_ifs at hy
        exact (Except.ok.inj hy).symm
      · intro x hx
        by_contra hneg
        obtain ⟨y, hy⟩ := mapM_values_each _ _ _ this x hx
        unfold writeKeySig at hy
        rw [if_neg (fun hh => hneg hh.1)] at hy
        cases hy
    rw [e1.1, List.map_map]
    rw [List.map_congr_left (g := fun x => (keyNumber x, x.time))]
    · refine List.Perm.map _ ?_
      unfold sliceKeySigs
      refine ((sortByKey_perm _ s.keys).filter _).trans ?_
      rw [List.filter_congr]
      intro x _
      by_cases hx : x.time ≤ e
      · simp [hx]
      · simp [hx, not_le.1 hx]
    · intro x hx
      have := e1.2 x hx
      simp [Int.toNat_of_nonneg this]

/-- **C129, signatures that cannot be written.** In the same situation, a time signature at or before `e` whose numerator or denominator is not positive, or whose
time is negative, or such a key signature with a number outside 0..23 or negative time, makes ValueError: nothing is written. Later ones do no harm. -/
theorem C129_refused (srt : List TimeSig → List TimeSig) (hsrt : ∀ l, (srt l).Perm l) (s : Song) (ts : List MSeq) (t0 b e : ℚ)
    (hres : 0 < s.resolution) (h0 : 0 < t0) (hall : s.tracks.allSeqs = .ok ts) (hv : ∀ t ∈ ts, ∀ n ∈ t.notes, 0 ≤ n.start ∧ n.start < n.stop)
    (h1 : ∀ t ∈ ts, ∀ n ∈ t.notes, n.stop ≤ e) (h2 : ∃ t ∈ ts, ∃ n ∈ t.notes, n.stop = e)
    (hbad : (∃ x ∈ s.times, x.time ≤ e ∧ (x.numer ≤ 0 ∨ x.denom ≤ 0 ∨ x.time < 0)) ∨
      (∃ x ∈ s.keys, x.time ≤ e ∧ (keyNumber x < 0 ∨ 24 ≤ keyNumber x ∨ x.time < 0))) :
    s.build srt t0 (some b) = .error .value := by
  have hmx := maxEventTime_ok s ts hall hv e b h1 h2
  have hr : (0 : ℚ) < (s.resolution.toNat : Nat) := by exact_mod_cast (by omega : 0 < s.resolution.toNat)
  have hfresh : Clock.fresh (if s.resolution = 0 then 480 else s.resolution.toNat) t0 =
      .ok { res := s.resolution.toNat, scales := [(0, 60 / (t0 * s.resolution.toNat))], times := [0] } := by
    unfold Clock.fresh
    rw [if_neg hres.ne', if_neg (by positivity)]
  have ht : ∀ a ∈ sliceTimeSigs srt e s.times, (∃ b, writeTimeSig a = .ok b) ∨ writeTimeSig a = .error .value := by
    intro a _
    unfold writeTimeSig
    split_ifs
    · exact .inl ⟨_, rfl⟩
    · exact .inr rfl
  have hk : ∀ a ∈ sliceKeySigs e s.keys, (∃ b, writeKeySig a = .ok b) ∨ writeKeySig a = .error .value := by
    intro a _
    unfold writeKeySig
    split_ifs
    · exact .inl ⟨_, rfl⟩
    · exact .inr rfl
  unfold Song.build
  rw [hmx, hfresh]
  simp only [bind, Except.bind]
  rcases hbad with ⟨x, hx, hxe, hx2⟩ | ⟨x, hx, hxe, hx2⟩
  · rw [mapM_value_any _ _ ht ⟨x, ?_, ?_⟩]
    · unfold sliceTimeSigs
      rw [List.mem_filter, (hsrt s.times).mem_iff]
      exact ⟨hx, by simp [hxe]⟩
    · unfold writeTimeSig
      rw [if_neg]
      rintro ⟨a, b, c⟩
      rcases hx2 with h | h | h
      · omega
      · omega
      · linarith
  · have : (sliceKeySigs e s.keys).mapM writeKeySig = .error .value := by
      refine mapM_value_any _ _ hk ⟨x, ?_, ?_⟩
      · unfold sliceKeySigs
        rw [List.mem_filter, (sortByKey_perm _ s.keys).mem_iff]
        exact ⟨hx, by simp [hxe]⟩
      · unfold writeKeySig
        rw [if_neg]
        rintro ⟨a, b, c⟩
        rcases hx2 with h | h | h
        · omega
        · omega
        · linarith
    rw [this]
    cases hq : (sliceTimeSigs srt e s.times).mapM writeTimeSig with
    | ok v => rfl
    | error er =>
      by_cases hex : ∃ a ∈ sliceTimeSigs srt e s.times, writeTimeSig a = .error .value
      · rw [mapM_value_any _ _ ht hex] at hq
        cases hq; rfl
      · exfalso
        have hok : ∀ a ∈ sliceTimeSigs srt e s.times, ∃ b, writeTimeSig a = .ok b := fun a ha => (ht a ha).resolve_right (fun h => hex ⟨a, ha, h⟩)
        have : ∀ l : List TimeSig, (∀ a ∈ l, ∃ b, writeTimeSig a = .ok b) → ∃ v, l.mapM writeTimeSig = .ok v := by
          intro l
          induction l with
          | nil => intro _; exact ⟨[], rfl⟩
          | cons y ys ih =>
            intro hh
            obtain ⟨z, hz⟩ := hh y (by simp)
            obtain ⟨zs, hzs⟩ := ih (fun a ha => hh a (by simp [ha]))
            exact ⟨z :: zs, by rw [List.mapM_cons, hz, hzs]; rfl⟩
        obtain ⟨v, hv'⟩ := this _ hok
        rw [hv'] at hq; cases hq

/-- The waltz with tempo signatures at 0, at its end (2 s) and after it, and a time signature after it: those after the end are not
made (C129_which). -/
example : ((readSong songPM).toOption.bind (fun s =>
    (({ s with tempos := [⟨0, 120, 4, 0⟩, ⟨2, 60, 4, 1⟩, ⟨3, 90, 4, 2⟩], times := s.times ++ [⟨3, -1, 4, 1⟩] } : Song).build
      (sortByKey Sig.time) 120 (some 2)).toOption.map (fun pm => (pm.clock.scales, pm.timeSigs, pm.keySigs)))) =
    some ([(0, 1/8), (0, 1/8), (16, 1/4)], [(3, 4, 0)], [(21, 0)]) := by decide +kernel

/-- The same signature before the end: ValueError (C129_refused). -/
example : ((readSong songPM).toOption.map (fun s =>
    (({ s with times := s.times ++ [⟨1, -1, 4, 1⟩] } : Song).build (sortByKey Sig.time) 120 (some 2)).map (fun pm => pm.timeSigs))) =
    some (.error .value) := by decide +kernel

end NGC
