import Verif.WriterProps
import Verif.HeapProps3

/-! Property theorems C128 (the notes and events written) and C129 (the signatures written). -/

namespace NGC

namespace Spec

/-- Every key of the song leads, by `s[k]`, to an existing track; `ts` are these tracks in order of the keys. -/
def Registered (s : Song) (ts : List MSeq) : Prop :=
  List.Forall₂ (fun k t => s.tracks.getItem (s.defaultTrack k) k = .ok (t, s.tracks)) s.tracks.seqs.keys ts

/-- The line through `(0, f)` and `(e, g)`. -/
def line (e f g x : ℚ) : ℚ := f + x * (g - f) / e

end Spec

open Spec (seconds TempoMap line Strict2 Monotone2)

theorem points_timeMap (e f g : ℚ) (he : 0 < e) : timeMap [(0, f), (e, g)] = [(0, f), (e, max f g)] := by
  unfold timeMap
  have h1 : sortByKey Prod.fst [((0 : ℚ), f), (e, g)] = [(0, f), (e, g)] := by
    apply sortByKey_of_sorted
    simp [he.le]
  rw [h1]
  have h2 : dedupKeys [((0 : ℚ), f), (e, g)] = [(0, f), (e, g)] := by
    apply dedupKeys_of_strict
    simp [he]
  rw [h2]
  rfl

theorem points_interp (e f g x : ℚ) (he : 0 < e) (hfg : f ≤ g) (h0 : 0 ≤ x) (h1 : x ≤ e) : interp [(0, f), (e, g)] x = line e f g x := by
  have := interp_linear [] (0, f) (e, g) [] x (by simp [Spec.Monotone2, he, hfg]) h0 h1
  simp only [List.nil_append, sub_zero] at this
  exact this

/-- What is known about the time map of a successful call on proper notes. -/
theorem write_map {srt : List TimeSig → List TimeSig} {srt' : List (ℚ × ℚ) → List (ℚ × ℚ)}
    (hs : ∀ l, (srt' l).Perm l ∧ (srt' l).Pairwise (fun c d => d.2 ≤ c.2)) {fuel : Nat} {s : Song}
    {t0 : ℚ} {fs te : Option ℚ} {pm' : PM} (h : s.toPrettyMidi srt srt' fuel t0 fs te = .ok (some pm')) (ts : List MSeq)
    (hr : Spec.Registered s ts) (hv : ∀ t ∈ ts, ∀ n ∈ t.notes, 0 ≤ n.start ∧ n.start < n.stop) :
    ∃ b pm e mx evs c0, te = some b ∧ SongBuilt srt s t0 b pm mx evs c0 (ts, s.tracks) ∧ pm.endTime = .ok e ∧
      pm.adjustTimes fuel (writePoints e fs (some b)) = .ok (some pm') ∧ 0 < e ∧
      clipTo e (fs.getD 0) < clipTo e b ∧ (∀ t ∈ ts, ∀ n ∈ t.notes, n.stop ≤ e) := by
  obtain ⟨x, y, hxy, _⟩ := C127_needs_pulse srt srt' hs fuel s t0 fs te pm' h
  obtain ⟨b, pm, e, q, rfl, h1, h2, h3, _⟩ := toPrettyMidi_some h
  obtain ⟨mx, evs, c0, r, hB⟩ := build_some h1
  have hvis := hB.visit
  rw [visitAll_registered s ts hr] at hvis
  obtain rfl : (ts, s.tracks) = r := Except.ok.inj hvis
  have hend : ∀ t ∈ ts, ∀ n ∈ t.notes, n.stop ≤ e := by
    obtain ⟨_, _, _, h5, _⟩ := C122_end_time pm e h2
    intro t ht n hn
    exact (h5 (writeInst mx t) (by rw [hB.insts]; exact List.mem_cons_of_mem _ (List.mem_map_of_mem ht))).1 (writeNote n)
      (List.mem_map_of_mem hn)
  have h3' := h3
  obtain ⟨_, _, _, _, _, _, _, _, _, rfl⟩ := adjustTimes_some h3
  have hx : x ∈ onsets (pm.insts.map (adjInst (timeMap (writePoints e fs (some b))))) := by
    obtain ⟨pre, post, e⟩ := hxy
    simp only at e
    rw [e]; simp
  rw [(C122_onsets _).2.mem_iff, List.mem_flatMap] at hx
  obtain ⟨i, hi1, hi2⟩ := hx
  rw [hB.insts, List.map_cons, List.map_map, List.mem_cons] at hi1
  rcases hi1 with rfl | hi1
  · simp [adjInst, adjNotes_nil] at hi2
  · obtain ⟨t, ht, rfl⟩ := List.mem_map.1 hi1
    obtain ⟨n, hn, rfl⟩ := List.mem_map.1 hi2
    change n ∈ adjNotes _ (t.notes.map writeNote) at hn
    have he : 0 < e := by
      cases hl : t.notes with
      | nil => rw [hl] at hn; simp [adjNotes_nil] at hn
      | cons o os =>
        have ho : o ∈ t.notes := by rw [hl]; simp
        have := hv t ht o ho
        have := hend t ht o ho
        linarith
    refine ⟨b, pm, e, mx, evs, c0, rfl, hB, h2, h3', he, ?_, hend⟩
    by_contra hc
    have hm : timeMap (writePoints e fs (some b)) = [(0, clipTo e (fs.getD 0)), (e, clipTo e (fs.getD 0))] := by
      unfold writePoints
      rw [points_timeMap _ _ _ he, Option.getD_some, max_eq_left (not_lt.1 hc)]
    obtain ⟨o, ho, ho1, ho2, _, _, hn1, hn2, _, hn3, _⟩ := C120_notes (writePoints e fs (some b)) _ _ (by rw [hm]; rfl) (by rw [hm]; rfl) _ n hn
    obtain ⟨o', ho', rfl⟩ := List.mem_map.1 ho
    have hval := hv t ht o' ho'
    have hle := hend t ht o' ho'
    rw [hm] at hn1 hn2
    have e1 : interp [(0, clipTo e (fs.getD 0)), (e, clipTo e (fs.getD 0))] (writeNote o').start = clipTo e (fs.getD 0) := by
      show interp _ o'.start = _
      rw [points_interp _ _ _ _ he (le_refl _) hval.1 (le_trans hval.2.le hle)]
      simp [line]
    have e2 : interp [(0, clipTo e (fs.getD 0)), (e, clipTo e (fs.getD 0))] (writeNote o').stop = clipTo e (fs.getD 0) := by
      show interp _ o'.stop = _
      rw [points_interp _ _ _ _ he (le_refl _) (le_trans hval.1 hval.2.le) hle]
      simp [line]
    rw [e1] at hn1
    rw [e2] at hn2
    rw [hn1, hn2] at hn3
    exact lt_irrefl _ hn3

theorem clipTo_eq (e x : ℚ) (hx : 0 ≤ x) : clipTo e x = min x e := by
  unfold clipTo
  rw [max_eq_left hx]

/-- **C128, the notes.** Let `write` succeed on a song whose tracks all have an index and whose notes are proper. Then the object handed to the library has one
instrument without notes and then, in order of the keys, one instrument per track; it has the drum flag of
the track, program 0 and no name, and its notes are the notes of the track in their order, with their pitch and velocity, and with
times moved by a straight line: the beginning of the song goes to `from_start` (0 if not given) and its end `e` to `to_end`,
but not beyond `e`. No note ends after `e`. -/
theorem C128_notes (srt : List TimeSig → List TimeSig) (srt' : List (ℚ × ℚ) → List (ℚ × ℚ))
    (hs : ∀ l, (srt' l).Perm l ∧ (srt' l).Pairwise (fun c d => d.2 ≤ c.2)) (fuel : Nat) (s : Song)
    (t0 b : ℚ) (fn : String) (ex : Bool) (fs : Option ℚ) (ow : Overwrite) (pm' : PM)
    (h : s.write srt srt' fuel t0 fn ex fs (some b) ow = .ok (some pm')) (ts : List MSeq) (hr : Spec.Registered s ts)
    (hv : ∀ t ∈ ts, ∀ n ∈ t.notes, 0 ≤ n.start ∧ n.start < n.stop) :
    ∃ e f g, 0 ≤ f ∧ f < g ∧ f = min (fs.getD 0) e ∧ g = min b e ∧ (∀ t ∈ ts, ∀ n ∈ t.notes, n.stop ≤ e) ∧
      pm'.insts.length = ts.length + 1 ∧ (∃ i, pm'.insts[0]? = some i ∧ i.notes = []) ∧
      ∀ (j : Nat) t, ts[j]? = some t → ∃ i, pm'.insts[j + 1]? = some i ∧ i.program = 0 ∧ i.isDrum = t.instr.isDrum ∧ i.name = "" ∧
        i.notes = t.notes.map (fun n => ⟨n.velocity.toNat, n.pitch.toNat, line e f g n.start, line e f g n.stop⟩) := by
  obtain ⟨_, _, _, w4, w5, _, h⟩ := write_some h
  obtain ⟨b', pm, e, mx, evs, c0, hb', hB, hend, hadj, he, hlt, hle⟩ := write_map hs h ts hr hv
  cases hb'
  have hf0 : 0 ≤ fs.getD 0 := by
    cases fs with
    | none => simp
    | some a => simpa using w4 a rfl
  have hf : clipTo e (fs.getD 0) = min (fs.getD 0) e := clipTo_eq _ _ hf0
  have hg : clipTo e b = min b e := clipTo_eq _ _ (w5 b rfl)
  refine ⟨e, clipTo e (fs.getD 0), clipTo e b, by rw [hf]; exact le_min hf0 he.le, hlt, hf, hg, hle, ?_⟩
  obtain ⟨_, _, _, _, _, _, _, _, _, rfl⟩ := adjustTimes_some hadj
  have hstr : Strict2 (writePoints e fs (some b)) := by
    simp [Strict2, writePoints, he, hlt]
  have hhead : (writePoints e fs (some b)).head? = some (0, clipTo e (fs.getD 0)) := rfl
  have hlast : (writePoints e fs (some b)).getLast? = some (e, clipTo e b) := rfl
  simp only [hB.insts, List.map_cons, List.map_map]
  refine ⟨by simp, ⟨_, rfl, by simp [adjInst, adjNotes_nil]⟩, ?_⟩
  intro j t hj
  have ht : t ∈ ts := List.mem_of_getElem? hj
  refine ⟨adjInst (timeMap (writePoints e fs (some b))) (writeInst mx t), by simp [hj], rfl, rfl, rfl, ?_⟩
  show adjNotes _ (t.notes.map writeNote) = _
  rw [C120_notes_kept _ hstr _ _ hhead hlast (by rw [hf]; exact le_min hf0 he.le) _ (by
    intro n hn
    obtain ⟨n', hn', rfl⟩ := List.mem_map.1 hn
    exact (hv t ht n' hn').2)]
  rw [List.filter_eq_self.2 (by
    intro n hn
    obtain ⟨n', hn', rfl⟩ := List.mem_map.1 hn
    exact decide_eq_true ⟨(hv t ht n' hn').1, hle t ht n' hn'⟩), List.map_map]
  apply List.map_congr_left
  intro n hn
  have h1 := hv t ht n hn
  have h2 := hle t ht n hn
  simp only [Function.comp, writeNote, writePoints, Option.getD_some]
  rw [points_interp _ _ _ _ he hlt.le h1.1 (le_trans h1.2.le h2), points_interp _ _ _ _ he hlt.le (le_trans h1.1 h1.2.le) h2]

/-! ### Songs with a constant tempo -/

theorem writeTempos_zero : ∀ (l : List TempoSig) (c c' : Clock), (∀ q ∈ l, q.time = 0) → c.times = [0] → (∀ p ∈ c.scales, p.1 = 0) →
    writeTempos c l = .ok c' → c'.times = [0] ∧ ∀ p ∈ c'.scales, p.1 = 0 := by
  intro l
  induction l with
  | nil => intro c c' _ h1 h2 h; cases h; exact ⟨h1, h2⟩
  | cons q l ih =>
    intro c c' hq h1 h2 h
    unfold writeTempos at h
    rw [List.foldlM_cons] at h
    have hz := hq q (by simp)
    unfold Clock.pushTempo at h
    by_cases hres : (c.res : ℚ) * q.qpm = 0
    · rw [if_pos hres] at h
      simp [bind, Except.bind] at h
    · rw [if_neg hres] at h
      have ht : c.timeToTick q.time = .ok 0 := by
        rw [hz]
        unfold Clock.timeToTick searchsortedLeft
        rw [h1]
        simp only [show bisectLeft (fun a b : ℚ => decide (a < b)) [0] 0 = 0 by decide +kernel]
        simp
      rw [ht] at h
      simp only [bind, Except.bind] at h
      refine ih _ _ (fun x hx => hq x (by simp [hx])) rfl ?_ h
      intro p hp
      rcases List.mem_append.1 hp with hp | hp
      · exact h2 p hp
      · rw [List.mem_singleton] at hp; subst hp; rfl

theorem tempoChangesGo_zero : ∀ (l : List (Nat × ℚ)) (c : Clock) (r : List (ℚ × ℚ) × Clock), (∀ p ∈ l, p.1 = 0) → c.times = [0] →
    tempoChangesGo c l = .ok r → ∀ x ∈ r.1, x.1 = 0 := by
  intro l
  induction l with
  | nil => intro c r _ _ h; cases h; simp
  | cons p l ih =>
    intro c r hl hc h
    obtain ⟨k, s⟩ := p
    have hk : k = 0 := hl (k, s) (by simp)
    subst hk
    unfold tempoChangesGo at h
    have ht : c.tickToTime 0 = .ok (0, c) := by
      unfold Clock.tickToTime
      simp [hc]
    rw [ht] at h
    simp only [bind, Except.bind] at h
    split_ifs at h with h0
    cases hg : tempoChangesGo c l with
    | error e => rw [hg] at h; cases h
    | ok r' =>
      rw [hg] at h
      cases h
      intro x hx
      rcases List.mem_cons.1 hx with rfl | hx
      · rfl
      · exact ih c r' (fun q hq => hl q (by simp [hq])) hc hg x hx

theorem mapM_mem {α β : Type} (f : α → Py β) : ∀ (l : List α) (r : List β), l.mapM f = .ok r → ∀ y ∈ r, ∃ x ∈ l, f x = .ok y := by
  intro l
  induction l with
  | nil => intro r h; cases h; simp
  | cons a l ih =>
    intro r h y hy
    rw [List.mapM_cons] at h
    simp only [bind, Except.bind, pure, Except.pure] at h
    cases ha : f a with
    | error e => rw [ha] at h; cases h
    | ok b =>
      rw [ha] at h
      simp only at h
      cases hl : l.mapM f with
      | error e => rw [hl] at h; cases h
      | ok bs =>
        rw [hl] at h
        cases h
        rcases List.mem_cons.1 hy with rfl | hy
        · exact ⟨a, by simp, ha⟩
        · obtain ⟨x, hx, hxy⟩ := ih bs hl y hy
          exact ⟨x, by simp [hx], hxy⟩

/-- Signatures and events are written only up to the last note, so with a constant tempo that is the end of the written song. -/
theorem built_end {srt : List TimeSig → List TimeSig} {s : Song} {t0 b : ℚ} {pm : PM} {mx : ℚ} {evs : List Note} {c0 : Clock}
    {ts : List MSeq} {t' : Tracks MSeq} (hB : SongBuilt srt s t0 b pm mx evs c0 (ts, t')) (hts : ∀ t ∈ ts, ∀ n ∈ t.notes, n.stop ≤ mx) (h0 : 0 ≤ mx)
    (hq : ∀ q ∈ s.tempos, q.time = 0) (e : ℚ) (he : pm.endTime = .ok e) : e ≤ mx := by
  obtain ⟨tempos, c, ht, _, _, _, _, _, hcase⟩ := C122_end_time pm e he
  have hfresh : c0.times = [0] ∧ ∀ p ∈ c0.scales, p.1 = 0 := by
    have := hB.fresh
    unfold Clock.fresh at this
    split_ifs at this
    all_goals (cases this; exact ⟨rfl, by simp⟩)
  obtain ⟨k1, k2⟩ := writeTempos_zero _ c0 pm.clock (fun q hq' => hq q (List.mem_of_mem_filter hq')) hfresh.1 hfresh.2 hB.clock
  rcases hcase with h | ⟨i, hi, h⟩ | ⟨x, hx, rfl⟩ | ⟨x, hx, rfl⟩ | ⟨x, hx, rfl⟩ | ⟨x, hx, rfl⟩
  · rw [h]; exact h0
  · rw [hB.insts] at hi
    rcases List.mem_cons.1 hi with rfl | hi
    · simp at h
    · obtain ⟨t, htt, rfl⟩ := List.mem_map.1 hi
      rcases h with ⟨n, hn, rfl⟩ | ⟨n, hn, rfl⟩ | ⟨n, hn, rfl⟩
      · obtain ⟨n', hn', rfl⟩ := List.mem_map.1 hn
        exact hts t htt n' hn'
      · obtain ⟨n', hn', rfl⟩ := List.mem_map.1 hn
        exact (of_decide_eq_true (List.mem_filter.1 hn').2).2.le
      · obtain ⟨n', hn', rfl⟩ := List.mem_map.1 hn
        exact (of_decide_eq_true (List.mem_filter.1 hn').2).2.le
  · obtain ⟨y, hy, hyx⟩ := mapM_mem _ _ _ hB.times x hx
    have h1 := (List.mem_filter.1 hy).2
    unfold writeTimeSig at hyx
    split_ifs at hyx
    cases hyx
    simpa using h1
  · obtain ⟨y, hy, hyx⟩ := mapM_mem _ _ _ hB.keys x hx
    have h1 := (List.mem_filter.1 hy).2
    unfold writeKeySig at hyx
    split_ifs at hyx
    cases hyx
    simpa using h1
  · rw [hB.lyrics] at hx; cases hx
  · rw [tempoChangesGo_zero _ _ _ k2 k1 ht x hx]; exact h0

/-- The whole song of a constant tempo: the time map is the identity on its range, which is the range of the notes. -/
theorem whole_song {srt : List TimeSig → List TimeSig} {srt' : List (ℚ × ℚ) → List (ℚ × ℚ)}
    (hs : ∀ l, (srt' l).Perm l ∧ (srt' l).Pairwise (fun c d => d.2 ≤ c.2)) {fuel : Nat} {s : Song}
    {t0 b : ℚ} {fn : String} {ex : Bool} {fs : Option ℚ} (hfs : fs.getD 0 = 0) {ow : Overwrite} {pm' : PM}
    (h : s.write srt srt' fuel t0 fn ex fs (some b) ow = .ok (some pm')) {ts : List MSeq} (hr : Spec.Registered s ts)
    (hall : s.tracks.allSeqs = .ok ts) (hv : ∀ t ∈ ts, ∀ n ∈ t.notes, 0 ≤ n.start ∧ n.start < n.stop)
    (hq : ∀ q ∈ s.tempos, q.time = 0) (hb : ∀ t ∈ ts, ∀ n ∈ t.notes, n.stop ≤ b) :
    ∃ pm e evs c0, SongBuilt srt s t0 b pm e evs c0 (ts, s.tracks) ∧ pm.endTime = .ok e ∧
      pm.adjustTimes fuel [(0, 0), (e, e)] = .ok (some pm') ∧ 0 < e ∧
      (∀ t ∈ ts, ∀ n ∈ t.notes, n.stop ≤ e) ∧ (∃ t ∈ ts, ∃ n ∈ t.notes, n.stop = e) ∧
      pm'.insts = pm.insts.map (adjInst (timeMap [(0, 0), (e, e)])) := by
  obtain ⟨_, _, _, _, w5, _, h⟩ := write_some h
  obtain ⟨b', pm, e, mx, evs, c0, hb', hB, hend, hadj, he, hlt, hle⟩ := write_map hs h ts hr hv
  cases hb'
  have hevs : ∀ n, n ∈ evs ↔ ∃ t ∈ ts, n ∈ t.notes := by
    intro n
    have := hB.events
    unfold Tracks.allEvents at this
    unfold Tracks.allSeqs at hall
    rw [hall] at this
    simp only [bind, Except.bind] at this
    cases this
    rw [(sortByKey_perm _ _).mem_iff, List.mem_flatMap]
  obtain ⟨m0, hm0, hm1⟩ := maxEnd_mem evs hB.nonempty
  obtain ⟨t1, ht1, hm2⟩ := (hevs m0).1 hm0
  have hmx : mx ≤ b := by
    rw [hB.mx_eq, ← hm1]; exact hb t1 ht1 m0 hm2
  have hmx0 : 0 ≤ mx := by
    rw [hB.mx_eq, ← hm1]
    have := hv t1 ht1 m0 hm2
    linarith
  have hemx : e ≤ mx := built_end hB (by
    intro t ht n hn
    rw [hB.mx_eq]; exact maxEnd_ge _ _ ((hevs n).2 ⟨t, ht, hn⟩)) hmx0 hq e hend
  have heq : e = mx := le_antisymm hemx (by rw [hB.mx_eq, ← hm1]; exact hle t1 ht1 m0 hm2)
  have hpts : writePoints e fs (some b) = [(0, 0), (e, e)] := by
    unfold writePoints
    rw [hfs, Option.getD_some, clipTo_eq _ _ (le_refl _), clipTo_eq _ _ (w5 b rfl), min_eq_left he.le, min_eq_right (by linarith)]
  rw [hpts] at hadj
  subst heq
  refine ⟨pm, e, evs, c0, hB, hend, hadj, he, hle, ⟨t1, ht1, m0, hm2, by rw [hm1, ← hB.mx_eq]⟩, ?_⟩
  obtain ⟨_, _, _, _, _, _, _, _, _, rfl⟩ := adjustTimes_some hadj
  rfl

theorem whole_notes (e : ℚ) (he : 0 < e) (mx : ℚ) (t : MSeq) (hv : ∀ n ∈ t.notes, 0 ≤ n.start ∧ n.start < n.stop) (hle : ∀ n ∈ t.notes, n.stop ≤ e) :
    (adjInst (timeMap [(0, 0), (e, e)]) (writeInst mx t)).notes = t.notes.map (fun n => ⟨n.velocity.toNat, n.pitch.toNat, n.start, n.stop⟩) := by
  show adjNotes _ (t.notes.map writeNote) = _
  rw [C120_notes_kept [(0, 0), (e, e)] (by simp [Strict2, he]) (0, 0) (e, e) rfl rfl (le_refl _) _ (by
    intro n hn
    obtain ⟨n', hn', rfl⟩ := List.mem_map.1 hn
    exact (hv n' hn').2)]
  rw [List.filter_eq_self.2 (by
    intro n hn
    obtain ⟨n', hn', rfl⟩ := List.mem_map.1 hn
    exact decide_eq_true ⟨(hv n' hn').1, hle n' hn'⟩), List.map_map]
  apply List.map_congr_left
  intro n hn
  have h1 := hv n hn
  have h2 := hle n hn
  simp only [Function.comp, writeNote]
  rw [points_interp _ _ _ _ he he.le h1.1 (le_trans h1.2.le h2), points_interp _ _ _ _ he he.le (le_trans h1.1 h1.2.le) h2]
  simp only [line, sub_zero, zero_add, mul_div_assoc, div_self he.ne', mul_one]

/-- **C128, the whole song at its own speed.** In a song with a constant tempo (all tempo signatures at time 0), with `from_start` absent or 0 and
`to_end` not before the end of any note: if `write` succeeds, every track is written with exactly its notes: same
order, pitch, velocity, start and end. -/
theorem C128_exact (srt : List TimeSig → List TimeSig) (srt' : List (ℚ × ℚ) → List (ℚ × ℚ))
    (hs : ∀ l, (srt' l).Perm l ∧ (srt' l).Pairwise (fun c d => d.2 ≤ c.2)) (fuel : Nat) (s : Song)
    (t0 b : ℚ) (fn : String) (ex : Bool) (fs : Option ℚ) (hfs : fs.getD 0 = 0) (ow : Overwrite) (pm' : PM)
    (h : s.write srt srt' fuel t0 fn ex fs (some b) ow = .ok (some pm')) (ts : List MSeq) (hr : Spec.Registered s ts)
    (hall : s.tracks.allSeqs = .ok ts) (hv : ∀ t ∈ ts, ∀ n ∈ t.notes, 0 ≤ n.start ∧ n.start < n.stop)
    (hq : ∀ q ∈ s.tempos, q.time = 0) (hb : ∀ t ∈ ts, ∀ n ∈ t.notes, n.stop ≤ b) (j : Nat) (t : MSeq) (hj : ts[j]? = some t) :
    ∃ i, pm'.insts[j + 1]? = some i ∧
      i.notes = t.notes.map (fun n => ⟨n.velocity.toNat, n.pitch.toNat, n.start, n.stop⟩) := by
  obtain ⟨pm, e, evs, c0, hB, _, _, he, hle, _, hins⟩ := whole_song hs hfs h hr hall hv hq hb
  have ht : t ∈ ts := List.mem_of_getElem? hj
  exact ⟨adjInst (timeMap [(0, 0), (e, e)]) (writeInst e t), by simp [hins, hB.insts, hj], whole_notes e he e t (hv t ht) (hle t ht)⟩

namespace Spec

/-- What is kept of a list of events of a song that ends at `e`: of those at time 0 the last, and those strictly between 0 and `e`, in order of time. -/
def keptEvents {E : Type} (time : E → ℚ) (e : ℚ) (l : List E) : List E :=
  ((l.filter (fun x => decide (time x = 0))).getLast?).toList ++
    sortByKey time (l.filter (fun x => decide (0 < time x ∧ time x < e)))

end Spec

theorem insertByKey_filter {α : Type} (key : α → ℚ) (p : α → Bool) (x : α) : ∀ (l : List α), l.Pairwise (fun a b => key a ≤ key b) →
    (insertByKey key x l).filter p = if p x then insertByKey key x (l.filter p) else l.filter p := by
  intro l
  induction l with
  | nil => intro _; by_cases hx : p x <;> simp [insertByKey, hx]
  | cons y ys ih =>
    intro hs
    rw [List.pairwise_cons] at hs
    have hun : ∀ zs : List α, insertByKey key x (y :: zs) = if key x ≤ key y then x :: y :: zs else y :: insertByKey key x zs := fun _ => rfl
    rw [hun]
    by_cases hxy : key x ≤ key y
    · rw [if_pos hxy]
      by_cases hx : p x
      · rw [if_pos hx, List.filter_cons_of_pos hx]
        have : ∀ z ∈ (y :: ys).filter p, key x ≤ key z := by
          intro z hz
          rcases List.mem_cons.1 (List.mem_filter.1 hz).1 with rfl | hz'
          · exact hxy
          · exact le_trans hxy (hs.1 z hz')
        rw [insertByKey_of_le key x _ this]
      · rw [if_neg hx, List.filter_cons_of_neg hx]
    · rw [if_neg hxy]
      by_cases hy : p y
      · rw [List.filter_cons_of_pos hy, List.filter_cons_of_pos hy, ih hs.2]
        by_cases hx : p x
        · rw [if_pos hx, if_pos hx, hun, if_neg hxy]
        · rw [if_neg hx, if_neg hx]
      · rw [List.filter_cons_of_neg hy, List.filter_cons_of_neg hy, ih hs.2]

theorem sortByKey_filter {α : Type} (key : α → ℚ) (p : α → Bool) (l : List α) : (sortByKey key l).filter p = sortByKey key (l.filter p) := by
  induction l with
  | nil => rfl
  | cons x l ih =>
    rw [sortByKey, insertByKey_filter key p x _ (sortByKey_sorted key l), ih]
    by_cases hx : p x
    · rw [if_pos hx, List.filter_cons_of_pos hx]; rfl
    · rw [if_neg hx, List.filter_cons_of_neg hx]

theorem adjEvents_id {E : Type} (time : E → ℚ) (setTime : E → ℚ → E) (hset : ∀ x, setTime x (time x) = x) (e : ℚ) (he : 0 < e) (l : List E)
    (hl : ∀ x ∈ l, 0 ≤ time x ∧ time x < e) :
    adjEvents time setTime (timeMap [(0, 0), (e, e)]) l = Spec.keptEvents time e l := by
  rw [points_timeMap e 0 e he, max_eq_right he.le, adj_eq time setTime [(0, 0), (e, e)] (0, 0) (e, e) rfl rfl]
  have hid : (sortByKey time l).map (fun x => setTime x (interp [(0, 0), (e, e)] (time x))) = sortByKey time l := by
    rw [List.map_congr_left (g := id) ?_, List.map_id]
    intro x hx
    obtain ⟨h1, h2⟩ := hl x ((sortByKey_perm time l).mem_iff.1 hx)
    rw [points_interp _ _ _ _ he he.le h1 h2.le]
    simp only [line, sub_zero, zero_add, mul_div_assoc, div_self he.ne', mul_one, hset, id]
  rw [hid, sortByKey_filter, sortByKey_filter]
  unfold Spec.keptEvents
  rw [sortByKey_of_sorted time (l.filter _)]
  apply List.pairwise_of_forall_mem_list
  intro a ha b hb
  rw [of_decide_eq_true (List.mem_filter.1 ha).2, of_decide_eq_true (List.mem_filter.1 hb).2]

theorem written_events {A E : Type} (tm : A → ℚ) (f : A → E) (time : E → ℚ) (setTime : E → ℚ → E) (hset : ∀ x, setTime x (time x) = x)
    (hf : ∀ x, time (f x) = tm x) (e : ℚ) (he : 0 < e) (l : List A) (hl : ∀ x ∈ l, 0 ≤ tm x) :
    adjEvents time setTime (timeMap [(0, 0), (e, e)]) ((l.filter (fun x => decide (e ≠ 0 ∧ tm x < e))).map f) =
      (Spec.keptEvents tm e l).map f := by
  rw [adjEvents_id time setTime hset e he]
  · unfold Spec.keptEvents
    rw [List.map_append, List.filter_map, List.filter_map, ← sortByKey_map f time]
    have h1 : (fun a => time (f a)) = tm := funext hf
    have h2 : ∀ q : ℚ → Prop, [DecidablePred q] → (∀ y, q y → y < e) →
        ((l.filter (fun x => decide (e ≠ 0 ∧ tm x < e))).filter ((fun x => decide (q (time x))) ∘ f)) = l.filter (fun x => decide (q (tm x))) := by
      intro q _ hq
      rw [List.filter_filter]
      apply List.filter_congr
      intro x _
      simp only [Function.comp, hf]
      by_cases hx : q (tm x)
      · simp [hx, hq _ hx, he.ne']
      · simp [hx]
    rw [h1, h2 (fun y => y = 0) (fun y hy => by rw [hy]; exact he), h2 (fun y => 0 < y ∧ y < e) (fun y hy => hy.2)]
    congr 1
    rw [List.getLast?_map]
    cases (List.filter (fun x => decide (tm x = 0)) l).getLast? <;> rfl
  · intro x hx
    obtain ⟨y, hy, rfl⟩ := List.mem_map.1 hx
    rw [hf]
    exact ⟨hl y (List.mem_filter.1 hy).1, (of_decide_eq_true (List.mem_filter.1 hy).2).2⟩

/-- **C128, the events.** In the situation of C128_exact: let `e` be the end of the last note. Of the pitch bends and of the control changes of a
track those strictly between 0 and `e` are written, in order of time; of those at time 0 only the last is written (of all
controllers together), and those from `e` on are not written. -/
theorem C128_events (srt : List TimeSig → List TimeSig) (srt' : List (ℚ × ℚ) → List (ℚ × ℚ))
    (hs : ∀ l, (srt' l).Perm l ∧ (srt' l).Pairwise (fun c d => d.2 ≤ c.2)) (fuel : Nat) (s : Song)
    (t0 b : ℚ) (fn : String) (ex : Bool) (fs : Option ℚ) (hfs : fs.getD 0 = 0) (ow : Overwrite) (pm' : PM)
    (h : s.write srt srt' fuel t0 fn ex fs (some b) ow = .ok (some pm')) (ts : List MSeq) (hr : Spec.Registered s ts)
    (hall : s.tracks.allSeqs = .ok ts) (hv : ∀ t ∈ ts, ∀ n ∈ t.notes, 0 ≤ n.start ∧ n.start < n.stop)
    (hq : ∀ q ∈ s.tempos, q.time = 0) (hb : ∀ t ∈ ts, ∀ n ∈ t.notes, n.stop ≤ b) :
    ∃ e, (∀ t ∈ ts, ∀ n ∈ t.notes, n.stop ≤ e) ∧ (∃ t ∈ ts, ∃ n ∈ t.notes, n.stop = e) ∧
      ∀ (j : Nat) t, ts[j]? = some t → (∀ x ∈ t.bends, 0 ≤ x.time) → (∀ x ∈ t.ccs, 0 ≤ x.time) → ∃ i, pm'.insts[j + 1]? = some i ∧
        i.bends = (Spec.keptEvents PitchBend.time e t.bends).map (fun x => (x.amount, x.time)) ∧
        i.controls = (Spec.keptEvents CC.time e t.ccs).map (fun x => (x.number.toNat, x.value.toNat, x.time)) := by
  obtain ⟨pm, e, evs, c0, hB, _, _, he, hle, hex, hins⟩ := whole_song hs hfs h hr hall hv hq hb
  refine ⟨e, hle, hex, fun j t hj h1 h2 => ⟨adjInst (timeMap [(0, 0), (e, e)]) (writeInst e t), by simp [hins, hB.insts, hj], ?_, ?_⟩⟩
  · exact written_events PitchBend.time (fun x => (x.amount, x.time)) (fun x => x.2) (fun x t => (x.1, t)) (fun _ => rfl) (fun _ => rfl) e he _ h1
  · exact written_events CC.time (fun x => (x.number.toNat, x.value.toNat, x.time)) (fun x => x.2.2) (fun x t => (x.1, x.2.1, t))
      (fun _ => rfl) (fun _ => rfl) e he _ h2

end NGC
