import Verif.BeatsProps
import Verif.GraphProps2
import Verif.TimesProps2
import Verif.ReaderProps4
import Mathlib.Algebra.Order.Floor.Semiring
import Mathlib.Data.Rat.Floor
import Mathlib.Data.List.TakeWhile

/-! C123: the beats of a file. -/

namespace NGC

open Spec (metre elapsed TempoFrom quarters TempoList Close MetreAt InForce NextBeat Tame)

theorem metreAt_le (tss : List (Int × Int × ℚ)) : ∃ F : ℚ, 0 < F ∧ ∀ b f, MetreAt tss b f → f ≤ F := by
  have h : ∃ G : ℚ, 0 ≤ G ∧ ∀ y ∈ tss, metre (some y) ≤ G := by
    induction tss with
    | nil => exact ⟨0, le_refl _, by simp⟩
    | cons y l ih =>
      obtain ⟨G, h1, h2⟩ := ih
      refine ⟨max G (metre (some y)), le_trans h1 (le_max_left _ _), ?_⟩
      intro z hz
      rcases List.mem_cons.1 hz with rfl | hz
      · exact le_max_right _ _
      · exact le_trans (h2 z hz) (le_max_left _ _)
  obtain ⟨G, h1, h2⟩ := h
  refine ⟨G + 1, by linarith, ?_⟩
  rintro b f (⟨_, rfl⟩ | ⟨y, hy, rfl⟩)
  · linarith
  · have := h2 y hy.1; linarith

/-- The loop ends and gives the beats. -/
theorem beatsGo_ok {tempi : List (ℚ × ℚ)} {tss : List (Int × Int × ℚ)} (H : Tame tempi tss)
    (ho : tss.Pairwise (fun y z => y.2.2 < z.2.2)) (stop F : ℚ) (hF : 0 < F) (hFm : ∀ b f, MetreAt tss b f → f ≤ F) :
    ∀ (fuel : Nat) (s : BeatSt), BeatOk tempi tss s →
    F * (quarters tempi stop - quarters tempi s.beat) + s.pending ≤ fuel →
    ∃ l, beatsGo stop fuel s = .ok (some l) ∧ Spec.Beats tempi tss stop s.beat l := by
  have hpos : ∀ s : BeatSt, s.beat < stop → 0 < F * (quarters tempi stop - quarters tempi s.beat) := by
    intro s hs
    have := quarters_strict H.tempo hs
    exact mul_pos hF (by linarith)
  intro fuel
  induction fuel with
  | zero =>
    intro s _ hf
    have hs : ¬ s.beat < stop := by
      intro hs
      have h1 := hpos s hs
      have h2 : (0:ℚ) ≤ s.pending := Nat.cast_nonneg _
      push_cast at hf
      linarith
    refine ⟨[], ?_, not_lt.1 hs⟩
    unfold beatsGo
    rw [if_neg hs]
  | succ fuel ih =>
    intro s h hf
    by_cases hs : s.beat < stop
    · obtain ⟨s', g1, g2, g3, g4, g5⟩ := beatStep_ok H ho s h
      have hq := quarters_strict H.tempo g4
      have hd : F * (quarters tempi stop - quarters tempi s'.beat) + s'.pending ≤ fuel := by
        push_cast at hf
        have e : F * (quarters tempi stop - quarters tempi s.beat) =
          F * (quarters tempi stop - quarters tempi s'.beat) + F * (quarters tempi s'.beat - quarters tempi s.beat) := by ring
        have hp : 0 < F * (quarters tempi s'.beat - quarters tempi s.beat) := mul_pos hF (by linarith)
        rcases g5 with g5 | ⟨g5, f, hf1, hf2⟩
        · have : (s'.pending : ℚ) + 1 ≤ s.pending := by exact_mod_cast g5
          linarith
        · have : (s'.pending : ℚ) ≤ s.pending := by exact_mod_cast g5
          have h3 : f * (quarters tempi s'.beat - quarters tempi s.beat) ≤ F * (quarters tempi s'.beat - quarters tempi s.beat) :=
            mul_le_mul_of_nonneg_right (hFm _ _ hf1) (by linarith)
          linarith
      obtain ⟨l, i1, i2⟩ := ih s' g2 hd
      refine ⟨s.beat :: l, ?_, rfl, hs, s'.beat, g3, i2⟩
      rw [beatsGo, if_pos hs, g1]
      dsimp only [bind, Except.bind]
      rw [i1]; rfl
    · refine ⟨[], ?_, not_lt.1 hs⟩
      rw [beatsGo, if_neg hs]

theorem takeWhile_dropWhile_split {α : Type} (p : α → Bool) (x : α) (l : List α) :
    ∃ pre y, x :: l = pre ++ y :: l.dropWhile p ∧ (x :: l.takeWhile p).getLast? = some y ∧
      ((pre = [] ∧ l.takeWhile p = []) ∨ (pre ≠ [] ∧ l.takeWhile p ≠ [] ∧ y ∈ l.takeWhile p)) := by
  have e := List.takeWhile_append_dropWhile (p := p) (l := l)
  cases h : l.takeWhile p with
  | nil =>
    rw [h] at e
    exact ⟨[], x, by rw [List.nil_append] at e ⊢; rw [e], rfl, Or.inl ⟨rfl, rfl⟩⟩
  | cons a t =>
    obtain ⟨ys, y, hy⟩ := (List.eq_nil_or_concat (a :: t)).resolve_left (by simp)
    rw [List.concat_eq_append] at hy
    refine ⟨x :: ys, y, ?_, ?_, Or.inr ⟨by simp, by simp, by rw [hy]; simp⟩⟩
    · rw [h, hy] at e
      conv_lhs => rw [← e]
      simp
    · rw [hy, ← List.cons_append, List.getLast?_append]; rfl

theorem dropWhile_all_of_sorted {α : Type} (key : α → ℚ) (p : ℚ → Prop) [DecidablePred p]
    (hp : ∀ a b, a ≤ b → ¬ p a → ¬ p b) : ∀ (l : List α), l.Pairwise (fun a b => key a ≤ key b) →
    ∀ y ∈ l.dropWhile (fun a => decide (p (key a))), ¬ p (key y) := by
  intro l
  induction l with
  | nil => simp
  | cons a l ih =>
    intro ho
    rw [List.pairwise_cons] at ho
    rw [List.dropWhile_cons]
    split
    · exact ih ho.2
    · rename_i h
      have h : ¬ p (key a) := by simpa using h
      intro y hy
      rcases List.mem_cons.1 hy with rfl | hy
      · exact h
      · exact hp _ _ (ho.1 y hy) h

theorem beatInit_ok {tempi : List (ℚ × ℚ)} {tss : List (Int × Int × ℚ)} (H : Tame tempi tss)
    (ho : tss.Pairwise (fun y z => y.2.2 < z.2.2)) (start : ℚ) :
    ∃ s, beatInit tempi tss start = .ok s ∧ s.beat = start ∧ BeatOk tempi tss s := by
  cases tempi with
  | nil => exact absurd rfl H.tempo.ne
  | cons t rest =>
    unfold beatInit
    dsimp only
    obtain ⟨pre, y, e1, e2, e3⟩ := takeWhile_dropWhile_split (fun c : ℚ × ℚ => decide (c.1 < start)) t rest
    rw [e2]
    have hord := (List.pairwise_cons.1 H.tempo.order).2
    have htempo : TempoAt (t :: rest) start y.2 (rest.dropWhile (fun c => decide (c.1 < start))) := by
      refine ⟨pre, y.1, e1, ?_, ?_⟩
      · rcases e3 with ⟨e3, _⟩ | ⟨_, _, e3⟩
        · exact Or.inl e3
        · right
          have := List.mem_takeWhile_imp e3
          exact le_of_lt (by simpa using this)
      · intro p hp
        exact not_lt.1 (dropWhile_all_of_sorted (fun c : ℚ × ℚ => c.1) (fun a => a < start)
          (fun a b hab h => by simp only [not_lt] at *; linarith) rest hord p hp)
    cases tss with
    | nil => exact ⟨_, rfl, rfl, htempo, Or.inl ⟨rfl, rfl, rfl⟩⟩
    | cons x xs =>
      dsimp only
      obtain ⟨pre', y', d1, d2, d3⟩ := takeWhile_dropWhile_split (fun z : Int × Int × ℚ => decide (z.2.2 ≤ start)) x xs
      have hord' := (List.pairwise_cons.1 ho).2
      refine ⟨_, rfl, rfl, htempo, Or.inr ⟨pre', y', d1, d2, ?_, ?_, ?_⟩⟩
      · intro z hz
        exact not_le.1 (dropWhile_all_of_sorted (fun c : Int × Int × ℚ => c.2.2) (fun a => a ≤ start)
          (fun a b hab h => by simp only [not_le] at *; linarith) xs (hord'.imp (fun h => le_of_lt h)) z hz)
      · dsimp only
        rw [List.isEmpty_iff]
        rcases d3 with ⟨d3, d4⟩ | ⟨d3, d4, _⟩
        · exact ⟨fun _ => d3, fun _ => d4⟩
        · exact ⟨fun h => absurd h d4, fun h => absurd h d3⟩
      · rcases d3 with ⟨d3, _⟩ | ⟨_, _, d3⟩
        · exact Or.inl d3
        · right
          have := List.mem_takeWhile_imp d3
          simpa using this

/-! ### Order of the time signatures does not matter -/

theorem tame_perm {tempi : List (ℚ × ℚ)} {a b : List (Int × Int × ℚ)} (h : a.Perm b) (H : Tame tempi a) : Tame tempi b where
  tempo := H.tempo
  good := fun y hy => H.good y (h.symm.subset hy)
  distinct := (h.map _).nodup_iff.1 H.distinct
  apart := fun y hy z hz => H.apart y (h.symm.subset hy) z (h.symm.subset hz)
  before := fun y hy => H.before y (h.symm.subset hy)
  after := fun y hy p hp hlt z hz => H.after y (h.symm.subset hy) p hp hlt z (h.symm.subset hz)

theorem metreAt_perm {a b : List (Int × Int × ℚ)} (h : a.Perm b) {t f : ℚ} (H : MetreAt a t f) : MetreAt b t f := by
  rcases H with ⟨rfl, rfl⟩ | ⟨y, ⟨h1, h2⟩, rfl⟩
  · exact Or.inl ⟨h.nil_eq.symm, rfl⟩
  · refine Or.inr ⟨y, ⟨h.subset h1, ?_⟩, rfl⟩
    rcases h2 with ⟨h2, h3⟩ | h2
    · exact Or.inl ⟨h2, fun z hz => h3 z (h.symm.subset hz)⟩
    · exact Or.inr (fun z hz => h2 z (h.symm.subset hz))

theorem nextBeat_perm {tempi : List (ℚ × ℚ)} {a b : List (Int × Int × ℚ)} (h : a.Perm b) {t u : ℚ}
    (H : NextBeat tempi a t u) : NextBeat tempi b t u := by
  obtain ⟨f, T, h1, h2, h3, h4⟩ := H
  refine ⟨f, T, metreAt_perm h h1, h2, h3, ?_⟩
  rcases h4 with ⟨h4, h5⟩ | ⟨y, hy, h5, h6, h7, h8⟩
  · exact Or.inl ⟨h4, fun y hy => h5 y (h.symm.subset hy)⟩
  · exact Or.inr ⟨y, h.subset hy, h5, h6, h7, fun z hz => h8 z (h.symm.subset hz)⟩

theorem beats_perm {tempi : List (ℚ × ℚ)} {a b : List (Int × Int × ℚ)} (h : a.Perm b) (stop : ℚ) :
    ∀ (l : List ℚ) (t : ℚ), Spec.Beats tempi a stop t l → Spec.Beats tempi b stop t l := by
  intro l
  induction l with
  | nil => intro t H; exact H
  | cons x l ih =>
    intro t H
    obtain ⟨h1, h2, b', h3, h4⟩ := H
    exact ⟨h1, h2, b', nextBeat_perm h h3, ih b' h4⟩

/-! ### The theorems -/

/-- The tempo list of an object: time and quarter notes per minute of every entry of its tempo map. -/
def Spec.tempi (c : Clock) : List (ℚ × ℚ) :=
  c.scales.map (fun p => (Spec.seconds c.scales p.1, 60 / (p.2 * (c.res : ℚ))))

theorem tempi_list (c : Clock) (h : ClockOk c) : TempoList (Spec.tempi c) := by
  obtain ⟨h1, h2, _⟩ := h
  have hres : (0:ℚ) < c.res := by exact_mod_cast h1
  refine ⟨?_, ?_, ?_⟩
  · obtain ⟨q, rest, e⟩ := h2.zero
    unfold Spec.tempi
    rw [e]; simp
  · intro p hp
    obtain ⟨r, hr, rfl⟩ := List.mem_map.1 hp
    have := h2.pos r hr
    dsimp only
    positivity
  · unfold Spec.tempi
    rw [List.pairwise_map]
    exact h2.order.imp (fun hab => seconds_mono c.scales h2 hab)

/-- **C123, the beats.** On every object with a tempo map, whose time signatures are at different times, with no tempo change
just before a time signature or within a beat after one, `get_beats(start)` terminates and returns the list that begins with
`start` (if that is before the end) and goes on as specified: each next beat is one beat later (by tempo and metre), or at
the next time signature if that comes first, as long as it is before the end time. -/
theorem C123_beats (pm : PM) (h : ClockOk pm.clock) (hs : ∀ p ∈ pm.clock.scales, p.1 < 1000000000)
    (H : Tame (Spec.tempi pm.clock) pm.timeSigs) (start : ℚ) :
    ∃ stop l N, pm.endTime = .ok stop ∧ (∀ fuel ≥ N, pm.beats fuel start = .ok (some l)) ∧
      Spec.Beats (Spec.tempi pm.clock) pm.timeSigs stop start l := by
  obtain ⟨c', hc⟩ := C99_tempo_changes pm.clock h hs
  have hperm := sortByKey_perm (fun x : Int × Int × ℚ => x.2.2) pm.timeSigs
  have Hs := tame_perm hperm.symm H
  have ho : (sortByKey (fun x : Int × Int × ℚ => x.2.2) pm.timeSigs).Pairwise (fun y z => y.2.2 < z.2.2) :=
    sortByKey_strict _ _ H.distinct
  obtain ⟨s, i1, i2, i3⟩ := beatInit_ok Hs ho start
  obtain ⟨F, hF, hFm⟩ := metreAt_le (sortByKey (fun x : Int × Int × ℚ => x.2.2) pm.timeSigs)
  have hend : ∃ stop, pm.endTime = .ok stop := by
    unfold PM.endTime; rw [hc]; exact ⟨_, rfl⟩
  obtain ⟨stop, hstop⟩ := hend
  obtain ⟨N, hN⟩ : ∃ N : Nat, F * (quarters (Spec.tempi pm.clock) stop - quarters (Spec.tempi pm.clock) s.beat) + s.pending ≤ (N : ℚ) := ⟨_, Nat.le_ceil _⟩
  obtain ⟨l, g1, g2⟩ := beatsGo_ok Hs ho stop F hF hFm N s i3 hN
  refine ⟨stop, l, N, hstop, ?_, ?_⟩
  · intro fuel hfuel
    unfold PM.beats
    rw [hc]
    dsimp only [bind, Except.bind]
    rw [show pm.clock.scales.map (fun p => (Spec.seconds pm.clock.scales p.1, 60 / (p.2 * (pm.clock.res : ℚ)))) = Spec.tempi pm.clock from rfl,
      i1, hstop]
    dsimp only
    have := beatsGo_mono stop N s l g1 (fuel - N)
    rw [show N + (fuel - N) = fuel by omega] at this
    exact this
  · rw [i2] at g2
    exact beats_perm hperm stop l start g2

/-- Beats are in order, from the first on. -/
theorem C123_order {tempi : List (ℚ × ℚ)} {tss : List (Int × Int × ℚ)} {stop : ℚ} : ∀ (l : List ℚ) (b : ℚ),
    Spec.Beats tempi tss stop b l → l.Pairwise (· < ·) ∧ (∀ x ∈ l, b ≤ x ∧ x < stop) ∧ (b < stop → l.head? = some b) := by
  intro l
  induction l with
  | nil => intro b h; exact ⟨by simp, by simp, fun hb => absurd h (not_le.2 hb)⟩
  | cons x l ih =>
    intro b h
    obtain ⟨rfl, h2, b', h3, h4⟩ := h
    have hlt : x < b' := by
      obtain ⟨f, T, _, hT, _, h5⟩ := h3
      rcases h5 with ⟨rfl, _⟩ | ⟨_, _, _, h6, _⟩
      · exact hT
      · exact h6
    obtain ⟨i1, i2, _⟩ := ih b' h4
    refine ⟨?_, ?_, fun _ => rfl⟩
    · rw [List.pairwise_cons]
      exact ⟨fun y hy => lt_of_lt_of_le hlt (i2 y hy).1, i1⟩
    · intro y hy
      rcases List.mem_cons.1 hy with rfl | hy
      · exact ⟨le_refl _, h2⟩
      · exact ⟨(lt_of_lt_of_le hlt (i2 y hy).1).le, (i2 y hy).2⟩

/-- Every time signature after the first beat and before the end is on a beat. -/
theorem C123_on_signatures {tempi : List (ℚ × ℚ)} {tss : List (Int × Int × ℚ)} {stop : ℚ} : ∀ (l : List ℚ) (b : ℚ),
    Spec.Beats tempi tss stop b l → ∀ y ∈ tss, b ≤ y.2.2 → y.2.2 < stop → y.2.2 ∈ l := by
  intro l
  induction l with
  | nil =>
    intro b h y _ h1 h2
    exact absurd (lt_of_le_of_lt h1 h2) (not_lt.2 h)
  | cons x l ih =>
    intro b h y hy h1 h2
    obtain ⟨rfl, _, b', h3, h4⟩ := h
    rcases lt_or_eq_of_le h1 with h1 | h1
    · apply List.mem_cons_of_mem
      refine ih b' h4 y hy ?_ h2
      obtain ⟨f, T, _, hT, _, h5⟩ := h3
      rcases h5 with ⟨rfl, h6⟩ | ⟨_, _, _, _, _, h6⟩
      · exact (h6 y hy h1).1.le
      · exact h6 y hy h1
    · rw [h1]; exact List.mem_cons_self

/-- What is specified is a list: two lists of beats are equal. -/
theorem C123_unique {tempi : List (ℚ × ℚ)} {tss : List (Int × Int × ℚ)} (ht : TempoList tempi)
    (hg : ∀ y ∈ tss, 0 < y.1 ∧ 0 < y.2.1) (hd : (tss.map (fun y => y.2.2)).Nodup) {stop : ℚ} : ∀ (l m : List ℚ) (b : ℚ),
    Spec.Beats tempi tss stop b l → Spec.Beats tempi tss stop b m → l = m := by
  have hmet : ∀ b f g, MetreAt tss b f → MetreAt tss b g → f = g := by
    intro b f g hf hgm
    rcases hf with ⟨e, rfl⟩ | ⟨y, hy, rfl⟩
    · rcases hgm with ⟨_, rfl⟩ | ⟨z, hz, _⟩
      · rfl
      · rw [e] at hz; exact absurd hz.1 (by simp)
    · rcases hgm with ⟨e, _⟩ | ⟨z, hz, rfl⟩
      · rw [e] at hy; exact absurd hy.1 (by simp)
      · have : y.2.2 = z.2.2 := by
          obtain ⟨hy1, hy2⟩ := hy
          obtain ⟨hz1, hz2⟩ := hz
          rcases hy2 with ⟨a1, a2⟩ | a2 <;> rcases hz2 with ⟨c1, c2⟩ | c2
          · exact le_antisymm (c2 y hy1 a1) (a2 z hz1 c1)
          · exact absurd a1 (not_le.2 (c2 y hy1).1)
          · exact absurd c1 (not_le.2 (a2 z hz1).1)
          · exact le_antisymm (a2 z hz1).2 (c2 y hy1).2
        have : y = z := List.inj_on_of_nodup_map hd hy.1 hz.1 this
        rw [this]
  have hpos : ∀ b f, MetreAt tss b f → 0 < f := by
    rintro b f (⟨_, rfl⟩ | ⟨y, hy, rfl⟩)
    · exact one_pos
    · exact metre_pos _ (fun x hx => by cases hx; exact hg y hy.1)
  have hnext : ∀ b u v, NextBeat tempi tss b u → NextBeat tempi tss b v → u = v := by
    intro b u v hu hv
    obtain ⟨f, T, h1, h2, h3, h4⟩ := hu
    obtain ⟨g, S, k1, k2, k3, k4⟩ := hv
    have hfg := hmet b f g h1 k1
    subst hfg
    have hf := hpos b f h1
    have hTS : T = S := by
      have e : quarters tempi T = quarters tempi S := by
        have : f * (quarters tempi T - quarters tempi b) = f * (quarters tempi S - quarters tempi b) := by rw [h3, k3]
        have := mul_left_cancel₀ hf.ne' this
        linarith
      rcases lt_trichotomy T S with h | h | h
      · exact absurd (quarters_strict ht h) (by rw [e]; exact lt_irrefl _)
      · exact h
      · exact absurd (quarters_strict ht h) (by rw [e]; exact lt_irrefl _)
    subst hTS
    rcases h4 with ⟨rfl, a2⟩ | ⟨y, hy, rfl, a3, a4, a5⟩ <;> rcases k4 with ⟨rfl, c2⟩ | ⟨z, hz, rfl, c3, c4, c5⟩
    · rfl
    · exfalso
      rcases c4 with c4 | c4
      · exact absurd (a2 z hz c3).1 (not_lt.2 c4)
      · exact (a2 z hz c3).2 c4
    · exfalso
      rcases a4 with a4 | a4
      · exact absurd (c2 y hy a3).1 (not_lt.2 a4)
      · exact (c2 y hy a3).2 a4
    · exact le_antisymm (a5 z hz c3) (c5 y hy a3)
  intro l
  induction l with
  | nil =>
    intro m b h1 h2
    cases m with
    | nil => rfl
    | cons x m => exact absurd h2.2.1 (not_lt.2 (show stop ≤ b from h1))
  | cons x l ih =>
    intro m b h1 h2
    obtain ⟨rfl, h3, u, h4, h5⟩ := h1
    cases m with
    | nil => exact absurd h3 (not_lt.2 (show stop ≤ x from h2))
    | cons z m =>
      obtain ⟨rfl, _, v, k4, k5⟩ := h2
      rw [hnext _ _ _ h4 k4] at h5
      rw [ih m v h5 k5]

/-! ### Files without time signatures: the beats are the quarter notes of the tick grid -/

theorem quarters_seconds_go (scales : List (Nat × ℚ)) (hm : Spec.TempoMap scales) (res : Nat) (hres : 0 < res) :
    ∀ (rest pre : List (Nat × ℚ)) (s : Nat) (c : ℚ), scales = pre ++ (s, c) :: rest → ∀ k, s ≤ k →
    elapsed 1 (60 / (c * (res : ℚ))) (rest.map (fun p => (Spec.seconds scales p.1, 60 / (p.2 * (res : ℚ)))))
      (Spec.seconds scales s) (Spec.seconds scales k) = ((k : ℚ) - s) / res := by
  have hr : (0:ℚ) < res := by exact_mod_cast hres
  intro rest
  induction rest with
  | nil =>
    intro pre s c e k hk
    have hc : 0 < c := hm.pos (s, c) (by rw [e]; simp)
    have hord := hm.order
    rw [e, List.pairwise_append] at hord
    have lin := seconds_linear pre s c [] (k - s) (fun p hp => hord.2.2 p hp (s, c) (by simp)) (by simp)
    rw [← e, show s + (k - s) = k by omega, Nat.cast_sub hk] at lin
    simp only [List.map_nil, elapsed]
    rw [lin]
    field_simp
    ring
  | cons p rest ih =>
    obtain ⟨s', c'⟩ := p
    intro pre s c e k hk
    have hc : 0 < c := hm.pos (s, c) (by rw [e]; simp)
    have hord := hm.order
    rw [e, List.pairwise_append] at hord
    have hord2 := List.pairwise_cons.1 hord.2.1
    have hord3 := List.pairwise_cons.1 hord2.2
    have hss : s ≤ s' := hord2.1 (s', c') (by simp)
    have hpre : ∀ p ∈ pre, p.1 ≤ s := fun p hp => hord.2.2 p hp (s, c) (by simp)
    have lin : ∀ n, n ≤ s' - s → Spec.seconds scales (s + n) = Spec.seconds scales s + c * n := by
      intro n hn
      have := seconds_linear pre s c ((s', c') :: rest) n hpre (by
        intro p hp
        rcases List.mem_cons.1 hp with rfl | hp
        · dsimp only; omega
        · have := hord3.1 p hp; dsimp only at this; omega)
      rw [← e] at this
      exact this
    rw [List.map_cons, elapsed_cons]
    split
    · rename_i hle
      have hks : k ≤ s' := by
        by_contra hn
        exact absurd hle (not_le.2 (seconds_strictMono scales hm (by omega)))
      have l1 := lin (k - s) (by omega)
      rw [show s + (k - s) = k by omega, Nat.cast_sub hk] at l1
      rw [l1]
      field_simp
      ring
    · rename_i hle
      have hks : s' ≤ k := by
        by_contra hn
        exact hle (seconds_mono scales hm (by omega))
      have l1 := lin (s' - s) (le_refl _)
      rw [show s + (s' - s) = s' by omega, Nat.cast_sub hss] at l1
      have i1 := ih (pre ++ [(s, c)]) s' c' (by rw [e]; simp) k hks
      dsimp only
      rw [i1, l1]
      field_simp
      ring

/-- The number of quarter notes up to the time of a tick is the tick over the resolution, whatever the tempo map. -/
theorem C123_quarters (c : Clock) (h : ClockOk c) (k : Nat) :
    quarters (Spec.tempi c) (Spec.seconds c.scales k) = (k : ℚ) / c.res := by
  obtain ⟨h1, h2, _⟩ := h
  obtain ⟨q, rest, e⟩ := h2.zero
  have := quarters_seconds_go c.scales h2 c.res h1 rest [] 0 q e k (by omega)
  unfold Spec.tempi
  conv_lhs => rw [show (c.scales.map fun p => (Spec.seconds c.scales p.1, 60 / (p.2 * (c.res : ℚ)))) =
    (Spec.seconds c.scales 0, 60 / (q * (c.res : ℚ))) ::
      rest.map (fun p => (Spec.seconds c.scales p.1, 60 / (p.2 * (c.res : ℚ)))) by
        conv_lhs => rw [e]
        rw [List.map_cons, ← e]]
  simp only [quarters]
  rw [this]; push_cast; ring

/-- **C123, no time signatures**: the k-th beat of `get_beats()` is at the time of tick k·resolution, for every k for which
that time is before the end time, and there are no other beats. -/
theorem C123_grid (pm : PM) (h : ClockOk pm.clock) (hs : ∀ p ∈ pm.clock.scales, p.1 < 1000000000) (h0 : pm.timeSigs = []) :
    ∃ stop l N, pm.endTime = .ok stop ∧ (∀ fuel ≥ N, pm.beats fuel 0 = .ok (some l)) ∧
      ∀ (k : Nat) (t : ℚ), l[k]? = some t ↔ t = Spec.seconds pm.clock.scales (k * pm.clock.res) ∧ t < stop := by
  have ht := tempi_list pm.clock h
  obtain ⟨stop, l, N, h1, h2, h3⟩ := C123_beats pm h hs
    ⟨ht, by rw [h0]; simp, by rw [h0]; simp, by rw [h0]; simp, by rw [h0]; simp, by rw [h0]; simp⟩ 0
  refine ⟨stop, l, N, h1, h2, ?_⟩
  rw [h0] at h3
  have hres : (0:ℚ) < pm.clock.res := by exact_mod_cast h.1
  have hT : ∀ (j : Nat) (b' : ℚ), NextBeat (Spec.tempi pm.clock) [] (Spec.seconds pm.clock.scales (j * pm.clock.res)) b' →
      b' = Spec.seconds pm.clock.scales ((j + 1) * pm.clock.res) := by
    intro j b' hn
    obtain ⟨f, T, hf, hb, hq, hcase⟩ := hn
    have hf : f = 1 := by
      rcases hf with ⟨_, e⟩ | ⟨y, hy, _⟩
      · exact e
      · exact absurd hy.1 (by simp)
    have hbT : b' = T := by
      rcases hcase with ⟨e, _⟩ | ⟨y, hy, _⟩
      · exact e
      · simp at hy
    rw [hbT]
    rw [hf, one_mul, C123_quarters pm.clock h] at hq
    have e : quarters (Spec.tempi pm.clock) T = quarters (Spec.tempi pm.clock) (Spec.seconds pm.clock.scales ((j + 1) * pm.clock.res)) := by
      rw [C123_quarters pm.clock h]
      push_cast at hq ⊢
      have : quarters (Spec.tempi pm.clock) T = 1 + (j * pm.clock.res : ℚ) / pm.clock.res := by linarith
      rw [this]; field_simp
      ring
    rcases lt_trichotomy T (Spec.seconds pm.clock.scales ((j + 1) * pm.clock.res)) with h | h | h
    · exact absurd (quarters_strict ht h) (by rw [e]; exact lt_irrefl _)
    · exact h
    · exact absurd (quarters_strict ht h) (by rw [e]; exact lt_irrefl _)
  have key : ∀ (l : List ℚ) (j : Nat), Spec.Beats (Spec.tempi pm.clock) [] stop (Spec.seconds pm.clock.scales (j * pm.clock.res)) l →
      ∀ (k : Nat) (t : ℚ), l[k]? = some t ↔ t = Spec.seconds pm.clock.scales ((j + k) * pm.clock.res) ∧ t < stop := by
    intro l
    induction l with
    | nil =>
      intro j hb k t
      constructor
      · intro h; simp at h
      · rintro ⟨rfl, hlt⟩
        have := seconds_mono pm.clock.scales h.2.1 (i := j * pm.clock.res) (j := (j + k) * pm.clock.res) (Nat.mul_le_mul_right _ (by omega))
        exact absurd (lt_of_le_of_lt this hlt) (not_lt.2 hb)
    | cons x l ih =>
      intro j hb k t
      obtain ⟨hx, hlt, b', hn, hr⟩ := hb
      have hb' := hT j b' hn
      rw [hb'] at hr
      cases k with
      | zero =>
        simp only [List.getElem?_cons_zero, Option.some.injEq, Nat.add_zero]
        rw [hx]
        constructor
        · intro e; rw [← e]; exact ⟨rfl, hlt⟩
        · rintro ⟨e, _⟩; exact e.symm
      | succ k =>
        rw [List.getElem?_cons_succ, ih (j + 1) hr k t]
        rw [show j + 1 + k = j + (k + 1) by omega]
  have := key l 0 (by rw [Nat.zero_mul, seconds_zero]; exact h3)
  intro k t
  rw [this k t, Nat.zero_add]

/-! ### Examples -/

/-- An object with one note of 4 seconds, 4 ticks per quarter note, 60 quarter notes per minute and 120 from tick `k` on. -/
def beatPM (k : Nat) (tss : List (Int × Int × ℚ)) : PM :=
  { clock := { res := 4, scales := [(0, 1/4), (k, 1/8)]
               times := (List.range (k + 1)).map (fun j => Spec.seconds [(0, 1/4), (k, 1/8)] j) }
    drum := 9, insts := [⟨0, false, "", [⟨90, 60, 0, 4⟩], [], []⟩], timeSigs := tss, keySigs := [], lyrics := [] }

theorem beatPM_clock (k : Nat) (tss : List (Int × Int × ℚ)) : ClockOk (beatPM k tss).clock := by
  refine ⟨by simp [beatPM], ⟨⟨1/4, [(k, 1/8)], rfl⟩, by simp [beatPM], ?_⟩, k, by simp [beatPM], rfl⟩
  intro p hp
  simp only [beatPM, List.mem_cons, List.not_mem_nil, or_false] at hp
  rcases hp with rfl | rfl <;> norm_num

/-- Non-vacuity: the tempo changes at 2 s (tick 8), the metre from 4/4 to 6/8 at 2.5 s; the conditions hold, and the beats
are 0, 1, 2 (quarter notes at 60), 2.5 (a quarter note at 120) and 3.25 (a dotted quarter note at 120). -/
theorem C123_example : Tame (Spec.tempi (beatPM 8 [(4, 4, 0), (6, 8, 5/2)]).clock) (beatPM 8 [(4, 4, 0), (6, 8, 5/2)]).timeSigs ∧
    (beatPM 8 [(4, 4, 0), (6, 8, 5/2)]).beats 20 0 = .ok (some [0, 1, 2, 5/2, 13/4]) := by
  refine ⟨⟨tempi_list _ (beatPM_clock _ _), by decide, by decide +kernel, ?_, ?_, by decide +kernel⟩, by decide +kernel⟩
  · unfold Close; decide +kernel
  · unfold Close; decide +kernel

/-- **C123, defect**: if the tempo changes within a beat after a time signature that is not on a beat, the new tempo is used
too early: here the tempo changes from 60 to 120 at 2.75 s, a quarter of a beat after the time signature at 2.5 s; the next
beat should be at 3.125 s, and `get_beats` puts it at 3 s. -/
theorem C123_early_tempo : ∃ l, (beatPM 11 [(4, 4, 0), (3, 4, 5/2)]).beats 20 0 = .ok (some l) ∧
    l = [0, 1, 2, 5/2, 3, 7/2] ∧
    NextBeat (Spec.tempi (beatPM 11 [(4, 4, 0), (3, 4, 5/2)]).clock) [(4, 4, 0), (3, 4, 5/2)] (5/2) (25/8) ∧
    ¬ NextBeat (Spec.tempi (beatPM 11 [(4, 4, 0), (3, 4, 5/2)]).clock) [(4, 4, 0), (3, 4, 5/2)] (5/2) 3 := by
  refine ⟨_, by decide +kernel, rfl, ?_, ?_⟩
  · exact ⟨1, 25/8, Or.inr ⟨(3, 4, 5/2), ⟨by simp, Or.inl (by decide +kernel)⟩, by decide +kernel⟩, by norm_num,
      by decide +kernel, Or.inl ⟨rfl, by unfold Close; decide +kernel⟩⟩
  · rintro ⟨f, T, h1, h2, h3, h4⟩
    have hf : f = 1 := by
      rcases h1 with ⟨h1, _⟩ | ⟨y, ⟨hy, hy2⟩, rfl⟩
      · cases h1
      · simp only [List.mem_cons, List.not_mem_nil, or_false] at hy
        rcases hy with rfl | rfl <;> decide +kernel
    rcases h4 with ⟨rfl, _⟩ | ⟨y, hy, h5, h6, _⟩
    · rw [hf] at h3
      revert h3
      decide +kernel
    · simp only [List.mem_cons, List.not_mem_nil, or_false] at hy
      rcases hy with rfl | rfl <;> norm_num at h5

/-- **C123, defect**: with two time signatures at the same time, that beat is returned twice. -/
theorem C123_double_beat : (beatPM 16 [(4, 4, 0), (3, 4, 2), (2, 4, 2)]).beats 20 0 = .ok (some [0, 1, 2, 2, 3]) := by
  decide +kernel

end NGC
