import Verif.NewSeqs
import Verif.SequencesProps

/-!
C208: what `_create_new_midi_seq` does to a collection. C209: `average_qpm`.
-/

namespace NGC

variable {V : Type}

theorem create_spec (c : Counted V) (h : c.tracks.Inv) (order : List ((Int × Int) × String)) (make : InstrumentInfo → V) (name : String) (program : Int) (isDrum : Bool) :
    (¬ (0 ≤ program ∧ program ≤ 255) ∧ c.create order make name program isDrum = .error .value) ∨
    ((0 ≤ program ∧ program ≤ 255) ∧ ∃ c', c.create order make name program isDrum = .ok c' ∧ c'.tracks.Inv ∧ c'.idx = c.idx + 1 ∧
      (∀ x, c'.tracks.seqs.lookup x = if x = (c.idx : Int) then some (make ⟨program, if name = "" then familyName order program else name, isDrum⟩) else c.tracks.seqs.lookup x) ∧
      ∀ x, c'.tracks.toIdx.lookup x = if x = program then some (c.idx : Int) else c.tracks.toIdx.lookup x) := by
  unfold Counted.create InstrumentInfo.mk?
  by_cases hp : 0 ≤ program ∧ program ≤ 255
  · right
    refine ⟨hp, ?_⟩
    rw [if_neg (not_not.2 hp)]
    obtain ⟨d1, h1, h2, _, h3⟩ := SDict.setItem_spec intLt_total' c.tracks.seqs h.1 (c.idx : Int) (make ⟨min (max 0 program) 255, if name = "" then familyName order program else name, isDrum⟩)
    obtain ⟨d2, g1, g2, _, g3⟩ := SDict.setItem_spec intLt_total' c.tracks.toIdx h.2 program (c.idx : Int)
    have hm : min (max 0 program) 255 = program := by omega
    refine ⟨⟨⟨d1, d2⟩, c.idx + 1⟩, ?_, ⟨h2, g2⟩, rfl, ?_, g3⟩
    · simp only [bind, Except.bind, h1, g1]
    · rw [hm] at h3; exact h3
  · left
    rw [if_pos hp]
    exact ⟨hp, rfl⟩

/-- C208, one call: a program outside 0..255 is a ValueError. Otherwise the new sequence is stored under the counter, whatever is there, the program is mapped to the counter, whatever
it was mapped to, nothing else changes, and the counter goes up by one. -/
theorem C208_one (c : Counted V) (h : c.tracks.Inv) (order : List ((Int × Int) × String)) (make : InstrumentInfo → V) (name : String) (program : Int) (isDrum : Bool) :
    (¬ (0 ≤ program ∧ program ≤ 255) → c.create order make name program isDrum = .error .value) ∧
    ((0 ≤ program ∧ program ≤ 255) → ∃ c', c.create order make name program isDrum = .ok c' ∧ c'.idx = c.idx + 1 ∧
      (∃ info : InstrumentInfo, info.num = program ∧ info.isDrum = isDrum ∧ (name ≠ "" → info.name = name) ∧ c'.tracks.seqs.lookup c.idx = some (make info)) ∧
      (∀ x, x ≠ (c.idx : Int) → c'.tracks.seqs.lookup x = c.tracks.seqs.lookup x) ∧
      c'.tracks.toIdx.lookup program = some (c.idx : Int) ∧ ∀ x, x ≠ program → c'.tracks.toIdx.lookup x = c.tracks.toIdx.lookup x) := by
  rcases create_spec c h order make name program isDrum with ⟨h1, h2⟩ | ⟨h1, c', h2, _, h3, h4, h5⟩
  · exact ⟨fun _ => h2, fun hp => absurd hp h1⟩
  · refine ⟨fun hn => absurd h1 hn, fun _ => ⟨c', h2, h3, ⟨⟨program, if name = "" then familyName order program else name, isDrum⟩, rfl, rfl, fun hn => if_neg hn, by rw [h4, if_pos rfl]⟩, fun x hx => by rw [h4, if_neg hx], by rw [h5, if_pos rfl],
      fun x hx => by rw [h5, if_neg hx]⟩⟩

theorem creates_cons (order : List ((Int × Int) × String)) (make : InstrumentInfo → V) (c : Counted V) (q : String × Int × Bool) (calls : List (String × Int × Bool)) :
    Counted.creates order make c (q :: calls) = Counted.creates order make (match c.create order make q.1 q.2.1 q.2.2 with | .ok c' => c' | .error _ => c) calls := rfl

/-- The number of calls with a program in range. -/
def goodCalls (calls : List (String × Int × Bool)) : Nat := calls.countP (fun q => decide (0 ≤ q.2.1 ∧ q.2.1 ≤ 255))

theorem creates_spec (order : List ((Int × Int) × String)) (make : InstrumentInfo → V) : ∀ (calls : List (String × Int × Bool)) (c : Counted V), c.tracks.Inv →
    (Counted.creates order make c calls).tracks.Inv ∧
    (Counted.creates order make c calls).idx = c.idx + goodCalls calls ∧
    (∀ x : Int, ¬ ((c.idx : Int) ≤ x ∧ x < c.idx + goodCalls calls) → (Counted.creates order make c calls).tracks.seqs.lookup x = c.tracks.seqs.lookup x) ∧
    (∀ x : Int, (c.idx : Int) ≤ x → x < c.idx + goodCalls calls → ∃ info, (∃ q ∈ calls, q.2.1 = info.num) ∧ (Counted.creates order make c calls).tracks.seqs.lookup x = some (make info)) := by
  intro calls
  induction calls with
  | nil => intro c h; exact ⟨h, by simp [Counted.creates, goodCalls], fun x _ => rfl, fun x h1 h2 => by simp [goodCalls] at h2; omega⟩
  | cons q calls ih =>
    intro c h
    rw [creates_cons]
    rcases create_spec c h order make q.1 q.2.1 q.2.2 with ⟨h1, h2⟩ | ⟨h1, c', h2, h2', h3, h4, _⟩
    · rw [h2]
      have hg : goodCalls (q :: calls) = goodCalls calls := by simp only [goodCalls]; rw [List.countP_cons_of_neg (by simpa using h1)]
      rw [hg]
      obtain ⟨i0, i1, i2, i3⟩ := ih c h
      refine ⟨i0, i1, i2, fun x hx hy => ?_⟩
      obtain ⟨info, ⟨q', hq', e⟩, hl⟩ := i3 x hx hy
      exact ⟨info, ⟨q', List.mem_cons_of_mem _ hq', e⟩, hl⟩
    · rw [h2]
      have hg : goodCalls (q :: calls) = goodCalls calls + 1 := by simp only [goodCalls]; rw [List.countP_cons_of_pos (by simpa using h1)]
      rw [hg]
      obtain ⟨i0, i1, i2, i3⟩ := ih c' h2'
      rw [h3] at i1 i2 i3
      push_cast at i2 i3 ⊢
      refine ⟨i0, by omega, fun x hx => ?_, fun x hx hy => ?_⟩
      · rw [i2 x (by omega), h4, if_neg (by omega)]
      · by_cases hxe : x = (c.idx : Int)
        · refine ⟨⟨q.2.1, if q.1 = "" then familyName order q.2.1 else q.1, q.2.2⟩, ⟨q, List.mem_cons_self, rfl⟩, ?_⟩
          rw [i2 x (by omega), h4, if_pos hxe]
        · obtain ⟨info, ⟨q', hq', e⟩, hl⟩ := i3 x (by omega) (by omega)
          exact ⟨info, ⟨q', List.mem_cons_of_mem _ hq', e⟩, hl⟩

/-- C208, any calls after each other: with `k` programs in range the sequences under the next `k` numbers are new, each for a program asked for, and no other sequence changes. -/
theorem C208_many (order : List ((Int × Int) × String)) (make : InstrumentInfo → V) (calls : List (String × Int × Bool)) (c : Counted V) (h : c.tracks.Inv) :
    (∀ x : Int, (c.idx : Int) ≤ x → x < c.idx + goodCalls calls → ∃ info, (∃ q ∈ calls, q.2.1 = info.num) ∧ (Counted.creates order make c calls).tracks.seqs.lookup x = some (make info)) ∧
    (∀ x : Int, ¬ ((c.idx : Int) ≤ x ∧ x < c.idx + goodCalls calls) → (Counted.creates order make c calls).tracks.seqs.lookup x = c.tracks.seqs.lookup x) :=
  ⟨(creates_spec order make calls c h).2.2.2, (creates_spec order make calls c h).2.2.1⟩

/-- C208: defect: the counter does not look at the tracks that are there. After any history of the other track methods, which leave it at 0, the first `k` calls replace the
tracks 0 to `k - 1`: the old sequence `v` is no longer under its number, if it is none of the new ones. -/
theorem C208_destroys (ops : List (TrackOp V)) (order : List ((Int × Int) × String)) (make : InstrumentInfo → V) (calls : List (String × Int × Bool)) (i : Nat) (v : V)
    (hi : i < goodCalls calls) (hnew : ∀ info, make info ≠ v) :
    (Counted.creates order make ⟨(Tracks.empty.run ops).1, 0⟩ calls).tracks.seqs.lookup i ≠ some v := by
  have hinv := Tracks.run_inv ops Tracks.empty Tracks.empty_inv
  obtain ⟨info, _, hl⟩ := (C208_many order make calls ⟨(Tracks.empty.run ops).1, 0⟩ hinv).1 i (by simp) (by simpa using hi)
  rw [hl]
  intro h
  exact hnew info (Option.some.inj h)

/-- C208: after a call with a program up to 127, `[program]` gives the new sequence. -/
theorem C208_read (c c' : Counted V) (h : c.tracks.Inv) (order : List ((Int × Int) × String)) (make : InstrumentInfo → V) (name : String) (program : Int) (isDrum : Bool)
    (hp : 0 ≤ program ∧ program < 128) (hc : c.create order make name program isDrum = .ok c') (fresh : V) :
    ∃ info : InstrumentInfo, info.num = program ∧ info.isDrum = isDrum ∧ c'.tracks.getItem fresh program = .ok (make info, c'.tracks) := by
  obtain ⟨c2, h1, _, ⟨info, e1, e2, _, h2⟩, _, h3, _⟩ := (C208_one c h order make name program isDrum).2 (by omega)
  rw [hc] at h1
  obtain rfl := Except.ok.inj h1
  refine ⟨info, e1, e2, ?_⟩
  have hhas : c'.tracks.toIdx.has program = true := by
    by_contra hn
    have := (SDict.lookup_none_iff c'.tracks.toIdx program).2 (by simpa using hn)
    rw [h3] at this
    cases this
  unfold Tracks.getItem
  rw [if_neg (by omega)]
  simp [hhas, SDict.getItem, h3, h2, bind, Except.bind]

/-- A track that is destroyed: `get_track(0, …)` and then one call. -/
example : (Counted.creates [] (fun info => info.name) ⟨(Tracks.empty.run [TrackOp.track 0 5 "old"]).1, 0⟩ [("new", 9, false)]).tracks.seqs.lookup 0 = some "new" ∧
    ((Tracks.empty.run [TrackOp.track 0 5 "old"]).1 : Tracks String).seqs.lookup 0 = some "old" := by decide

/-- C209: defect: `average_qpm` never averages. With a list, however short, it is a TypeError; with a tuple of signatures it is an AttributeError, whatever their tempi and the total time; only the empty
tuple gives a number, the default tempo 120. -/
theorem C209_average (t : TempoSig) (total : ℚ) (l : List TempoSig) :
    averageQpm t total (.list l) = .error .type ∧ (l ≠ [] → averageQpm t total (.tuple l) = .error .attribute) ∧
    ∀ a q, averageQpm t total a = .ok q ↔ a = .tuple [] ∧ q = 120 := by
  refine ⟨rfl, fun h => ?_, fun a q => ⟨fun h => ?_, by rintro ⟨rfl, rfl⟩; rfl⟩⟩
  · cases l with
    | nil => exact absurd rfl h
    | cons _ _ => rfl
  · match a with
    | .list _ => cases h
    | .tuple [] => exact ⟨rfl, (Except.ok.inj h).symm⟩
    | .tuple (_ :: _) => cases h

end NGC
