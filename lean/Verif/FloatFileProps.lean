import Verif.FloatFile
import Verif.FloatClockProps2
import Verif.FloatSaveProps
import Verif.AdjustProps2
import Verif.PrettyMidiProps10

/-! C160: loading and saving a whole file in floats. -/

namespace NGC

/-! ### The exact program is the same program with exact arithmetic -/

theorem instTracksW_exact (srt : List Msg → List Msg) (c : Clock) (drum : Nat) : ∀ (is : List PInst) (n : Nat),
    instTracks srt c drum n is = instTracksW srt c.timeToTick drum n is := by
  intro is
  induction is with
  | nil => intro n; rfl
  | cons i is ih =>
    intro n
    rw [instTracks, instTracksW, ← ih, instTrack]
    have e : ∀ ch, instEvents c ch i = instEventsW c.timeToTick ch i := fun ch => rfl
    cases h1 : channelOf drum n i.isDrum with
    | error e => rfl
    | ok ch =>
      simp only [bind, Except.bind, e]
      cases h2 : instEventsW c.timeToTick ch i <;> rfl

/-- C160: the exact model of `serialize` is the float one with exact `time_to_tick` and tempi. -/
theorem serialize_exact (srt : List Msg → List Msg) (pm : PM) :
    pm.serialize srt = pm.serializeW pm.clock.timeToTick (writtenTempo pm.clock.res) srt := by
  unfold PM.serialize PM.serializeW
  rw [← instTracksW_exact]
  rfl

/-! ### Loading commutes with a change of all times -/

/-- The note with its times changed by `φ`. -/
def PNote.mapT (φ : ℚ → ℚ) (n : PNote) : PNote := { n with start := φ n.start, stop := φ n.stop }

/-- The instrument with every time changed by `φ`. -/
def PInst.mapT (φ : ℚ → ℚ) (i : PInst) : PInst :=
  { i with notes := i.notes.map (PNote.mapT φ), bends := i.bends.map (fun b => (b.1, φ b.2)), controls := i.controls.map (fun b => (b.1, b.2.1, φ b.2.2)) }

def LInst.mapT (φ : ℚ → ℚ) (i : LInst) : LInst := { i with notes := i.notes.map (PNote.mapT φ) }

def evMapT (φ : ℚ → ℚ) (p : List (Int × ℚ) × List (Nat × Nat × ℚ)) : List (Int × ℚ) × List (Nat × Nat × ℚ) :=
  (p.1.map (fun b => (b.1, φ b.2)), p.2.map (fun b => (b.1, b.2.1, φ b.2.2)))

def LoadSt.mapT (φ : ℚ → ℚ) (st : LoadSt) : LoadSt :=
  { st with insts := st.insts.map (fun p => (p.1, p.2.mapT φ)), heap := st.heap.map (evMapT φ) }

theorem dget_mapV {K V W : Type} [DecidableEq K] (f : V → W) (d : List (K × V)) (k : K) :
    dget (d.map (fun p => (p.1, f p.2))) k = (dget d k).map f := by
  induction d with
  | nil => rfl
  | cons p d ih =>
    obtain ⟨a, v⟩ := p
    simp only [List.map_cons, dget]
    split
    · rfl
    · exact ih

theorem dset_mapV {K V W : Type} [DecidableEq K] (f : V → W) (d : List (K × V)) (k : K) (v : V) :
    dset (d.map (fun p => (p.1, f p.2))) k (f v) = (dset d k v).map (fun p => (p.1, f p.2)) := by
  induction d with
  | nil => rfl
  | cons p d ih =>
    obtain ⟨a, w⟩ := p
    simp only [List.map_cons, dset]
    split
    · rfl
    · rw [List.map_cons, ih]

theorem modify_mapT {α β : Type} (g : α → β) (f : α → α) (f' : β → β) (h : ∀ a, f' (g a) = g (f a)) (l : List α) (r : Nat) :
    (l.map g).modify r f' = (l.modify r f).map g := by
  induction l generalizing r with
  | nil => cases r <;> simp
  | cons a l ih =>
    cases r with
    | zero => simp [h]
    | succ r => simp [ih]

theorem act_mapT (φ : ℚ → ℚ) (drum track : Nat) (tt : Int → ℚ) (st : LoadSt) (a : Act) :
    (st.mapT φ).act drum track (fun k => φ (tt k)) a = (st.act drum track tt a).mapT φ := by
  cases a with
  | note e =>
    simp only [LoadSt.act, LoadSt.addNote, LoadSt.mapT, dget_mapV]
    cases h1 : dget st.insts (e.program, e.channel, track) with
    | some i =>
      simp only [Option.map_some, ← dset_mapV]
      congr 2
      simp [LInst.mapT, PNote.mapT]
    | none =>
      simp only [Option.map_none]
      cases h2 : dget st.strag (e.channel, track) with
      | some r =>
        simp only [← dset_mapV]
        congr 2
      | none =>
        simp only [← dset_mapV, List.length_map]
        congr 1
        simp [evMapT]
  | bend p ch pitch tick =>
    have hm : ∀ (l : List (List (Int × ℚ) × List (Nat × Nat × ℚ))) (r : Nat),
        (l.map (evMapT φ)).modify r (fun l => (l.1 ++ [(pitch, φ (tt tick))], l.2)) =
        (l.modify r (fun l => (l.1 ++ [(pitch, tt tick)], l.2))).map (evMapT φ) := by
      intro l r
      exact modify_mapT _ _ _ (fun a => by simp [evMapT]) l r
    simp only [LoadSt.act, LoadSt.eventRef, LoadSt.mapT, dget_mapV]
    cases h1 : dget st.insts (p, ch, track) with
    | some i => simp only [Option.map_some, LInst.mapT, hm]
    | none =>
      simp only [Option.map_none]
      cases h2 : dget st.strag (ch, track) with
      | some r => simp only [hm]
      | none =>
        simp only [List.length_map]
        rw [← hm]
        simp [evMapT]
  | control p ch num value tick =>
    have hm : ∀ (l : List (List (Int × ℚ) × List (Nat × Nat × ℚ))) (r : Nat),
        (l.map (evMapT φ)).modify r (fun l => (l.1, l.2 ++ [(num, value, φ (tt tick))])) =
        (l.modify r (fun l => (l.1, l.2 ++ [(num, value, tt tick)]))).map (evMapT φ) := by
      intro l r
      exact modify_mapT _ _ _ (fun a => by simp [evMapT]) l r
    simp only [LoadSt.act, LoadSt.eventRef, LoadSt.mapT, dget_mapV]
    cases h1 : dget st.insts (p, ch, track) with
    | some i => simp only [Option.map_some, LInst.mapT, hm]
    | none =>
      simp only [Option.map_none]
      cases h2 : dget st.strag (ch, track) with
      | some r => simp only [hm]
      | none =>
        simp only [List.length_map]
        rw [← hm]
        simp [evMapT]
  | name s => rfl

theorem acts_mapT (φ : ℚ → ℚ) (drum track : Nat) (tt : Int → ℚ) (acts : List Act) : ∀ st : LoadSt,
    acts.foldl (fun st a => st.act drum track (fun k => φ (tt k)) a) (st.mapT φ) = (acts.foldl (fun st a => st.act drum track tt a) st).mapT φ := by
  induction acts with
  | nil => intro st; rfl
  | cons a acts ih => intro st; rw [List.foldl_cons, act_mapT, ih, List.foldl_cons]

theorem loadTracks_mapT (φ : ℚ → ℚ) (drum : Nat) (tt : Int → ℚ) : ∀ (ts : List (List Msg)) (k : Nat) (st st' : LoadSt),
    loadTracks drum tt k st ts = .ok st' → loadTracks drum (fun k => φ (tt k)) k (st.mapT φ) ts = .ok (st'.mapT φ) := by
  intro ts
  induction ts with
  | nil => intro k st st' h; rw [loadTracks] at h ⊢; rw [Except.ok.inj h]
  | cons t ts ih =>
    intro k st st' h
    rw [loadTracks] at h ⊢
    cases h1 : loadTrack t with
    | error e => rw [h1] at h; cases h
    | ok acts =>
      simp only [h1, bind, Except.bind] at h ⊢
      rw [acts_mapT]
      exact ih _ _ _ h

theorem loadInstruments_mapT (φ : ℚ → ℚ) (drum : Nat) (tt : Int → ℚ) (ts : List (List Msg)) (is : List PInst)
    (h : loadInstruments drum tt ts = .ok is) : loadInstruments drum (fun k => φ (tt k)) ts = .ok (is.map (PInst.mapT φ)) := by
  unfold loadInstruments at h ⊢
  cases h1 : loadTracks drum tt 0 ⟨[], [], [], []⟩ ts with
  | error e => rw [h1] at h; cases h
  | ok st =>
    have := loadTracks_mapT φ drum tt ts 0 ⟨[], [], [], []⟩ st h1
    rw [show LoadSt.mapT φ ⟨[], [], [], []⟩ = ⟨[], [], [], []⟩ from rfl] at this
    simp only [h1, bind, Except.bind] at h
    simp only [this, bind, Except.bind]
    rw [← Except.ok.inj h]
    congr 1
    simp only [LoadSt.mapT, List.map_map]
    apply List.map_congr_left
    intro p _
    simp only [Function.comp, LInst.freeze, LInst.mapT, PInst.mapT, List.getD_eq_getElem?_getD, List.getElem?_map]
    cases st.heap[p.2.ref]? <;> rfl

theorem loadMeta_mapT (φ : ℚ → ℚ) (tt : Int → ℚ) (t : List Msg) :
    loadMeta (fun k => φ (tt k)) t = ((loadMeta tt t).1.map (fun p => (p.1, φ p.2)), (loadMeta tt t).2.1.map (fun p => (p.1, p.2.1, φ p.2.2)),
      (loadMeta tt t).2.2.map (fun p => (p.1, φ p.2))) := by
  unfold loadMeta
  simp only [Prod.mk.injEq, List.map_filterMap]
  refine ⟨?_, ?_, ?_⟩ <;>
  · apply List.filterMap_congr
    intro e _
    cases e.body <;> rfl

/-! ### Writing an object whose times have been changed -/

theorem instEventsW_mapT (toTick : ℚ → Py Int) (φ : ℚ → ℚ) (ch : Nat) (i : PInst) :
    instEventsW toTick ch (i.mapT φ) = instEventsW (fun x => toTick (φ x)) ch i := by
  unfold instEventsW PInst.mapT
  simp only [List.mapM_map]
  rfl

theorem instTracksW_mapT (srt : List Msg → List Msg) (toTick : ℚ → Py Int) (φ : ℚ → ℚ) (drum : Nat) : ∀ (is : List PInst) (n : Nat),
    instTracksW srt toTick drum n (is.map (PInst.mapT φ)) = instTracksW srt (fun x => toTick (φ x)) drum n is := by
  intro is
  induction is with
  | nil => intro n; rfl
  | cons i is ih =>
    intro n
    rw [List.map_cons, instTracksW, instTracksW, ih]
    simp only [instEventsW_mapT]
    rfl

end NGC
