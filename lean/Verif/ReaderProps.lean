import Verif.Reader
import Verif.SequencesProps
import Verif.GraphLemmas

/-! Properties C61, C62 and following: reading a loaded MIDI object. -/

namespace NGC

/-! ### Track tables whose tracks are numbered 0, 1, 2, ... -/

/-- The dictionary with keys 0, 1, 2, ... -/
def enumDict {V : Type} (vs : List V) : SDict Int V :=
  ⟨vs.zipIdx.map (fun p => ((p.2 : Int), p.1)), (List.range vs.length).map Int.ofNat⟩

/-- The track table with tracks 0, 1, 2, ... -/
def enumTracks {V : Type} (vs : List V) : Tracks V :=
  ⟨enumDict vs, enumDict ((List.range vs.length).map Int.ofNat)⟩

theorem find_zipIdx {V : Type} (vs : List V) : ∀ (s k : Nat), s ≤ k →
    (vs.zipIdx s).find? (fun p => decide (p.2 = k)) = (vs[k - s]?).map (fun v => (v, k)) := by
  induction vs with
  | nil => intro s k _; simp
  | cons v vs ih =>
    intro s k h
    rw [List.zipIdx_cons, List.find?_cons]
    by_cases hk : s = k
    · subst hk; simp
    · rw [show decide ((v, s).2 = k) = false by simpa using hk]
      simp only []
      rw [ih (s + 1) k (by omega)]
      have : k - s = (k - (s + 1)) + 1 := by omega
      rw [this, List.getElem?_cons_succ]

theorem enumDict_lookup {V : Type} (vs : List V) (k : Nat) : (enumDict vs).lookup (k : Int) = vs[k]? := by
  unfold SDict.lookup enumDict
  simp only [List.find?_map]
  have : ((fun p : Int × V => decide (p.1 = (k : Int))) ∘ fun p : V × Nat => ((p.2 : Int), p.1))
      = (fun p => decide (p.2 = k)) := by funext p; simp
  rw [this, find_zipIdx vs 0 k (Nat.zero_le _)]
  simp [Function.comp_def]

theorem enumDict_has {V : Type} (vs : List V) (k : Nat) :
    (enumDict vs).has (k : Int) = decide (k < vs.length) := by
  have h := SDict.lookup_none_iff (enumDict vs) (k : Int)
  rw [enumDict_lookup, List.getElem?_eq_none_iff] at h
  by_cases hk : k < vs.length
  · rw [decide_eq_true hk]
    cases hh : (enumDict vs).has (k : Int)
    · have := h.2 hh; omega
    · rfl
  · rw [decide_eq_false hk]; exact h.1 (by omega)

theorem enumDict_getItem {V : Type} (vs : List V) (k : Nat) (v : V) (h : vs[k]? = some v) :
    (enumDict vs).getItem (k : Int) = .ok v := by
  unfold SDict.getItem; rw [enumDict_lookup, h]

theorem insort_top (n : Nat) :
    insortLeft intLt ((List.range n).map Int.ofNat) (n : Int) = (List.range (n + 1)).map Int.ofNat := by
  have hs : SortedLt intLt ((List.range n).map Int.ofNat) := by
    unfold SortedLt
    rw [List.pairwise_map]
    refine List.Pairwise.imp ?_ (List.pairwise_lt_range (n := n))
    intro a b h
    unfold intLt; simp; omega
  have hw : StrictWeakOn intLt ((n : Int) :: (List.range n).map Int.ofNat) := intLt_total'.strictWeak _
  obtain ⟨h0, _, h2⟩ := bisectLeft_spec intLt _ (n : Int) hw hs
  have hb : bisectLeft intLt ((List.range n).map Int.ofNat) (n : Int) = n := by
    by_contra hne
    simp only [List.length_map, List.length_range] at h0 h2
    have hlt : bisectLeft intLt ((List.range n).map Int.ofNat) (n : Int) < n := by omega
    have := h2 _ hlt (le_refl _)
    simp [intLt] at this
    omega
  unfold insortLeft
  rw [hb]
  unfold pyInsert
  rw [List.take_of_length_le (by simp), List.drop_eq_nil_of_le (by simp), List.range_succ]
  simp

theorem enumDict_push {V : Type} (vs : List V) (v : V) :
    (enumDict vs).setItem intLt (vs.length : Int) v = .ok (enumDict (vs ++ [v])) := by
  unfold SDict.setItem
  rw [enumDict_has]
  simp only [lt_irrefl, decide_false, Bool.false_eq_true, if_false, bind, Except.bind]
  unfold enumDict
  simp only [insort_top]
  simp [List.zipIdx_append]

theorem enumTracks_create {V : Type} (vs : List V) (v : V) (p : Int) (hp : 0 ≤ p ∧ p < 128) :
    (enumTracks vs).createTrack v (vs.length : Int) p = .ok ((vs.length : Int), enumTracks (vs ++ [v])) := by
  unfold Tracks.createTrack
  rw [if_neg (by simpa using hp)]
  have h1 : (enumTracks vs).toIdx.lookup (vs.length : Int) = none := by
    show (enumDict _).lookup _ = none
    rw [enumDict_lookup]; simp
  rw [h1]
  have h2 : (enumTracks vs).seqs.setItem intLt (vs.length : Int) v = .ok (enumDict (vs ++ [v])) :=
    enumDict_push vs v
  have h3 : (enumTracks vs).toIdx.setItem intLt (vs.length : Int) (vs.length : Int)
      = .ok (enumDict ((List.range (vs ++ [v]).length).map Int.ofNat)) := by
    have := enumDict_push ((List.range vs.length).map Int.ofNat) (vs.length : Int)
    simp only [List.length_map, List.length_range] at this
    show (enumDict _).setItem _ _ _ = _
    rw [this]
    congr 2
    rw [List.length_append, List.length_singleton, List.range_succ]; simp
  simp only [h2, h3, bind, Except.bind]
  rfl

theorem enumTracks_create_old {V : Type} (vs : List V) (v : V) (k : Nat) (hk : k < vs.length) (p : Int)
    (hp : 0 ≤ p ∧ p < 128) :
    (enumTracks vs).createTrack v (k : Int) p = .ok ((k : Int), enumTracks vs) := by
  unfold Tracks.createTrack
  rw [if_neg (by simpa using hp)]
  have h1 : (enumTracks vs).toIdx.lookup (k : Int) = some (k : Int) := by
    show (enumDict _).lookup _ = _
    rw [enumDict_lookup]; simp [hk]
  rw [h1]

theorem enumTracks_get {V : Type} (vs : List V) (f v : V) (k : Nat) (hk : k < 128) (h : vs[k]? = some v) :
    (enumTracks vs).getItem f (k : Int) = .ok (v, enumTracks vs) ∧
    (enumTracks vs).toIdx.getItem (k : Int) = .ok (k : Int) := by
  have hl : k < vs.length := (List.getElem?_eq_some_iff.1 h).1
  have h3 : (enumTracks vs).toIdx.getItem (k : Int) = .ok (k : Int) :=
    enumDict_getItem _ k _ (by simp [hl])
  refine ⟨?_, h3⟩
  unfold Tracks.getItem
  rw [if_neg (by omega)]
  have h1 : (enumTracks vs).toIdx.has (k : Int) = true := by
    show (enumDict _).has _ = _
    rw [enumDict_has]; simp [hl]
  have h4 : (enumTracks vs).seqs.getItem (k : Int) = .ok v := enumDict_getItem _ k _ h
  simp only [h1, if_true, bind, Except.bind, h3, h4]

theorem enumTracks_getTrack {V : Type} (vs : List V) (f v : V) (k : Nat) (p : Int) (hk : k < 128) (h : vs[k]? = some v) :
    (enumTracks vs).getTrack f (k : Int) p = .ok (v, enumTracks vs) := by
  have hl : k < vs.length := (List.getElem?_eq_some_iff.1 h).1
  unfold Tracks.getTrack
  rw [if_neg (by omega)]
  have h1 : (enumTracks vs).seqs.has (k : Int) = true := by
    show (enumDict _).has _ = _
    rw [enumDict_has]; simp [hl]
  have h4 : (enumTracks vs).seqs.getItem (k : Int) = .ok v := enumDict_getItem _ k _ h
  simp only [h1, if_true, bind, Except.bind, h4]

theorem zipIdx_replace {V : Type} (v : V) : ∀ (vs : List V) (s k : Nat),
    ((vs.zipIdx s).map (fun p => ((p.2 : Int), p.1))).map (fun p => if p.1 = ((s + k : Nat) : Int) then (p.1, v) else p)
      = ((vs.set k v).zipIdx s).map (fun p => ((p.2 : Int), p.1)) := by
  intro vs
  induction vs with
  | nil => intro s k; simp
  | cons x vs ih =>
    intro s k
    cases k with
    | zero =>
      rw [List.set_cons_zero, List.zipIdx_cons, List.zipIdx_cons]
      simp only [List.map_cons, Nat.add_zero, if_true]
      congr 1
      rw [List.map_map]
      apply List.map_congr_left
      intro p hp
      have := List.le_snd_of_mem_zipIdx hp
      simp only [Function.comp]
      rw [if_neg (by omega)]
    | succ k =>
      rw [List.set_cons_succ, List.zipIdx_cons, List.zipIdx_cons]
      simp only [List.map_cons]
      rw [if_neg (by omega)]
      congr 1
      have := ih (s + 1) k
      rw [show s + 1 + k = s + (k + 1) by omega] at this
      exact this

theorem enumDict_replace {V : Type} (vs : List V) (v : V) (k : Nat) :
    (enumDict vs).replace (k : Int) v = enumDict (vs.set k v) := by
  unfold SDict.replace enumDict
  have := zipIdx_replace v vs 0 k
  simp only [Nat.zero_add] at this
  simp only [this, List.length_set]

/-! ### What is read -/

namespace Spec

/-- The note is long enough for the reader: start and end are not `math.isclose`. -/
def solid (n : PNote) : Bool := !(isclose n.start n.stop (1/1000000000) 0)

/-- The notes of a list that end no earlier than every note of `before` and every preceding note. -/
def recordsGo (before : List PNote) : List PNote → List PNote
  | [] => []
  | n :: rest =>
    if before.all (fun m => decide (m.stop ≤ n.stop)) then n :: recordsGo (before ++ [n]) rest
    else recordsGo (before ++ [n]) rest

/-- The notes that end no earlier than every preceding note. -/
def records (ns : List PNote) : List PNote := recordsGo [] ns

/-- An instrument the reader accepts: a MIDI program, MIDI pitches and velocities, and notes that do
not end before they start or start before time 0. -/
structure GoodNotes (i : PInst) : Prop where
  program : i.program < 128
  pitch : ∀ n ∈ i.notes, n.pitch ≤ 127
  velocity : ∀ n ∈ i.notes, n.velocity ≤ 127
  order : ∀ n ∈ i.notes, 0 ≤ n.start ∧ n.start ≤ n.stop

end Spec

/-- Every time signature of the list can be put in a note. -/
def TimesOk (l : List TimeSig) : Prop := ∀ s ∈ l, 0 < s.numer ∧ denomOk s.denom = true

theorem timeSignature_ok (l : List TimeSig) (h : TimesOk l) (t : ℚ) (ht : 0 ≤ t) :
    0 < (timeSignature l t).1 ∧ denomOk (timeSignature l t).2 = true := by
  unfold timeSignature
  rw [if_neg (by linarith)]
  cases hs : sigAt l { time := t, numer := 4, denom := 4 } with
  | none => exact ⟨by norm_num, by decide⟩
  | some s =>
    have hm : s ∈ l := by
      unfold sigAt atPred at hs
      split at hs
      · exact List.mem_of_getLast? hs
      · exact List.mem_of_getElem? hs
    exact h s hm

/-- The note made for a note of the file. -/
def fileNote (times : List TimeSig) (i : PInst) (n : PNote) : Note :=
  { pitch := n.pitch, start := n.start, stop := n.stop, program := i.program, instrument := i.program
    velocity := n.velocity, qs := -1, qe := -1, voice := 0
    numer := max (min (timeSignature times n.start).1 255) 1
    denom := max (min (timeSignature times n.start).2 255) 1
    isDrum := i.isDrum }

theorem solid_lt (n : PNote) (h : Spec.solid n = true) (ho : n.start ≤ n.stop) : n.start < n.stop := by
  rcases lt_or_eq_of_le ho with h1 | h1
  · exact h1
  · exfalso
    unfold Spec.solid at h
    rw [h1, isclose_refl _ _ _ (le_refl _)] at h
    simp at h

theorem readNote_eq (times : List TimeSig) (ht : TimesOk times) (i : PInst) (hi : Spec.GoodNotes i) (n : PNote)
    (hn : n ∈ i.notes) (hs : Spec.solid n = true) : readNote times i n = .ok (fileNote times i n) := by
  have ho := hi.order n hn
  have hlt := solid_lt n hs ho.2
  have hp := hi.pitch n hn
  have hv := hi.velocity n hn
  have hg := hi.program
  obtain ⟨h1, h2⟩ := timeSignature_ok times ht n.start ho.1
  unfold readNote Note.mk? fileNote
  simp only
  rw [if_neg (by simpa using hlt), if_neg (by simpa using h1), if_neg (by simpa using h2)]
  congr 2
  · rw [if_pos (by omega)]
  · omega
  · omega
  · rw [if_pos (by omega)]

/-- The track after one more note. -/
def MSeq.pushNote (t : MSeq) (n : Note) : MSeq :=
  if n.isDrum then { t with drums_ := t.drums_ ++ [n], total := n.stop }
  else { t with notes_ := t.notes_ ++ [n], total := n.stop }

theorem newTrack_eq (res : Int) (i : PInst) (h : i.program < 128) :
    ∃ name, newTrack res i = .ok (MSeq.mk' [] { num := i.program, name := name, isDrum := i.isDrum } res) ∧
      (i.name ≠ "" → name = i.name) := by
  refine ⟨if i.name = "" then familyName gmTable (i.program : Int) else i.name, ?_, fun h => if_neg h⟩
  unfold newTrack InstrumentInfo.mk?
  rw [if_neg (by omega)]
  simp only [bind, Except.bind]
  congr 3
  omega

/-- One note, on a table of tracks 0, 1, ..., the last of which is being read. -/
theorem readNote_step (s : Song) (ts : List MSeq) (t : MSeq) (k : Nat) (i : PInst) (n : PNote)
    (htr : s.tracks = enumTracks ts) (hk : ts[k]? = some t) (hk128 : k < 128) (hnum : t.instr.num = i.program)
    (ht : TimesOk s.times) (hi : Spec.GoodNotes i) (hn : n ∈ i.notes) :
    s.readNote (k : Int) i n = .ok (if Spec.solid n = true ∧ (s.total = 0 ∨ t.total ≤ n.stop) then
        { s with total := if n.stop ≥ s.total then n.stop else s.total
                 tracks := enumTracks (ts.set k (t.pushNote (fileNote s.times i n))) }
      else s) := by
  unfold Song.readNote
  by_cases hs : Spec.solid n = true
  · have hc : isclose n.start n.stop (1/1000000000) 0 = false := by
      unfold Spec.solid at hs; simpa using hs
    rw [hc]
    simp only [Bool.false_eq_true, if_false]
    have hw : s.wants (k : Int) n = .ok (decide (s.total = 0 ∨ t.total ≤ n.stop)) := by
      unfold Song.wants
      by_cases h0 : s.total = 0
      · simp [h0]
      · rw [if_neg h0, htr]
        have := (enumTracks_get ts (s.defaultTrack (k : Int)) t k hk128 hk).1
        simp only [this, bind, Except.bind]
        simp [h0]
    simp only [hw, bind, Except.bind]
    by_cases hy : s.total = 0 ∨ t.total ≤ n.stop
    · rw [decide_eq_true hy]
      simp only [if_true]
      rw [if_pos (show Spec.solid n = true ∧ (s.total = 0 ∨ t.total ≤ n.stop) from ⟨hs, hy⟩)]
      have hpos : 0 < n.stop := by
        have := hi.order n hn; have := solid_lt n hs this.2; linarith
      set s1 : Song := if n.stop ≥ s.total then { s with total := n.stop } else s with hs1
      have e1 : s1.tracks = enumTracks ts := by rw [hs1]; split <;> exact htr
      have e2 : s1.times = s.times := by rw [hs1]; split <;> rfl
      have hm : s1.modifyItem (k : Int) (fun t => .ok (t.setTotal n.stop))
          = .ok { s1 with tracks := enumTracks (ts.set k (t.setTotal n.stop)) } := by
        unfold Song.modifyItem
        rw [e1]
        obtain ⟨g1, g2⟩ := enumTracks_get ts (s1.defaultTrack (k : Int)) t k hk128 hk
        simp only [g1, bind, Except.bind, g2]
        congr 2
        unfold enumTracks
        simp only [enumDict_replace, List.length_set]
      simp only [hm]
      obtain ⟨name, hf, _⟩ := newTrack_eq s1.resolution i hi.program
      unfold Song.modifyTrack
      simp only [hf, bind, Except.bind]
      have hkl := (List.getElem?_eq_some_iff.1 hk).1
      rw [enumTracks_getTrack (ts.set k (t.setTotal n.stop)) _ (t.setTotal n.stop) k _ hk128
        (by rw [List.getElem?_set]; simp [hkl])]
      simp only [e2]
      rw [readNote_eq s.times ht i hi n hn hs]
      simp only
      have ha : (t.setTotal n.stop).addNote (fileNote s.times i n) = .ok (t.pushNote (fileNote s.times i n)) := by
        unfold MSeq.addNote
        rw [if_neg (by simp [fileNote, MSeq.setTotal, hnum])]
        unfold MSeq.pushNote MSeq.setTotal
        have hmax : max 0 n.stop = n.stop := max_eq_right (le_of_lt hpos)
        cases hd : i.isDrum <;> simp [fileNote, hd, hmax]
      rw [ha]
      simp only
      congr 1
      unfold enumTracks
      simp only [enumDict_replace, List.length_set, List.set_set]
      rw [hs1]
      split <;> rfl
    · rw [decide_eq_false hy]
      simp only [Bool.false_eq_true, if_false]
      rw [if_neg (fun h => hy h.2)]
  · have hc : isclose n.start n.stop (1/1000000000) 0 = true := by
      unfold Spec.solid at hs; simpa using hs
    rw [hc, if_pos rfl, if_neg (fun h => hs h.1)]

namespace Spec

/-- `q` is the latest end of the notes (0 if there is none). -/
def LastEnd (l : List PNote) (q : ℚ) : Prop :=
  (∀ m ∈ l, m.stop ≤ q) ∧ ((l = [] ∧ q = 0) ∨ ∃ m ∈ l, m.stop = q)

end Spec

theorem pushNote_notes (t : MSeq) (n : Note) (h : n.isDrum = t.instr.isDrum) :
    (t.pushNote n).notes = t.notes ++ [n] ∧ (t.pushNote n).total = n.stop ∧ (t.pushNote n).instr = t.instr ∧
    (t.pushNote n).bends = t.bends ∧ (t.pushNote n).ccs = t.ccs ∧ (t.pushNote n).resolution = t.resolution := by
  unfold MSeq.pushNote MSeq.notes
  rw [h]
  cases hd : t.instr.isDrum <;> simp [hd]

/-- The note loop of one instrument. `before` are the notes of this instrument already seen, `all`
those of all instruments; only notes long enough count. -/
theorem readNotes_loop (k : Nat) (hk128 : k < 128) (i : PInst) (hi : Spec.GoodNotes i) :
    ∀ (ns : List PNote) (s : Song) (ts : List MSeq) (t : MSeq) (before all : List PNote),
    (∀ n ∈ ns, n ∈ i.notes) → s.tracks = enumTracks ts → ts[k]? = some t → t.instr.num = i.program →
    t.instr.isDrum = i.isDrum → TimesOk s.times → Spec.LastEnd before t.total → Spec.LastEnd all s.total →
    (∀ m ∈ all, 0 < m.stop) → (∀ m ∈ before, m ∈ all) →
    ∃ t' tot, ns.foldlM (fun s n => s.readNote (k : Int) i n) s
        = .ok { s with total := tot, tracks := enumTracks (ts.set k t') } ∧
      t'.notes = t.notes ++ (Spec.recordsGo before (ns.filter Spec.solid)).map (fileNote s.times i) ∧
      Spec.LastEnd (before ++ ns.filter Spec.solid) t'.total ∧
      Spec.LastEnd (all ++ ns.filter Spec.solid) tot ∧
      t'.instr = t.instr ∧ t'.bends = t.bends ∧ t'.ccs = t.ccs ∧ t'.resolution = t.resolution := by
  intro ns
  induction ns with
  | nil =>
    intro s ts t before all hns htr hk hnum hdr ht hb ha hpos hsub
    refine ⟨t, s.total, ?_, by simp [Spec.recordsGo], by simpa using hb, by simpa using ha, rfl, rfl, rfl, rfl⟩
    have : ts.set k t = ts := by
      apply List.ext_getElem? ; intro j
      rw [List.getElem?_set]
      split
      · rename_i h; subst h
        rw [hk]; have := (List.getElem?_eq_some_iff.1 hk).1; simp [this]
      · rfl
    rw [this, ← htr]; rfl
  | cons n ns ih =>
    intro s ts t before all hns htr hk hnum hdr ht hb ha hpos hsub
    have hn : n ∈ i.notes := hns n (by simp)
    rw [List.foldlM_cons]
    have hstep := readNote_step s ts t k i n htr hk hk128 hnum ht hi hn
    simp only [hstep, bind, Except.bind]
    have hkl := (List.getElem?_eq_some_iff.1 hk).1
    by_cases hs : Spec.solid n = true
    · have hnpos : 0 < n.stop := by
        have := hi.order n hn; have := solid_lt n hs this.2; linarith
      have hcond : (s.total = 0 ∨ t.total ≤ n.stop) ↔ before.all (fun m => decide (m.stop ≤ n.stop)) = true := by
        rw [List.all_eq_true]
        constructor
        · rintro (h0 | h0) m hm
          · have := ha.1 m (hsub m hm); have := hpos m (hsub m hm); linarith
          · have := hb.1 m hm; simp; linarith
        · intro h
          right
          rcases hb.2 with ⟨h1, h2⟩ | ⟨m, hm, h2⟩
          · rw [h2]; exact le_of_lt hnpos
          · have := h m hm; rw [← h2]; simpa using this
      rw [List.filter_cons_of_pos hs]
      have hpos' : ∀ m ∈ all ++ [n], 0 < m.stop := by
        intro m hm
        rcases List.mem_append.1 hm with h | h
        · exact hpos m h
        · rw [List.mem_singleton] at h; rw [h]; exact hnpos
      have hsub' : ∀ m ∈ before ++ [n], m ∈ all ++ [n] := by
        intro m hm
        rcases List.mem_append.1 hm with h | h
        · exact List.mem_append_left _ (hsub m h)
        · exact List.mem_append_right _ h
      by_cases hy : s.total = 0 ∨ t.total ≤ n.stop
      · rw [if_pos ⟨hs, hy⟩]
        have hall := hcond.1 hy
        obtain ⟨p1, p2, p3, p4, p5, p6⟩ := pushNote_notes t (fileNote s.times i n) (by rw [hdr]; rfl)
        have p2' : (t.pushNote (fileNote s.times i n)).total = n.stop := p2
        have hlast : Spec.LastEnd (before ++ [n]) n.stop := by
          refine ⟨?_, Or.inr ⟨n, by simp, rfl⟩⟩
          intro m hm
          rcases List.mem_append.1 hm with h | h
          · rw [List.all_eq_true] at hall; simpa using hall m h
          · rw [List.mem_singleton] at h; rw [h]
        have hlast' : Spec.LastEnd (all ++ [n]) (if n.stop ≥ s.total then n.stop else s.total) := by
          split
          · rename_i hge
            refine ⟨?_, Or.inr ⟨n, by simp, rfl⟩⟩
            intro m hm
            rcases List.mem_append.1 hm with h | h
            · exact le_trans (ha.1 m h) hge
            · rw [List.mem_singleton] at h; rw [h]
          · rename_i hge
            refine ⟨?_, ?_⟩
            · intro m hm
              rcases List.mem_append.1 hm with h | h
              · exact ha.1 m h
              · rw [List.mem_singleton] at h; rw [h]; linarith
            · rcases ha.2 with ⟨h1, h2⟩ | ⟨m, hm, h2⟩
              · exfalso; apply hge; rw [h2]; exact le_of_lt hnpos
              · exact Or.inr ⟨m, List.mem_append_left _ hm, h2⟩
        obtain ⟨t', tot, e, f1, f2, f3, f4, f5, f6, f7⟩ := ih
          { s with total := if n.stop ≥ s.total then n.stop else s.total
                   tracks := enumTracks (ts.set k (t.pushNote (fileNote s.times i n))) }
          (ts.set k (t.pushNote (fileNote s.times i n))) (t.pushNote (fileNote s.times i n))
          (before ++ [n]) (all ++ [n]) (fun m hm => hns m (by simp [hm])) rfl
          (by rw [List.getElem?_set]; simp [hkl]) (by rw [p3]; exact hnum) (by rw [p3]; exact hdr) ht
          (by rw [p2']; exact hlast) hlast' hpos' hsub'
        refine ⟨t', tot, ?_, ?_, ?_, ?_, by rw [f4, p3], by rw [f5, p4], by rw [f6, p5], by rw [f7, p6]⟩
        · rw [e]; simp only [List.set_set]
        · rw [f1, p1]
          simp only [Spec.recordsGo, hall, if_true, List.map_cons, List.append_assoc, List.singleton_append]
        · rw [List.append_assoc] at f2; exact f2
        · rw [List.append_assoc] at f3; exact f3
      · rw [if_neg (fun h => hy h.2)]
        have hall : before.all (fun m => decide (m.stop ≤ n.stop)) = false := by
          cases hh : before.all (fun m => decide (m.stop ≤ n.stop))
          · rfl
          · exact absurd (hcond.2 hh) hy
        have hlt : n.stop < t.total := by
          by_contra h; exact hy (Or.inr (not_lt.1 h))
        have hlast : Spec.LastEnd (before ++ [n]) t.total := by
          refine ⟨?_, ?_⟩
          · intro m hm
            rcases List.mem_append.1 hm with h | h
            · exact hb.1 m h
            · rw [List.mem_singleton] at h; rw [h]; exact le_of_lt hlt
          · rcases hb.2 with ⟨h1, h2⟩ | ⟨m, hm, h2⟩
            · exfalso; linarith
            · exact Or.inr ⟨m, List.mem_append_left _ hm, h2⟩
        have hlast' : Spec.LastEnd (all ++ [n]) s.total := by
          have hts : t.total ≤ s.total := by
            rcases hb.2 with ⟨h1, h2⟩ | ⟨m, hm, h2⟩
            · exfalso; linarith
            · rw [← h2]; exact ha.1 m (hsub m hm)
          refine ⟨?_, ?_⟩
          · intro m hm
            rcases List.mem_append.1 hm with h | h
            · exact ha.1 m h
            · rw [List.mem_singleton] at h; rw [h]; linarith
          · rcases ha.2 with ⟨h1, h2⟩ | ⟨m, hm, h2⟩
            · exfalso; linarith
            · exact Or.inr ⟨m, List.mem_append_left _ hm, h2⟩
        obtain ⟨t', tot, e, f1, f2, f3, f4, f5, f6, f7⟩ := ih s ts t
          (before ++ [n]) (all ++ [n]) (fun m hm => hns m (by simp [hm])) htr hk hnum hdr ht
          hlast hlast' hpos' hsub'
        refine ⟨t', tot, e, ?_, ?_, ?_, f4, f5, f6, f7⟩
        · rw [f1]
          simp only [Spec.recordsGo, hall, Bool.false_eq_true, if_false]
        · rw [List.append_assoc] at f2; exact f2
        · rw [List.append_assoc] at f3; exact f3
    · rw [if_neg (fun h => hs h.1), List.filter_cons_of_neg hs]
      exact ih s ts t before all (fun m hm => hns m (by simp [hm])) htr hk hnum hdr ht hb ha hpos hsub

/-- What the note pass leaves in the track of an instrument. -/
structure TrackFor (times : List TimeSig) (res : Int) (i : PInst) (t : MSeq) : Prop where
  notes : t.notes = (Spec.records (i.notes.filter Spec.solid)).map (fileNote times i)
  num : t.instr.num = i.program
  drum : t.instr.isDrum = i.isDrum
  name : i.name ≠ "" → t.instr.name = i.name
  total : Spec.LastEnd (i.notes.filter Spec.solid) t.total
  resolution : t.resolution = res
  bends : t.bends = []
  ccs : t.ccs = []

theorem createTrack_new (s : Song) (ts : List MSeq) (i : PInst) (hp : i.program < 128)
    (htr : s.tracks = enumTracks ts) :
    ∃ name, s.createTrack ts.length i = .ok ((ts.length : Int),
        { s with tracks := enumTracks (ts ++ [MSeq.mk' [] ⟨i.program, name, i.isDrum⟩ s.resolution]) }) ∧
      (i.name ≠ "" → name = i.name) := by
  obtain ⟨name, hf, hn⟩ := newTrack_eq s.resolution i hp
  refine ⟨name, ?_, hn⟩
  unfold Song.createTrack
  rw [if_neg (by omega)]
  simp only [hf, bind, Except.bind, htr]
  rw [enumTracks_create ts _ _ (by omega)]

theorem createTrack_old (s : Song) (ts : List MSeq) (k : Nat) (hk : k < ts.length) (i : PInst)
    (hp : i.program < 128) (htr : s.tracks = enumTracks ts) : s.createTrack k i = .ok ((k : Int), s) := by
  obtain ⟨name, hf, hn⟩ := newTrack_eq s.resolution i hp
  unfold Song.createTrack
  rw [if_neg (by omega)]
  simp only [hf, bind, Except.bind, htr]
  rw [enumTracks_create_old ts _ k hk _ (by omega)]
  simp only [← htr]

/-- The note pass. -/
theorem readInsts_pass : ∀ (insts : List PInst) (s : Song) (ts : List MSeq) (all : List PNote),
    (∀ i ∈ insts, Spec.GoodNotes i) → ts.length + insts.length ≤ 128 → s.tracks = enumTracks ts →
    TimesOk s.times → Spec.LastEnd all s.total → (∀ m ∈ all, 0 < m.stop) →
    ∃ us tot, (insts.zipIdx ts.length).foldlM Song.readInst s
        = .ok { s with total := tot, tracks := enumTracks (ts ++ us) } ∧
      List.Forall₂ (TrackFor s.times s.resolution) insts us ∧
      Spec.LastEnd (all ++ (insts.flatMap (fun i => i.notes)).filter Spec.solid) tot := by
  intro insts
  induction insts with
  | nil =>
    intro s ts all _ _ htr _ ha _
    refine ⟨[], s.total, ?_, List.Forall₂.nil, by simpa using ha⟩
    rw [List.append_nil, ← htr]; rfl
  | cons i insts ih =>
    intro s ts all hg hlen htr ht ha hpos
    have hi := hg i (by simp)
    rw [List.zipIdx_cons, List.foldlM_cons]
    obtain ⟨name, hc, hname⟩ := createTrack_new s ts i hi.program htr
    rw [List.length_cons] at hlen
    set t0 : MSeq := MSeq.mk' [] { num := i.program, name := name, isDrum := i.isDrum } s.resolution with ht0
    have htot : t0.total = 0 := by rw [ht0]; rfl
    obtain ⟨t', tot, e, f1, f2, f3, f4, f5, f6, f7⟩ := readNotes_loop ts.length (by omega) i hi i.notes
      { s with tracks := enumTracks (ts ++ [t0]) } (ts ++ [t0]) t0 [] all (fun n h => h) rfl (by simp)
      (by rw [ht0]; rfl) (by rw [ht0]; rfl) ht ⟨by simp, Or.inl ⟨rfl, htot⟩⟩ ha hpos (by simp)
    have hset : (ts ++ [t0]).set ts.length t' = ts ++ [t'] := by simp
    rw [hset] at e
    have hr : Song.readInst s (i, ts.length) = .ok { s with total := tot, tracks := enumTracks (ts ++ [t']) } := by
      unfold Song.readInst
      simp only [hc, bind, Except.bind]
      exact e
    simp only [hr, bind, Except.bind]
    have hpos' : ∀ m ∈ all ++ i.notes.filter Spec.solid, 0 < m.stop := by
      intro m hm
      rcases List.mem_append.1 hm with h | h
      · exact hpos m h
      · rw [List.mem_filter] at h
        have := hi.order m h.1
        have := solid_lt m h.2 this.2
        linarith
    obtain ⟨us, tot', e', g1, g2⟩ := ih { s with total := tot, tracks := enumTracks (ts ++ [t']) } (ts ++ [t'])
      (all ++ i.notes.filter Spec.solid) (fun j hj => hg j (by simp [hj])) (by simp; omega) rfl ht f3 hpos'
    have hl : (ts ++ [t']).length = ts.length + 1 := by simp
    rw [hl] at e'
    refine ⟨t' :: us, tot', ?_, List.Forall₂.cons ?_ g1, ?_⟩
    · rw [e']; simp
    · refine ⟨?_, ?_, ?_, ?_, by simpa using f2, ?_, ?_, ?_⟩
      · rw [f1]
        have : t0.notes = [] := by rw [ht0]; unfold MSeq.notes MSeq.mk'; simp
        rw [this, List.nil_append]; rfl
      · rw [f4, ht0]; rfl
      · rw [f4, ht0]; rfl
      · intro h; rw [f4, ht0]; exact hname h
      · rw [f7, ht0]; rfl
      · rw [f5, ht0]; rfl
      · rw [f6, ht0]; rfl
    · rw [List.flatMap_cons, List.filter_append, ← List.append_assoc]; exact g2

/-! ### Pitch bends and control changes -/

/-- A loop that changes only track `k`. -/
theorem track_loop {X : Type} (k : Nat) (step : Song → X → Py Song) (g : MSeq → X → MSeq) (s0 : Song)
    (P : X → Prop)
    (hstep : ∀ (ts : List MSeq) (t : MSeq) (x : X), P x → ts[k]? = some t →
      step { s0 with tracks := enumTracks ts } x = .ok { s0 with tracks := enumTracks (ts.set k (g t x)) }) :
    ∀ (xs : List X) (ts : List MSeq) (t : MSeq), (∀ x ∈ xs, P x) → ts[k]? = some t →
      xs.foldlM step { s0 with tracks := enumTracks ts }
        = .ok { s0 with tracks := enumTracks (ts.set k (xs.foldl g t)) } := by
  intro xs
  induction xs with
  | nil =>
    intro ts t _ hk
    have : ts.set k t = ts := by
      apply List.ext_getElem? ; intro j
      rw [List.getElem?_set]
      split
      · rename_i h; subst h
        rw [hk]; have := (List.getElem?_eq_some_iff.1 hk).1; simp [this]
      · rfl
    rw [List.foldl_nil, this]; rfl
  | cons x xs ih =>
    intro ts t hP hk
    rw [List.foldlM_cons, List.foldl_cons]
    simp only [hstep ts t x (hP x (by simp)) hk, bind, Except.bind]
    have hkl := (List.getElem?_eq_some_iff.1 hk).1
    have := ih (ts.set k (g t x)) (g t x) (fun y hy => hP y (by simp [hy])) (by rw [List.getElem?_set]; simp [hkl])
    rw [this, List.set_set]

theorem modifyTrack_eq (s : Song) (ts : List MSeq) (t t' : MSeq) (k : Nat) (i : PInst) (f : MSeq → Py MSeq)
    (htr : s.tracks = enumTracks ts) (hk : ts[k]? = some t) (hk128 : k < 128) (hp : i.program < 128)
    (hf : f t = .ok t') : s.modifyTrack (k : Int) i f = .ok { s with tracks := enumTracks (ts.set k t') } := by
  obtain ⟨name, hn, _⟩ := newTrack_eq s.resolution i hp
  unfold Song.modifyTrack
  simp only [hn, bind, Except.bind, htr]
  rw [enumTracks_getTrack ts _ t k _ hk128 hk]
  simp only [hf]
  congr 2
  unfold enumTracks
  simp only [enumDict_replace, List.length_set]

/-- A pass over the instruments that changes the track of each. -/
theorem inst_pass (step : Song → PInst × Nat → Py Song) (g : PInst → Nat → MSeq → MSeq) (s0 : Song)
    (P : PInst → Prop)
    (hstep : ∀ (ts : List MSeq) (t : MSeq) (i : PInst) (k : Nat), P i → k < 128 → ts[k]? = some t →
      step { s0 with tracks := enumTracks ts } (i, k) = .ok { s0 with tracks := enumTracks (ts.set k (g i k t)) }) :
    ∀ (insts : List PInst) (pre us : List MSeq), (∀ i ∈ insts, P i) → insts.length = us.length →
      pre.length + us.length ≤ 128 →
      (insts.zipIdx pre.length).foldlM step { s0 with tracks := enumTracks (pre ++ us) }
        = .ok { s0 with tracks := enumTracks
                          (pre ++ ((insts.zipIdx pre.length).zip us).map (fun p => g p.1.1 p.1.2 p.2)) } := by
  intro insts
  induction insts with
  | nil =>
    intro pre us _ hl _
    have : us = [] := by simpa using hl.symm
    subst this
    rfl
  | cons i insts ih =>
    intro pre us hP hl h128
    cases us with
    | nil => simp at hl
    | cons u us =>
      rw [List.zipIdx_cons, List.foldlM_cons]
      simp only [List.length_cons] at hl h128
      have h1 := hstep (pre ++ u :: us) u i pre.length (hP i (by simp)) (by omega) (by simp)
      simp only [h1, bind, Except.bind]
      have hset : (pre ++ u :: us).set pre.length (g i pre.length u) = (pre ++ [g i pre.length u]) ++ us := by simp
      rw [hset]
      have h2 := ih (pre ++ [g i pre.length u]) us (fun j hj => hP j (by simp [hj])) (by omega) (by simp; omega)
      have hlen : (pre ++ [g i pre.length u]).length = pre.length + 1 := by simp
      rw [hlen] at h2
      rw [h2]
      simp

/-- A pitch bend the reader accepts. -/
def Spec.GoodBend (b : Int × ℚ) : Prop := -8191 ≤ b.1 ∧ b.1 ≤ 8191 ∧ 0 ≤ b.2

/-- Whether the reader takes an event at this time, once the notes have been read. -/
def Spec.afterNotes (total time : ℚ) : Bool := decide (total = 0 ∨ total ≤ time)

/-- The pitch bend made for one of the file. -/
def fileBend (i : PInst) (k : Nat) (b : Int × ℚ) : PitchBend :=
  { amount := b.1, time := b.2, program := i.program, instrument := k, isDrum := i.isDrum }

/-- The control change made for one of the file. -/
def fileControl (i : PInst) (k : Nat) (c : Nat × Nat × ℚ) : CC :=
  CC.mk' (c.1 : Int) (c.2.1 : Int) c.2.2 (i.program : Int) (k : Int) i.isDrum

theorem foldl_bends (total : ℚ) (i : PInst) (k : Nat) : ∀ (bs : List (Int × ℚ)) (t : MSeq),
    bs.foldl (fun (t : MSeq) b => if Spec.afterNotes total b.2 then { t with bends := t.bends ++ [fileBend i k b] } else t) t
      = { t with bends := t.bends ++ (bs.filter (fun b => Spec.afterNotes total b.2)).map (fileBend i k) } := by
  intro bs
  induction bs with
  | nil => intro t; simp
  | cons b bs ih =>
    intro t
    rw [List.foldl_cons, ih]
    by_cases h : Spec.afterNotes total b.2 = true
    · simp [h]
    · simp [h]

theorem foldl_controls (total : ℚ) (i : PInst) (k : Nat) : ∀ (bs : List (Nat × Nat × ℚ)) (t : MSeq),
    bs.foldl (fun (t : MSeq) b => if Spec.afterNotes total b.2.2 then { t with ccs := t.ccs ++ [fileControl i k b] } else t) t
      = { t with ccs := t.ccs ++ (bs.filter (fun b => Spec.afterNotes total b.2.2)).map (fileControl i k) } := by
  intro bs
  induction bs with
  | nil => intro t; simp
  | cons b bs ih =>
    intro t
    rw [List.foldl_cons, ih]
    by_cases h : Spec.afterNotes total b.2.2 = true
    · simp [h]
    · simp [h]

theorem set_self {α : Type} (l : List α) (k : Nat) (x : α) (h : l[k]? = some x) : l.set k x = l := by
  apply List.ext_getElem?; intro j
  rw [List.getElem?_set]
  split
  · rename_i hj; subst hj
    rw [h]; have := (List.getElem?_eq_some_iff.1 h).1; simp [this]
  · rfl

/-- The track with one more pitch bend, if it is taken. -/
def MSeq.takeBend (total : ℚ) (i : PInst) (k : Nat) (t : MSeq) (b : Int × ℚ) : MSeq :=
  if Spec.afterNotes total b.2 then { t with bends := t.bends ++ [fileBend i k b] } else t

/-- The track with one more control change, if it is taken. -/
def MSeq.takeControl (total : ℚ) (i : PInst) (k : Nat) (t : MSeq) (b : Nat × Nat × ℚ) : MSeq :=
  if Spec.afterNotes total b.2.2 then { t with ccs := t.ccs ++ [fileControl i k b] } else t

theorem readBend_step (s : Song) (i : PInst) (k : Nat) (hi : i.program < 128) (hk128 : k < 128)
    (ts : List MSeq) (t : MSeq) (b : Int × ℚ) (htr : s.tracks = enumTracks ts)
    (hb : Spec.afterNotes s.total b.2 = true → Spec.GoodBend b) (hk : ts[k]? = some t) :
    s.readBend (k : Int) k i b = .ok { s with tracks := enumTracks (ts.set k (t.takeBend s.total i k b)) } := by
  unfold Song.readBend MSeq.takeBend
  by_cases h : s.total = 0 ∨ b.2 ≥ s.total
  · rw [if_pos h]
    have h' : Spec.afterNotes s.total b.2 = true := by unfold Spec.afterNotes; simpa using h
    rw [h', if_pos rfl]
    have hmk : PitchBend.mk? b.1 (some b.2) (i.program : Int) (k : Int) i.isDrum = .ok (fileBend i k b) := by
      unfold PitchBend.mk?
      obtain ⟨h1, h2, h3⟩ := hb h'
      rw [if_neg (by simp; exact ⟨h1, h2⟩), if_neg (by omega), if_neg (by omega)]
      simp only [not_lt.2 h3, if_false]
      have e1 : min (max 0 (i.program : Int)) 255 = i.program := by omega
      have e2 : min (max 0 (k : Int)) 255 = k := by omega
      rw [e1, e2, max_eq_left h3]
      rfl
    refine modifyTrack_eq s ts t _ k i _ htr hk hk128 hi ?_
    rw [hmk]
    rfl
  · rw [if_neg h]
    have h' : Spec.afterNotes s.total b.2 = false := by unfold Spec.afterNotes; simpa using h
    rw [h', if_neg (by simp), set_self ts k t hk, ← htr]

theorem readControl_step (s : Song) (i : PInst) (k : Nat) (hi : i.program < 128) (hk128 : k < 128)
    (ts : List MSeq) (t : MSeq) (b : Nat × Nat × ℚ) (htr : s.tracks = enumTracks ts) (hk : ts[k]? = some t) :
    s.readControl (k : Int) k i b = .ok { s with tracks := enumTracks (ts.set k (t.takeControl s.total i k b)) } := by
  unfold Song.readControl MSeq.takeControl
  by_cases h : s.total = 0 ∨ b.2.2 ≥ s.total
  · rw [if_pos h]
    have h' : Spec.afterNotes s.total b.2.2 = true := by unfold Spec.afterNotes; simpa using h
    rw [h', if_pos rfl]
    exact modifyTrack_eq s ts t _ k i _ htr hk hk128 hi rfl
  · rw [if_neg h]
    have h' : Spec.afterNotes s.total b.2.2 = false := by unfold Spec.afterNotes; simpa using h
    rw [h', if_neg (by simp), set_self ts k t hk, ← htr]

theorem readBends_eq (s0 : Song) (ts : List MSeq) (t : MSeq) (i : PInst) (k : Nat)
    (hi : i.program < 128 ∧ ∀ b ∈ i.bends, Spec.afterNotes s0.total b.2 = true → Spec.GoodBend b)
    (hk128 : k < 128) (hk : ts[k]? = some t) :
    Song.readBends { s0 with tracks := enumTracks ts } (i, k)
      = .ok { s0 with tracks := enumTracks (ts.set k { t with bends := t.bends ++
          (i.bends.filter (fun b => Spec.afterNotes s0.total b.2)).map (fileBend i k) }) } := by
  have hkl := (List.getElem?_eq_some_iff.1 hk).1
  have hloop := track_loop k (fun s b => s.readBend (k : Int) k i b) (MSeq.takeBend s0.total i k) s0
    (fun b => Spec.afterNotes s0.total b.2 = true → Spec.GoodBend b)
    (fun ts t b hb hk => readBend_step { s0 with tracks := enumTracks ts } i k hi.1 hk128 ts t b rfl hb hk)
    i.bends ts t hi.2 hk
  have hfold : i.bends.foldl (MSeq.takeBend s0.total i k) t = _ := foldl_bends s0.total i k i.bends t
  rw [hfold] at hloop
  unfold Song.readBends
  rw [createTrack_old { s0 with tracks := enumTracks ts } ts k hkl i hi.1 rfl]
  exact hloop

theorem readControls_eq (s0 : Song) (ts : List MSeq) (t : MSeq) (i : PInst) (k : Nat)
    (hi : i.program < 128) (hk128 : k < 128) (hk : ts[k]? = some t) :
    Song.readControls { s0 with tracks := enumTracks ts } (i, k)
      = .ok { s0 with tracks := enumTracks (ts.set k { t with ccs := t.ccs ++
          (i.controls.filter (fun b => Spec.afterNotes s0.total b.2.2)).map (fileControl i k) }) } := by
  have hkl := (List.getElem?_eq_some_iff.1 hk).1
  have hloop := track_loop k (fun s b => s.readControl (k : Int) k i b) (MSeq.takeControl s0.total i k) s0
    (fun _ => True)
    (fun ts t b _ hk => readControl_step { s0 with tracks := enumTracks ts } i k hi hk128 ts t b rfl hk)
    i.controls ts t (fun _ _ => trivial) hk
  have hfold : i.controls.foldl (MSeq.takeControl s0.total i k) t = _ := foldl_controls s0.total i k i.controls t
  rw [hfold] at hloop
  unfold Song.readControls
  rw [createTrack_old { s0 with tracks := enumTracks ts } ts k hkl i hi rfl]
  exact hloop

end NGC
