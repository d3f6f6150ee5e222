import Verif.Heap
import Verif.SeqLemmas
import Mathlib.Data.List.Range
import Mathlib.Data.List.Dedup

/-!
C117: copies are isolated.
-/

namespace NGC

/-! ## What a client can reach -/

/-- The list objects a client can get at. -/
def Spec.ReachL (c : Client) (h : Heap) (l : Nat) : Prop :=
  l ∈ c.lists ∨ ∃ s ∈ c.seqs, l = (h.seq s).notes ∨ l = (h.seq s).drums

/-- The note objects a client can get at. -/
def Spec.ReachN (c : Client) (h : Heap) (r : Nat) : Prop :=
  r ∈ c.notes ∨ ∃ l, Spec.ReachL c h l ∧ r ∈ h.list l

open Spec (ReachL ReachN)

/-- No dangling references. -/
structure Heap.WF (h : Heap) : Prop where
  seqs : ∀ s < h.nS, (h.seq s).notes < h.nL ∧ (h.seq s).drums < h.nL ∧ (h.seq s).instr < h.nI
  lists : ∀ l < h.nL, ∀ r ∈ h.list l, r < h.nN

/-- The registers hold existing objects. -/
structure Client.Ok (c : Client) (h : Heap) : Prop where
  notes : ∀ r ∈ c.notes, r < h.nN
  lists : ∀ l ∈ c.lists, l < h.nL
  seqs : ∀ s ∈ c.seqs, s < h.nS

theorem reachL_lt {c : Client} {h : Heap} (w : h.WF) (o : c.Ok h) {l : Nat} (hl : ReachL c h l) : l < h.nL := by
  rcases hl with hl | ⟨s, hs, rfl | rfl⟩
  · exact o.lists l hl
  · exact (w.seqs s (o.seqs s hs)).1
  · exact (w.seqs s (o.seqs s hs)).2.1

theorem reachN_lt {c : Client} {h : Heap} (w : h.WF) (o : c.Ok h) {r : Nat} (hr : ReachN c h r) : r < h.nN := by
  rcases hr with hr | ⟨l, hl, hr⟩
  · exact o.notes r hr
  · exact w.lists l (reachL_lt w o hl) r hr

/-- What a command of a client may do: existing objects change only if the client can reach them, and the
client can afterwards reach only what it could reach before, and new objects. -/
structure Step (c : Client) (h : Heap) (c' : Client) (h' : Heap) : Prop where
  nN : h.nN ≤ h'.nN
  nL : h.nL ≤ h'.nL
  nI : h.nI ≤ h'.nI
  nS : h.nS ≤ h'.nS
  note_eq : ∀ r < h.nN, ¬ ReachN c h r → h'.note r = h.note r
  list_eq : ∀ l < h.nL, ¬ ReachL c h l → h'.list l = h.list l
  seq_eq : ∀ s < h.nS, s ∉ c.seqs → h'.seq s = h.seq s
  instr_eq : ∀ i < h.nI, h'.instr i = h.instr i
  rN : ∀ r, ReachN c' h' r → ReachN c h r ∨ h.nN ≤ r
  rL : ∀ l, ReachL c' h' l → ReachL c h l ∨ h.nL ≤ l
  rS : ∀ s ∈ c'.seqs, s ∈ c.seqs ∨ h.nS ≤ s
  wf : h'.WF
  ok : c'.Ok h'

theorem Step.trans {c c1 c2 : Client} {h h1 h2 : Heap} (a : Step c h c1 h1) (b : Step c1 h1 c2 h2) :
    Step c h c2 h2 where
  nN := a.nN.trans b.nN
  nL := a.nL.trans b.nL
  nI := a.nI.trans b.nI
  nS := a.nS.trans b.nS
  note_eq r hr hn := by
    rw [b.note_eq r (lt_of_lt_of_le hr a.nN) (fun hc => ?_), a.note_eq r hr hn]
    rcases a.rN r hc with h | h
    · exact hn h
    · omega
  list_eq r hr hn := by
    rw [b.list_eq r (lt_of_lt_of_le hr a.nL) (fun hc => ?_), a.list_eq r hr hn]
    rcases a.rL r hc with h | h
    · exact hn h
    · omega
  seq_eq r hr hn := by
    rw [b.seq_eq r (lt_of_lt_of_le hr a.nS) (fun hc => ?_), a.seq_eq r hr hn]
    rcases a.rS r hc with h | h
    · exact hn h
    · omega
  instr_eq i hi := by rw [b.instr_eq i (lt_of_lt_of_le hi a.nI), a.instr_eq i hi]
  rN r hr := by
    have := a.nN
    rcases b.rN r hr with h | h
    · exact a.rN r h
    · right; omega
  rL r hr := by
    have := a.nL
    rcases b.rL r hr with h | h
    · exact a.rL r h
    · right; omega
  rS r hr := by
    have := a.nS
    rcases b.rS r hr with h | h
    · exact a.rS r h
    · right; omega
  wf := b.wf
  ok := b.ok

section prim
variable {c : Client} {h : Heap}

theorem Step.refl (w : h.WF) (o : c.Ok h) : Step c h c h where
  nN := le_rfl
  nL := le_rfl
  nI := le_rfl
  nS := le_rfl
  note_eq _ _ _ := rfl
  list_eq _ _ _ := rfl
  seq_eq _ _ _ := rfl
  instr_eq _ _ := rfl
  rN _ h := .inl h
  rL _ h := .inl h
  rS _ h := .inl h
  wf := w
  ok := o

/-- Registers can be dropped and filled with reachable things. -/
theorem Step.regs (w : h.WF) (o : c.Ok h) (c' : Client) (hn : ∀ r ∈ c'.notes, ReachN c h r)
    (hl : ∀ l ∈ c'.lists, ReachL c h l) (hs : ∀ s ∈ c'.seqs, s ∈ c.seqs) : Step c h c' h := by
  have rl : ∀ l, ReachL c' h l → ReachL c h l := by
    rintro l (h' | ⟨s, hs', e⟩)
    · exact hl l h'
    · exact .inr ⟨s, hs s hs', e⟩
  have rn : ∀ l, ReachN c' h l → ReachN c h l := by
    rintro r (h' | ⟨l, hl', e⟩)
    · exact hn r h'
    · exact .inr ⟨l, rl l hl', e⟩
  exact { Step.refl w o with
    rN := fun r hr => .inl (rn r hr)
    rL := fun r hr => .inl (rl r hr)
    rS := fun s h' => .inl (hs s h')
    ok := ⟨fun r hr => reachN_lt w o (hn r hr), fun l h' => reachL_lt w o (hl l h'),
      fun s h' => o.seqs s (hs s h')⟩ }

theorem Step.setNote (w : h.WF) (o : c.Ok h) (r : Nat) (n : Note) (hr : ReachN c h r) :
    Step c h c (h.setNote r n) where
  nN := le_rfl
  nL := le_rfl
  nI := le_rfl
  nS := le_rfl
  note_eq i _ hn := by
    show (if i = r then n else h.note i) = _
    rw [if_neg]; rintro rfl; exact hn hr
  list_eq _ _ _ := rfl
  seq_eq _ _ _ := rfl
  instr_eq _ _ := rfl
  rN _ h := .inl h
  rL _ h := .inl h
  rS _ h := .inl h
  wf := ⟨w.seqs, w.lists⟩
  ok := ⟨o.notes, o.lists, o.seqs⟩

theorem Step.setList (w : h.WF) (o : c.Ok h) (l : Nat) (rs : List Nat) (hl : ReachL c h l)
    (hr : ∀ r ∈ rs, ReachN c h r) : Step c h c (h.setList l rs) where
  nN := le_rfl
  nL := le_rfl
  nI := le_rfl
  nS := le_rfl
  note_eq _ _ _ := rfl
  list_eq i _ hn := by
    show (if i = l then rs else h.list i) = _
    rw [if_neg]; rintro rfl; exact hn hl
  seq_eq _ _ _ := rfl
  instr_eq _ _ := rfl
  rN r h' := by
    left
    rcases h' with h' | ⟨m, hm, e⟩
    · exact .inl h'
    · have e' : r ∈ (if m = l then rs else h.list m) := e
      split at e'
      · exact hr r e'
      · exact .inr ⟨m, hm, e'⟩
  rL _ h := .inl h
  rS _ h := .inl h
  wf := by
    refine ⟨w.seqs, ?_⟩
    intro m hm r e
    have e' : r ∈ (if m = l then rs else h.list m) := e
    split at e'
    · exact reachN_lt w o (hr r e')
    · exact w.lists m hm r e'
  ok := ⟨o.notes, o.lists, o.seqs⟩

theorem Step.setSeq (w : h.WF) (o : c.Ok h) (s : Nat) (x : SObj) (hs : s ∈ c.seqs)
    (h1 : ReachL c h x.notes) (h2 : ReachL c h x.drums) (h3 : x.instr < h.nI) :
    Step c h c (h.setSeq s x) := by
  have rl : ∀ l, ReachL c (h.setSeq s x) l → ReachL c h l := by
    rintro l (h' | ⟨t, ht, e⟩)
    · exact .inl h'
    · have e' : l = (if t = s then x else h.seq t).notes ∨ l = (if t = s then x else h.seq t).drums := e
      split at e'
      · rcases e' with rfl | rfl
        · exact h1
        · exact h2
      · exact .inr ⟨t, ht, e'⟩
  exact {
    nN := le_rfl
    nL := le_rfl
    nI := le_rfl
    nS := le_rfl
    note_eq := fun _ _ _ => rfl
    list_eq := fun _ _ _ => rfl
    seq_eq := fun i _ hn => by
      show (if i = s then x else h.seq i) = _
      rw [if_neg]; rintro rfl; exact hn hs
    instr_eq := fun _ _ => rfl
    rN := fun r h' => by
      left
      rcases h' with h' | ⟨m, hm, e⟩
      · exact .inl h'
      · exact .inr ⟨m, rl m hm, e⟩
    rL := fun l h' => .inl (rl l h')
    rS := fun _ h => .inl h
    wf := by
      refine ⟨?_, w.lists⟩
      intro t ht
      show (if t = s then x else h.seq t).notes < h.nL ∧ (if t = s then x else h.seq t).drums < h.nL ∧
        (if t = s then x else h.seq t).instr < h.nI
      split
      · exact ⟨reachL_lt w o h1, reachL_lt w o h2, h3⟩
      · exact w.seqs t ht
    ok := ⟨o.notes, o.lists, o.seqs⟩ }

theorem Step.allocNotes (w : h.WF) (o : c.Ok h) (l : List Note) :
    Step c h { c with notes := c.notes ++ List.range' h.nN l.length } (h.allocNotes l) where
  nN := by show h.nN ≤ h.nN + l.length; omega
  nL := le_rfl
  nI := le_rfl
  nS := le_rfl
  note_eq i hi _ := by
    show (if i < h.nN then h.note i else _) = _
    rw [if_pos hi]
  list_eq _ _ _ := rfl
  seq_eq _ _ _ := rfl
  instr_eq _ _ := rfl
  rN r h' := by
    rcases h' with h' | ⟨m, hm, e⟩
    · rcases List.mem_append.1 h' with h' | h'
      · exact .inl (.inl h')
      · right; rw [List.mem_range'_1] at h'; exact h'.1
    · exact .inl (.inr ⟨m, hm, e⟩)
  rL _ h := .inl h
  rS _ h := .inl h
  wf := ⟨w.seqs, fun m hm r e => by
    have := w.lists m hm r e
    show r < h.nN + l.length; omega⟩
  ok := by
    refine ⟨?_, o.lists, o.seqs⟩
    intro r hr
    show r < h.nN + l.length
    rcases List.mem_append.1 hr with h' | h'
    · have := o.notes r h'; omega
    · rw [List.mem_range'_1] at h'; exact h'.2

theorem Step.allocList (w : h.WF) (o : c.Ok h) (rs : List Nat) (hr : ∀ r ∈ rs, ReachN c h r) :
    Step c h { c with lists := c.lists ++ [h.nL] } (h.allocList rs) := by
  have rl : ∀ l, ReachL { c with lists := c.lists ++ [h.nL] } (h.allocList rs) l →
      ReachL c h l ∨ l = h.nL := by
    rintro l (h' | h')
    · rcases List.mem_append.1 h' with h' | h'
      · exact .inl (.inl h')
      · rw [List.mem_singleton] at h'; exact .inr h'
    · exact .inl (.inr h')
  exact {
    nN := le_rfl
    nL := by show h.nL ≤ h.nL + 1; omega
    nI := le_rfl
    nS := le_rfl
    note_eq := fun _ _ _ => rfl
    list_eq := fun i hi _ => by
      show (if i = h.nL then rs else h.list i) = _
      rw [if_neg (by omega)]
    seq_eq := fun _ _ _ => rfl
    instr_eq := fun _ _ => rfl
    rN := fun r h' => by
      left
      rcases h' with h' | ⟨m, hm, e⟩
      · exact .inl h'
      · have e' : r ∈ (if m = h.nL then rs else h.list m) := e
        rcases rl m hm with hm | hm
        · rw [if_neg (by have := reachL_lt w o hm; omega)] at e'
          exact .inr ⟨m, hm, e'⟩
        · rw [if_pos hm] at e'; exact hr r e'
    rL := fun l h' => by
      rcases rl l h' with h' | h'
      · exact .inl h'
      · exact .inr (by omega)
    rS := fun _ h => .inl h
    wf := by
      constructor
      · intro s hs
        obtain ⟨a, b, d⟩ := w.seqs s hs
        exact ⟨Nat.lt_succ_of_lt a, Nat.lt_succ_of_lt b, d⟩
      · intro m hm r e
        have e' : r ∈ (if m = h.nL then rs else h.list m) := e
        have hm' : m < h.nL + 1 := hm
        show r < h.nN
        split at e'
        · exact reachN_lt w o (hr r e')
        · exact w.lists m (by omega) r e'
    ok := by
      refine ⟨o.notes, ?_, o.seqs⟩
      intro l hl
      show l < h.nL + 1
      rcases List.mem_append.1 hl with h' | h'
      · have := o.lists l h'; omega
      · rw [List.mem_singleton] at h'; omega }

theorem Step.allocInstr (w : h.WF) (o : c.Ok h) (x : InstrumentInfo) : Step c h c (h.allocInstr x) where
  nN := le_rfl
  nL := le_rfl
  nI := by show h.nI ≤ h.nI + 1; omega
  nS := le_rfl
  note_eq _ _ _ := rfl
  list_eq _ _ _ := rfl
  seq_eq _ _ _ := rfl
  instr_eq i hi := by
    show (if i = h.nI then x else h.instr i) = _
    rw [if_neg (by omega)]
  rN _ h := .inl h
  rL _ h := .inl h
  rS _ h := .inl h
  wf := ⟨fun s hs => ⟨(w.seqs s hs).1, (w.seqs s hs).2.1, Nat.lt_succ_of_lt (w.seqs s hs).2.2⟩, w.lists⟩
  ok := ⟨o.notes, o.lists, o.seqs⟩

theorem Step.allocSeq (w : h.WF) (o : c.Ok h) (x : SObj)
    (h1 : ReachL c h x.notes) (h2 : ReachL c h x.drums) (h3 : x.instr < h.nI) :
    Step c h { c with seqs := c.seqs ++ [h.nS] } (h.allocSeq x) := by
  have rl : ∀ l, ReachL { c with seqs := c.seqs ++ [h.nS] } (h.allocSeq x) l → ReachL c h l := by
    rintro l (h' | ⟨t, ht, e⟩)
    · exact .inl h'
    · have e' : l = (if t = h.nS then x else h.seq t).notes ∨ l = (if t = h.nS then x else h.seq t).drums := e
      split at e'
      · rcases e' with rfl | rfl
        · exact h1
        · exact h2
      · rename_i hne
        rcases List.mem_append.1 ht with ht | ht
        · exact .inr ⟨t, ht, e'⟩
        · rw [List.mem_singleton] at ht; exact absurd ht hne
  exact {
    nN := le_rfl
    nL := le_rfl
    nI := le_rfl
    nS := by show h.nS ≤ h.nS + 1; omega
    note_eq := fun _ _ _ => rfl
    list_eq := fun _ _ _ => rfl
    seq_eq := fun i hi hn => by
      show (if i = h.nS then x else h.seq i) = _
      rw [if_neg (by omega)]
    instr_eq := fun _ _ => rfl
    rN := fun r h' => by
      left
      rcases h' with h' | ⟨m, hm, e⟩
      · exact .inl h'
      · exact .inr ⟨m, rl m hm, e⟩
    rL := fun l h' => .inl (rl l h')
    rS := fun s h' => by
      rcases List.mem_append.1 h' with h' | h'
      · exact .inl h'
      · rw [List.mem_singleton] at h'; exact .inr (by omega)
    wf := by
      refine ⟨?_, w.lists⟩
      intro t ht
      have ht' : t < h.nS + 1 := ht
      show (if t = h.nS then x else h.seq t).notes < h.nL ∧ (if t = h.nS then x else h.seq t).drums < h.nL ∧
        (if t = h.nS then x else h.seq t).instr < h.nI
      split
      · exact ⟨reachL_lt w o h1, reachL_lt w o h2, h3⟩
      · exact w.seqs t (by omega)
    ok := by
      refine ⟨o.notes, o.lists, ?_⟩
      intro s hs
      show s < h.nS + 1
      rcases List.mem_append.1 hs with h' | h'
      · have := o.seqs s h'; omega
      · rw [List.mem_singleton] at h'; omega }

/-! ## Every method is a step -/

theorem reachL_notes {s : Nat} (hs : s ∈ c.seqs) : ReachL c h (h.seq s).notes := .inr ⟨s, hs, .inl rfl⟩
theorem reachL_drums {s : Nat} (hs : s ∈ c.seqs) : ReachL c h (h.seq s).drums := .inr ⟨s, hs, .inr rfl⟩

theorem reachL_vis {s : Nat} (hs : s ∈ c.seqs) : ReachL c h (h.vis s) := by
  unfold Heap.vis; split
  · exact reachL_drums hs
  · exact reachL_notes hs

theorem reachN_refs {s : Nat} (hs : s ∈ c.seqs) : ∀ r ∈ h.refs s, ReachN c h r :=
  fun _ hr => .inr ⟨h.vis s, reachL_vis hs, hr⟩

theorem Step.setTotal (w : h.WF) (o : c.Ok h) {s : Nat} (hs : s ∈ c.seqs) (v : ℚ) :
    Step c h c (h.setTotal s v) :=
  Step.setSeq w o s _ hs (reachL_notes hs) (reachL_drums hs) (w.seqs s (o.seqs s hs)).2.2

theorem Step.then {c1 c2 : Client} {h1 h2 : Heap} (a : Step c h c1 h1)
    (b : h1.WF → c1.Ok h1 → Step c1 h1 c2 h2) : Step c h c2 h2 := a.trans (b a.wf a.ok)

theorem Step.adjustTotal (w : h.WF) (o : c.Ok h) {s : Nat} (hs : s ∈ c.seqs) : Step c h c (h.adjustTotal s) :=
  Step.setTotal w o hs _

theorem Step.setNotesRef (w : h.WF) (o : c.Ok h) {s l : Nat} (hs : s ∈ c.seqs) (hl : ReachL c h l) :
    Step c h c (h.setNotesRef s l) := by
  unfold Heap.setNotesRef
  refine Step.then (c1 := c) (Step.setSeq w o s _ hs ?_ ?_ ?_) (fun w' o' => Step.setTotal w' o' hs _)
  · split
    · exact reachL_notes hs
    · exact hl
  · split
    · exact hl
    · exact reachL_drums hs
  · split <;> exact (w.seqs s (o.seqs s hs)).2.2

theorem Step.forEach (f : Note → Note) : ∀ (rs : List Nat) (h : Heap), h.WF → c.Ok h →
    (∀ r ∈ rs, ReachN c h r) → Step c h c (Heap.forEach f rs h) := by
  intro rs
  induction rs with
  | nil => intro h w o _; exact Step.refl w o
  | cons r rs ih =>
    intro h w o hr
    refine Step.then (Step.setNote w o r _ (hr r (by simp))) (fun w' o' => ih _ w' o' ?_)
    intro x hx
    exact hr x (List.mem_cons_of_mem _ hx)

/-- Dropping the registers used in between. -/
theorem Step.drop {c1 : Client} {h1 : Heap} (a : Step c h c1 h1) (c' : Client)
    (hn : ∀ r ∈ c'.notes, ReachN c1 h1 r) (hl : ∀ l ∈ c'.lists, ReachL c1 h1 l)
    (hs : ∀ s ∈ c'.seqs, s ∈ c1.seqs) : Step c h c' h1 :=
  a.trans (Step.regs a.wf a.ok c' hn hl hs)

theorem Step.build (w : h.WF) (o : c.Ok h) (ns ds : List Nat) (i : Nat) (t : ℚ)
    (hn : ∀ r ∈ ns, ReachN c h r) (hd : ∀ r ∈ ds, ReachN c h r) (hi : i < h.nI) :
    Step c h { c with seqs := c.seqs ++ [h.nS] } (h.build ns ds i t) := by
  unfold Heap.build
  have s1 := Step.allocList w o ns hn
  have hd' : ∀ r ∈ ds, ReachN { c with lists := c.lists ++ [h.nL] } (h.allocList ns) r := by
    intro r hr
    rcases hd r hr with h' | ⟨l, hl, e⟩
    · exact .inl h'
    · have hlt := reachL_lt w o hl
      refine .inr ⟨l, ?_, ?_⟩
      · rcases hl with hl | hl
        · exact .inl (List.mem_append_left _ hl)
        · exact .inr hl
      · show r ∈ (if l = h.nL then ns else h.list l)
        rw [if_neg (by omega)]; exact e
  have s2 := s1.then (fun w' o' => Step.allocList w' o' ds hd')
  have s3 := s2.then (fun w' o' => Step.allocSeq w' o' ⟨h.nL, h.nL + 1, i, t⟩
    (.inl (by show h.nL ∈ (c.lists ++ [h.nL]) ++ [h.nL + 1]; simp))
    (.inl (by show h.nL + 1 ∈ (c.lists ++ [h.nL]) ++ [h.nL + 1]; simp)) hi)
  refine s3.drop _ (fun r hr => .inl hr) (fun l hl => ?_) (fun s hs => hs)
  exact .inl (List.mem_append_left _ (List.mem_append_left _ hl))

theorem Step.construct (w : h.WF) (o : c.Ok h) (rs : List Nat) (i : Nat)
    (hn : ∀ r ∈ rs, ReachN c h r) (hi : i < h.nI) :
    Step c h { c with seqs := c.seqs ++ [h.nS] } (h.construct rs i) := by
  unfold Heap.construct
  split
  · exact Step.build w o _ _ _ _ (by simp) hn hi
  · exact Step.build w o _ _ _ _ hn (by simp) hi

theorem Step.fromNotes (w : h.WF) (o : c.Ok h) (l : Nat) (hl : ReachL c h l) :
    Step c h { c with seqs := c.seqs ++ [h.nS] } (h.fromNotes l) := by
  unfold Heap.fromNotes
  have s1 := Step.allocInstr w o Heap.generic
  have s2 := s1.then (fun w' o' => Step.allocList w' o' [] (by simp))
  have s3 := s2.then (fun w' o' => Step.allocSeq w' o'
    ⟨l, h.nL, h.nI, max 0 (maxEnd ((h.list l).map h.note))⟩
    (by
      rcases hl with hl | hl
      · exact .inl (List.mem_append_left _ hl)
      · exact .inr hl)
    (.inl (by show h.nL ∈ c.lists ++ [h.nL]; simp))
    (by show h.nI < h.nI + 1; omega))
  refine s3.drop _ (fun r hr => .inl hr) (fun l hl => ?_) (fun s hs => hs)
  exact .inl (List.mem_append_left _ hl)

theorem mem_pyTake {α : Type} {l : List α} {k : Int} {x : α} (hx : x ∈ pyTake l k) : x ∈ l := by
  unfold pyTake at hx; split at hx <;> exact List.mem_of_mem_take hx

theorem Step.append (w : h.WF) (o : c.Ok h) {s : Nat} (hs : s ∈ c.seqs) (rs : List Nat)
    (hr : ∀ r ∈ rs, ReachN c h r) : Step c h c (h.append s rs) := by
  unfold Heap.append
  split
  · exact Step.refl w o
  · refine Step.then (Step.setList w o _ _ (reachL_vis hs) ?_) (fun w' o' => Step.setTotal w' o' hs _)
    intro r hr'
    rcases List.mem_append.1 hr' with h' | h'
    · exact reachN_refs hs r h'
    · exact hr r h'

theorem Step.addNote (w : h.WF) (o : c.Ok h) {s r : Nat} (hs : s ∈ c.seqs) (hr : ReachN c h r) :
    Step c h c (h.addNote s r) := by
  unfold Heap.addNote
  dsimp only
  split
  · exact Step.refl w o
  · have hl : ReachL c h (if (h.note r).isDrum then (h.seq s).drums else (h.seq s).notes) := by
      split
      · exact reachL_drums hs
      · exact reachL_notes hs
    refine Step.then (Step.setList w o _ _ hl ?_) (fun w' o' => Step.setTotal w' o' hs _)
    intro x hx
    rcases List.mem_append.1 hx with h' | h'
    · exact .inr ⟨_, hl, h'⟩
    · rw [List.mem_singleton] at h'; subst h'; exact hr

theorem Step.insert (w : h.WF) (o : c.Ok h) {s r : Nat} (hs : s ∈ c.seqs) (hr : ReachN c h r) :
    Step c h c (h.insert s r) := by
  unfold Heap.insert
  refine Step.then (Step.setList w o _ _ (reachL_vis hs) ?_) (fun w' o' => Step.adjustTotal w' o' hs)
  intro x hx
  rw [(insortLeft_perm _ _ _).mem_iff] at hx
  rcases List.mem_cons.1 hx with rfl | hx
  · exact hr
  · exact reachN_refs hs x hx

theorem Step.asNoteSeq (w : h.WF) (o : c.Ok h) {s : Nat} (hs : s ∈ c.seqs) : Step c h c (h.asNoteSeq s) := by
  unfold Heap.asNoteSeq
  refine Step.setList w o _ _ (reachL_vis hs) ?_
  intro x hx
  rw [(sortByKey_perm _ _).mem_iff] at hx
  exact reachN_refs hs x hx

theorem Step.stretch (w : h.WF) (o : c.Ok h) {s : Nat} (hs : s ∈ c.seqs) (k : ℚ) :
    Step c h c (h.stretch s k) := by
  unfold Heap.stretch
  exact Step.then (Step.forEach _ _ h w o (reachN_refs hs)) (fun w' o' => Step.adjustTotal w' o' hs)

theorem Step.shiftTimes (w : h.WF) (o : c.Ok h) {s : Nat} (hs : s ∈ c.seqs) (d : ℚ) :
    Step c h c (h.shiftTimes s d) := by
  unfold Heap.shiftTimes
  split
  · exact Step.refl w o
  · exact Step.then (Step.forEach _ _ h w o (reachN_refs hs)) (fun w' o' => Step.setTotal w' o' hs _)

theorem Step.quantize (w : h.WF) (o : c.Ok h) {s : Nat} (hs : s ∈ c.seqs) (sps : Int) (a : ℚ) :
    Step c h c (h.quantize s sps a) := by
  unfold Heap.quantize
  split
  · exact Step.refl w o
  · rename_i ms _
    have s1 := Step.allocNotes w o ms
    have s2 := s1.then (fun w' o' => Step.allocList w' o' (List.range' h.nN ms.length)
      (fun r hr => .inl (List.mem_append_right _ hr)))
    have s3 := s2.then (fun w' o' => Step.setNotesRef w' o' (s := s) (l := h.nL) hs
      (.inl (by show h.nL ∈ c.lists ++ [h.nL]; simp)))
    refine s3.drop c (fun r hr => .inl (List.mem_append_left _ hr)) (fun l hl => .inl (List.mem_append_left _ hl))
      (fun s hs => hs)

theorem Step.cutInPlace (w : h.WF) (o : c.Ok h) {s : Nat} (hs : s ∈ c.seqs) (k : Int) :
    Step c h c (h.cutInPlace s k) := by
  unfold Heap.cutInPlace
  have s1 := Step.allocList w o (pyTake (h.refs s) k) (fun r hr => reachN_refs hs r (mem_pyTake hr))
  have s2 := s1.then (fun w' o' => Step.setNotesRef w' o' (s := s) (l := h.nL) hs
      (.inl (by show h.nL ∈ c.lists ++ [h.nL]; simp)))
  exact s2.drop c (fun r hr => .inl hr) (fun l hl => .inl (List.mem_append_left _ hl)) (fun s hs => hs)

theorem Step.merge (srt : (Nat → Nat → Bool) → List Nat → List Nat) (hsrt : ∀ lt l, (srt lt l).Perm l)
    (w : h.WF) (o : c.Ok h) {s t : Nat} (hs : s ∈ c.seqs) (ht : t ∈ c.seqs) :
    Step c h c (h.merge srt s t) := by
  unfold Heap.merge
  dsimp only
  split
  · exact Step.refl w o
  · split
    · exact Step.refl w o
    · split
      · exact Step.refl w o
      · have s1 := Step.allocList w o ((srt (fun a b => (h.note a).lt (h.note b))
          (h.refs s ++ h.refs t)).foldl (insortLeft (fun a b => (h.note a).lt (h.note b))) []) (by
            intro r hr
            rw [(foldl_insortLeft_perm _ _ _).mem_iff] at hr
            rw [List.append_nil, (hsrt _ _).mem_iff] at hr
            rcases List.mem_append.1 hr with h' | h'
            · exact reachN_refs hs r h'
            · exact reachN_refs ht r h')
        have s2 := s1.then (fun w' o' => Step.setNotesRef w' o' (s := s) (l := h.nL) hs
          (.inl (by show h.nL ∈ c.lists ++ [h.nL]; simp)))
        exact s2.drop c (fun r hr => .inl hr) (fun l hl => .inl (List.mem_append_left _ hl)) (fun s hs => hs)

theorem Step.truncate (w : h.WF) (o : c.Ok h) {s : Nat} (hs : s < h.nS) (t : ℚ) :
    Step c h { c with seqs := c.seqs ++ [h.nS] } (h.truncate s t) := by
  unfold Heap.truncate
  dsimp only
  generalize (h.view s).filter (fun n => decide (n.stop ≤ t)) = ns
  have s1 := Step.allocNotes w o ns
  have s2 := s1.then (fun w' o' => Step.construct w' o' (List.range' h.nN ns.length) (h.seq s).instr
      (fun r hr => .inl (List.mem_append_right _ hr)) (w.seqs s hs).2.2)
  have s3 := s2.then (fun w' o' => Step.setTotal w' o' (s := h.nS) (by
    show h.nS ∈ c.seqs ++ [h.nS]; simp) (min (h.total s) t))
  exact s3.drop _ (fun r hr => .inl (List.mem_append_left _ hr)) (fun l hl => .inl hl) (fun s hs => hs)

theorem Step.clone (w : h.WF) (o : c.Ok h) {s : Nat} (hs : s < h.nS) :
    Step c h { c with seqs := c.seqs ++ [h.nS] } (h.clone s) := by
  unfold Heap.clone
  dsimp only
  have s1 := Step.allocNotes w o ((h.list (h.seq s).notes).dedup.map h.note)
  have s2 := s1.then (fun w' o' => Step.build w' o'
    ((h.list (h.seq s).notes).map (fun r => h.nN + (h.list (h.seq s).notes).dedup.idxOf r)) [] (h.seq s).instr
    (max 0 (h.total s)) (by
      intro r hr
      obtain ⟨x, hx, rfl⟩ := List.mem_map.1 hr
      have := List.idxOf_lt_length_of_mem (List.mem_dedup.2 hx)
      refine .inl (List.mem_append_right _ ?_)
      rw [List.mem_range'_1, List.length_map]
      omega) (by simp) (w.seqs s hs).2.2)
  exact s2.drop _ (fun r hr => .inl (List.mem_append_left _ hr)) (fun l hl => .inl hl) (fun s hs => hs)

theorem sliceLoop_mem (num : Int) (a b : ℚ) : ∀ (rs : List Nat) (ns ds : List Nat) (t : ℚ) (r : List Nat × List Nat × ℚ),
    Heap.sliceLoop h num a b rs (ns, ds, t) = .ok r →
    (∀ x ∈ r.1, x ∈ ns ∨ x ∈ rs) ∧ ∀ x ∈ r.2.1, x ∈ ds ∨ x ∈ rs := by
  intro rs
  induction rs with
  | nil => intro ns ds t r e; cases e; exact ⟨fun x hx => .inl hx, fun x hx => .inl hx⟩
  | cons y rs ih =>
    intro ns ds t r e
    unfold Heap.sliceLoop at e
    dsimp only at e
    split at e
    · obtain ⟨h1, h2⟩ := ih _ _ _ _ e
      exact ⟨fun x hx => (h1 x hx).imp id (List.mem_cons_of_mem _), fun x hx => (h2 x hx).imp id (List.mem_cons_of_mem _)⟩
    · split at e
      · cases e
      · split at e
        · cases e
        · split at e
          · obtain ⟨h1, h2⟩ := ih _ _ _ _ e
            refine ⟨fun x hx => (h1 x hx).imp id (List.mem_cons_of_mem _), fun x hx => ?_⟩
            rcases h2 x hx with h' | h'
            · rcases List.mem_append.1 h' with h' | h'
              · exact .inl h'
              · rw [List.mem_singleton] at h'; subst h'; exact .inr (by simp)
            · exact .inr (List.mem_cons_of_mem _ h')
          · obtain ⟨h1, h2⟩ := ih _ _ _ _ e
            refine ⟨fun x hx => ?_, fun x hx => (h2 x hx).imp id (List.mem_cons_of_mem _)⟩
            rcases h1 x hx with h' | h'
            · rcases List.mem_append.1 h' with h' | h'
              · exact .inl h'
              · rw [List.mem_singleton] at h'; subst h'; exact .inr (by simp)
            · exact .inr (List.mem_cons_of_mem _ h')

theorem gotSeq_of (c : Client) (h h' : Heap) (e : h'.nS = h.nS + 1) :
    c.gotSeq h h' = { c with seqs := c.seqs ++ [h.nS] } := by
  unfold Client.gotSeq; rw [if_pos (by omega)]

theorem gotSeq_same (c : Client) (h : Heap) : c.gotSeq h h = c := by
  unfold Client.gotSeq; rw [if_neg (by omega)]

theorem Step.slice (w : h.WF) (o : c.Ok h) {s : Nat} (hs : s ∈ c.seqs) (a b : ℚ) :
    Step c h (c.gotSeq h (h.slice s a b)) (h.slice s a b) := by
  unfold Heap.slice
  split
  · rw [gotSeq_same]; exact Step.refl w o
  · rename_i ns ds t e
    rw [gotSeq_of _ _ _ rfl]
    obtain ⟨h1, h2⟩ := sliceLoop_mem _ _ _ _ _ _ _ _ e
    refine Step.build w o _ _ _ _ (fun r hr => ?_) (fun r hr => ?_) (w.seqs s (o.seqs s hs)).2.2
    · rcases h1 r hr with h' | h'
      · cases h'
      · exact reachN_refs hs r h'
    · rcases h2 r hr with h' | h'
      · cases h'
      · exact reachN_refs hs r h'

theorem construct_nS (h : Heap) (rs : List Nat) (i : Nat) : (h.construct rs i).nS = h.nS + 1 := by
  unfold Heap.construct; split <;> rfl

theorem Step.cut (w : h.WF) (o : c.Ok h) {s : Nat} (hs : s ∈ c.seqs) (k : Int) :
    Step c h (c.gotSeq h (h.cut s k)) (h.cut s k) := by
  unfold Heap.cut
  dsimp only
  split
  · rw [gotSeq_same]; exact Step.refl w o
  · rename_i r0 _
    have e : ((h.construct (pyTake (h.refs s) k) (h.seq s).instr).setTotal h.nS
        (min (h.total s) (h.note r0).stop)).nS = h.nS + 1 := construct_nS _ _ _
    rw [gotSeq_of _ _ _ e]
    refine Step.then (Step.construct w o _ _ (fun r hr => reachN_refs hs r (mem_pyTake hr))
      (w.seqs s (o.seqs s hs)).2.2) (fun w' o' => Step.setTotal w' o' ?_ _)
    show h.nS ∈ c.seqs ++ [h.nS]; simp

end prim

/-- Every command of every client is a step. -/
theorem Cmd.step (srt : (Nat → Nat → Bool) → List Nat → List Nat) (hsrt : ∀ lt l, (srt lt l).Perm l)
    (c : Client) (h : Heap) (w : h.WF) (o : c.Ok h) (cmd : Cmd) :
    Step c h (cmd.exec srt c h).1 (cmd.exec srt c h).2 := by
  have fm : ∀ ns : List Nat, ∀ r ∈ ns.filterMap (fun i => c.notes[i]?), ReachN c h r := by
    intro ns r hr
    obtain ⟨i, _, e⟩ := List.mem_filterMap.1 hr
    exact .inl (List.mem_of_getElem? e)
  cases cmd with
  | newNote n =>
    have := Step.allocNotes w o [n]
    simpa [Cmd.exec] using this
  | newList ns => exact Step.allocList w o _ (fm ns)
  | mutNote n f =>
    simp only [Cmd.exec]; split
    · rename_i r e; exact Step.setNote w o r _ (.inl (List.mem_of_getElem? e))
    · exact Step.refl w o
  | mutList l ns =>
    simp only [Cmd.exec]; split
    · rename_i r e; exact Step.setList w o r _ (.inl (List.mem_of_getElem? e)) (fm ns)
    · exact Step.refl w o
  | getItem l i =>
    simp only [Cmd.exec]; split
    · rename_i r e
      split
      · rename_i n e'
        refine Step.regs w o _ (fun x hx => ?_) (fun x hx => .inl hx) (fun x hx => hx)
        rcases List.mem_append.1 hx with hx | hx
        · exact .inl hx
        · rw [List.mem_singleton] at hx; subst hx
          exact .inr ⟨r, .inl (List.mem_of_getElem? e), List.mem_of_getElem? e'⟩
      · exact Step.refl w o
    · exact Step.refl w o
  | getNotes s =>
    simp only [Cmd.exec]; split
    · rename_i r e
      refine Step.regs w o _ (fun x hx => .inl hx) (fun x hx => ?_) (fun x hx => hx)
      rcases List.mem_append.1 hx with hx | hx
      · exact .inl hx
      · rw [List.mem_singleton] at hx; subst hx
        exact reachL_vis (List.mem_of_getElem? e)
    · exact Step.refl w o
  | setNotes s l =>
    simp only [Cmd.exec]; split
    · rename_i r m e e'
      exact Step.setNotesRef w o (List.mem_of_getElem? e) (.inl (List.mem_of_getElem? e'))
    · exact Step.refl w o
  | setTotal s v =>
    simp only [Cmd.exec]; split
    · rename_i r e; exact Step.setTotal w o (List.mem_of_getElem? e) v
    · exact Step.refl w o
  | construct l x =>
    simp only [Cmd.exec]; split
    · rename_i r e
      have e1 : ((h.allocInstr x).construct (h.list r) h.nI).nS = h.nS + 1 := construct_nS (h.allocInstr x) _ _
      dsimp only
      rw [gotSeq_of _ _ _ e1]
      refine (Step.allocInstr w o x).then (fun w' o' => Step.construct w' o' (h.list r) h.nI ?_ ?_)
      · intro y hy; exact .inr ⟨r, .inl (List.mem_of_getElem? e), hy⟩
      · show h.nI < h.nI + 1; omega
    · exact Step.refl w o
  | fromNotes l =>
    simp only [Cmd.exec]; split
    · rename_i r e
      rw [gotSeq_of _ _ _ rfl]
      exact Step.fromNotes w o r (.inl (List.mem_of_getElem? e))
    · exact Step.refl w o
  | append s n =>
    simp only [Cmd.exec]; split
    · rename_i r m e e'
      refine (Step.append w o (List.mem_of_getElem? e) [m] ?_ : Step c h c (h.append r [m]))
      intro x hx; rw [List.mem_singleton] at hx; subst hx; exact .inl (List.mem_of_getElem? e')
    · exact Step.refl w o
  | extend s l =>
    simp only [Cmd.exec]; split
    · rename_i r m e e'
      exact Step.append w o (List.mem_of_getElem? e) _ (fun x hx => .inr ⟨m, .inl (List.mem_of_getElem? e'), hx⟩)
    · exact Step.refl w o
  | addNote s n =>
    simp only [Cmd.exec]; split
    · rename_i r m e e'
      exact Step.addNote w o (List.mem_of_getElem? e) (.inl (List.mem_of_getElem? e'))
    · exact Step.refl w o
  | insert s n =>
    simp only [Cmd.exec]; split
    · rename_i r m e e'
      exact Step.insert w o (List.mem_of_getElem? e) (.inl (List.mem_of_getElem? e'))
    · exact Step.refl w o
  | asNoteSeq s =>
    simp only [Cmd.exec]; split
    · rename_i r e; exact Step.asNoteSeq w o (List.mem_of_getElem? e)
    · exact Step.refl w o
  | stretch s k =>
    simp only [Cmd.exec]; split
    · rename_i r e; exact Step.stretch w o (List.mem_of_getElem? e) k
    · exact Step.refl w o
  | shiftTimes s d =>
    simp only [Cmd.exec]; split
    · rename_i r e; exact Step.shiftTimes w o (List.mem_of_getElem? e) d
    · exact Step.refl w o
  | quantize s sps a =>
    simp only [Cmd.exec]; split
    · rename_i r e; exact Step.quantize w o (List.mem_of_getElem? e) sps a
    · exact Step.refl w o
  | cutInPlace s k =>
    simp only [Cmd.exec]; split
    · rename_i r e; exact Step.cutInPlace w o (List.mem_of_getElem? e) k
    · exact Step.refl w o
  | merge s t =>
    simp only [Cmd.exec]; split
    · rename_i r m e e'
      exact Step.merge srt hsrt w o (List.mem_of_getElem? e) (List.mem_of_getElem? e')
    · exact Step.refl w o
  | truncate s t =>
    simp only [Cmd.exec]; split
    · rename_i r e
      rw [gotSeq_of _ _ _ (by exact construct_nS _ _ _)]
      exact Step.truncate w o (o.seqs _ (List.mem_of_getElem? e)) t
    · exact Step.refl w o
  | clone s =>
    simp only [Cmd.exec]; split
    · rename_i r e
      rw [gotSeq_of _ _ _ rfl]
      exact Step.clone w o (o.seqs _ (List.mem_of_getElem? e))
    · exact Step.refl w o
  | slice s a b =>
    simp only [Cmd.exec]; split
    · rename_i r e; exact Step.slice w o (List.mem_of_getElem? e) a b
    · exact Step.refl w o
  | cut s k =>
    simp only [Cmd.exec]; split
    · rename_i r e; exact Step.cut w o (List.mem_of_getElem? e) k
    · exact Step.refl w o

/-! ## Separation -/

/-- Two clients that can reach no common object (instruments apart). -/
structure Spec.Separate2 (a b : Client) (h : Heap) : Prop where
  notes : ∀ r, ¬ (ReachN a h r ∧ ReachN b h r)
  lists : ∀ l, ¬ (ReachL a h l ∧ ReachL b h l)
  seqs : ∀ s, ¬ (s ∈ a.seqs ∧ s ∈ b.seqs)

open Spec (Separate2)

theorem Separate2.symm {a b : Client} {h : Heap} (x : Separate2 a b h) : Separate2 b a h :=
  ⟨fun r hr => x.notes r hr.symm, fun r hr => x.lists r hr.symm, fun r hr => x.seqs r hr.symm⟩

/-- A sequence as seen from outside: notes, total time, instrument. -/
def Spec.SameSeq (h h' : Heap) (s : Nat) : Prop :=
  h'.view s = h.view s ∧ h'.total s = h.total s ∧ h'.info s = h.info s

theorem Step.separate {a a' b : Client} {h h' : Heap} (st : Step a h a' h') (w : h.WF)
    (ob : b.Ok h) (x : Separate2 a b h) :
    Separate2 a' b h' ∧ b.Ok h' ∧ (∀ r, ReachN b h' r → ReachN b h r) ∧
    (∀ r, ReachN b h r → h'.note r = h.note r) ∧ ∀ s ∈ b.seqs, Spec.SameSeq h h' s := by
  have eS : ∀ s ∈ b.seqs, h'.seq s = h.seq s :=
    fun s hs => st.seq_eq s (ob.seqs s hs) (fun hc => x.seqs s ⟨hc, hs⟩)
  have rL : ∀ l, ReachL b h' l ↔ ReachL b h l := by
    intro l
    constructor
    · rintro (hl | ⟨s, hs, e⟩)
      · exact .inl hl
      · rw [eS s hs] at e; exact .inr ⟨s, hs, e⟩
    · rintro (hl | ⟨s, hs, e⟩)
      · exact .inl hl
      · rw [← eS s hs] at e; exact .inr ⟨s, hs, e⟩
  have eL : ∀ l, ReachL b h l → h'.list l = h.list l :=
    fun l hl => st.list_eq l (reachL_lt w ob hl) (fun hc => x.lists l ⟨hc, hl⟩)
  have rN : ∀ r, ReachN b h' r ↔ ReachN b h r := by
    intro r
    constructor
    · rintro (hr | ⟨l, hl, e⟩)
      · exact .inl hr
      · have hl' := (rL l).1 hl
        rw [eL l hl'] at e; exact .inr ⟨l, hl', e⟩
    · rintro (hr | ⟨l, hl, e⟩)
      · exact .inl hr
      · rw [← eL l hl] at e; exact .inr ⟨l, (rL l).2 hl, e⟩
  have eN : ∀ r, ReachN b h r → h'.note r = h.note r :=
    fun r hr => st.note_eq r (reachN_lt w ob hr) (fun hc => x.notes r ⟨hc, hr⟩)
  refine ⟨⟨?_, ?_, ?_⟩, ⟨?_, ?_, ?_⟩, fun r hr => (rN r).1 hr, eN, ?_⟩
  · rintro r ⟨h1, h2⟩
    have h2' := (rN r).1 h2
    rcases st.rN r h1 with h1 | h1
    · exact x.notes r ⟨h1, h2'⟩
    · have := reachN_lt w ob h2'; omega
  · rintro l ⟨h1, h2⟩
    have h2' := (rL l).1 h2
    rcases st.rL l h1 with h1 | h1
    · exact x.lists l ⟨h1, h2'⟩
    · have := reachL_lt w ob h2'; omega
  · rintro s ⟨h1, h2⟩
    rcases st.rS s h1 with h1 | h1
    · exact x.seqs s ⟨h1, h2⟩
    · have := ob.seqs s h2; omega
  · intro r hr; exact lt_of_lt_of_le (ob.notes r hr) st.nN
  · intro r hr; exact lt_of_lt_of_le (ob.lists r hr) st.nL
  · intro r hr; exact lt_of_lt_of_le (ob.seqs r hr) st.nS
  · intro s hs
    have hlt := ob.seqs s hs
    have ei : h'.info s = h.info s := by
      unfold Heap.info; rw [eS s hs]; exact st.instr_eq _ (w.seqs s hlt).2.2
    have ev : h'.vis s = h.vis s := by unfold Heap.vis; rw [ei, eS s hs]
    have er : h'.refs s = h.refs s := by
      unfold Heap.refs; rw [ev]; exact eL _ (reachL_vis hs)
    refine ⟨?_, ?_, ei⟩
    · unfold Heap.view; rw [er]
      apply List.map_congr_left
      intro r hr; exact eN r (reachN_refs hs r hr)
    · unfold Heap.total; rw [eS s hs]

theorem run_separate (srt : (Nat → Nat → Bool) → List Nat → List Nat) (hsrt : ∀ lt l, (srt lt l).Perm l) :
    ∀ (prog : List Cmd) (a b : Client) (h : Heap), h.WF → a.Ok h → b.Ok h → Separate2 a b h →
      ∀ s ∈ b.seqs, Spec.SameSeq h (Client.run srt a h prog).2 s := by
  intro prog
  induction prog with
  | nil => intro a b h _ _ _ _ s _; exact ⟨rfl, rfl, rfl⟩
  | cons cmd rest ih =>
    intro a b h w oa ob x s hs
    have st := Cmd.step srt hsrt a h w oa cmd
    obtain ⟨x', ob', _, _, same⟩ := st.separate w ob x
    obtain ⟨e1, e2, e3⟩ := ih _ b _ st.wf st.ok ob' x' s hs
    obtain ⟨f1, f2, f3⟩ := same s hs
    exact ⟨e1.trans f1, e2.trans f2, e3.trans f3⟩

theorem runTwo_separate (srt : (Nat → Nat → Bool) → List Nat → List Nat) (hsrt : ∀ lt l, (srt lt l).Perm l) :
    ∀ (prog : List (Bool × Cmd)) (a b : Client) (h : Heap), h.WF → a.Ok h → b.Ok h → Separate2 a b h →
      let r := runTwo srt a b h prog
      r.2.2.WF ∧ r.1.Ok r.2.2 ∧ r.2.1.Ok r.2.2 ∧ Separate2 r.1 r.2.1 r.2.2 := by
  intro prog
  induction prog with
  | nil => intro a b h w oa ob x; exact ⟨w, oa, ob, x⟩
  | cons p rest ih =>
    intro a b h w oa ob x
    obtain ⟨turn, cmd⟩ := p
    cases turn with
    | true =>
      have st := Cmd.step srt hsrt a h w oa cmd
      obtain ⟨x', ob', _, _, _⟩ := st.separate w ob x
      exact ih _ _ _ st.wf st.ok ob' x'
    | false =>
      have st := Cmd.step srt hsrt b h w ob cmd
      obtain ⟨x', oa', _, _, _⟩ := st.separate w oa (Separate2.symm x)
      exact ih _ _ _ st.wf oa' st.ok (Separate2.symm x')

/-! ## C117 -/

/-- The client that holds one sequence and nothing else. -/
def Spec.holder (s : Nat) : Client := ⟨[], [], [s]⟩

/-- The client that holds every object of a heap. -/
def Spec.everything (h : Heap) : Client := ⟨List.range h.nN, List.range h.nL, List.range h.nS⟩

theorem everything_ok (h : Heap) : (Spec.everything h).Ok h :=
  ⟨fun _ hr => List.mem_range.1 hr, fun _ hr => List.mem_range.1 hr, fun _ hr => List.mem_range.1 hr⟩

theorem fresh_separate {h h' : Heap} (st : Step ⟨[], [], []⟩ h (Spec.holder h.nS) h') (w : h.WF) :
    Separate2 (Spec.holder h.nS) (Spec.everything h) h' ∧ (Spec.everything h).Ok h' ∧
    ∀ s < h.nS, Spec.SameSeq h h' s := by
  have x : Separate2 ⟨[], [], []⟩ (Spec.everything h) h := by
    refine ⟨?_, ?_, ?_⟩
    · rintro r ⟨h1 | ⟨l, h1 | ⟨s, h1, _⟩, _⟩, _⟩ <;> cases h1
    · rintro l ⟨h1 | ⟨s, h1, _⟩, _⟩ <;> cases h1
    · rintro s ⟨h1, _⟩; cases h1
  obtain ⟨a, b, _, _, d⟩ := st.separate w (everything_ok h) x
  exact ⟨a, b, fun s hs => d s (List.mem_range.2 hs)⟩

theorem clone_step (h : Heap) (w : h.WF) (s : Nat) (hs : s < h.nS) :
    Step ⟨[], [], []⟩ h (Spec.holder h.nS) (h.clone s) :=
  Step.clone w ⟨by simp, by simp, by simp⟩ hs

theorem truncate_step (h : Heap) (w : h.WF) (s : Nat) (hs : s < h.nS) (t : ℚ) :
    Step ⟨[], [], []⟩ h (Spec.holder h.nS) (h.truncate s t) :=
  Step.truncate w ⟨by simp, by simp, by simp⟩ hs t

/-- **C117, a copy cannot be used to change anything else.** Take any sequence `s` of any heap without dangling
references, and its `clone()` or `truncate(t)`. Whatever program is then run by code that holds only the copy —
calling any methods, changing any notes and lists it can get at — no sequence that existed before changes in
notes, total time or instrument. -/
theorem C117_copy_isolated (srt : (Nat → Nat → Bool) → List Nat → List Nat) (hsrt : ∀ lt l, (srt lt l).Perm l)
    (h : Heap) (w : h.WF) (s : Nat) (hs : s < h.nS) (t : ℚ) (prog : List Cmd) (x : Nat) (hx : x < h.nS) :
    Spec.SameSeq h (Client.run srt (Spec.holder h.nS) (h.clone s) prog).2 x ∧
    Spec.SameSeq h (Client.run srt (Spec.holder h.nS) (h.truncate s t) prog).2 x := by
  have key : ∀ h', Step ⟨[], [], []⟩ h (Spec.holder h.nS) h' →
      Spec.SameSeq h (Client.run srt (Spec.holder h.nS) h' prog).2 x := by
    intro h' st
    obtain ⟨sep, ob, same⟩ := fresh_separate st w
    obtain ⟨e1, e2, e3⟩ := run_separate srt hsrt prog _ _ h' st.wf st.ok ob sep x (List.mem_range.2 hx)
    obtain ⟨f1, f2, f3⟩ := same x hx
    exact ⟨e1.trans f1, e2.trans f2, e3.trans f3⟩
  exact ⟨key _ (clone_step h w s hs), key _ (truncate_step h w s hs t)⟩

/-- **C117, a copy cannot be changed through anything else.** Code that holds every object that existed before
the copy was made (but not the copy) cannot change the notes, total time or instrument of the copy, whatever it
does. -/
theorem C117_copy_safe (srt : (Nat → Nat → Bool) → List Nat → List Nat) (hsrt : ∀ lt l, (srt lt l).Perm l)
    (h : Heap) (w : h.WF) (s : Nat) (hs : s < h.nS) (t : ℚ) (prog : List Cmd) :
    Spec.SameSeq (h.clone s) (Client.run srt (Spec.everything h) (h.clone s) prog).2 h.nS ∧
    Spec.SameSeq (h.truncate s t) (Client.run srt (Spec.everything h) (h.truncate s t) prog).2 h.nS := by
  have key : ∀ h', Step ⟨[], [], []⟩ h (Spec.holder h.nS) h' →
      Spec.SameSeq h' (Client.run srt (Spec.everything h) h' prog).2 h.nS := by
    intro h' st
    obtain ⟨sep, ob, _⟩ := fresh_separate st w
    exact run_separate srt hsrt prog _ _ h' st.wf ob st.ok (Separate2.symm sep) h.nS
      (by show h.nS ∈ [h.nS]; simp)
  exact ⟨key _ (clone_step h w s hs), key _ (truncate_step h w s hs t)⟩

/-- **C117, taking turns.** The holder of the copy and the holder of everything else stay separate however their
commands are interleaved: after any such history, a further command of one changes no sequence of the other. -/
theorem C117_interleaved (srt : (Nat → Nat → Bool) → List Nat → List Nat) (hsrt : ∀ lt l, (srt lt l).Perm l)
    (h : Heap) (w : h.WF) (s : Nat) (hs : s < h.nS) (prog : List (Bool × Cmd)) (cmd : Cmd) :
    let r := runTwo srt (Spec.holder h.nS) (Spec.everything h) (h.clone s) prog
    (∀ x ∈ r.2.1.seqs, Spec.SameSeq r.2.2 (cmd.exec srt r.1 r.2.2).2 x) ∧
    (∀ x ∈ r.1.seqs, Spec.SameSeq r.2.2 (cmd.exec srt r.2.1 r.2.2).2 x) := by
  obtain ⟨sep, ob, _⟩ := fresh_separate (clone_step h w s hs) w
  obtain ⟨w', oa', ob', sep'⟩ := runTwo_separate srt hsrt prog _ _ _ (clone_step h w s hs).wf
    (clone_step h w s hs).ok ob sep
  intro r
  exact ⟨((Cmd.step srt hsrt _ _ w' oa' cmd).separate w' ob' sep').2.2.2.2,
    ((Cmd.step srt hsrt _ _ w' ob' cmd).separate w' oa' (Separate2.symm sep')).2.2.2.2⟩

end NGC
