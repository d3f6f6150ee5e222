import Verif.Graph
import Mathlib.Algebra.BigOperators.Group.List.Basic
import Mathlib.Data.List.Count

/-! Lemmas about the graph construction loop, and the specification vocabulary. -/

namespace NGC

namespace Spec

/-- Consecutive pairs of a sequence. -/
def transitions (l : List Int) : List (Int × Int) := l.zip l.tail

/-- The distinct members in order of first appearance. -/
def firstSeen {α : Type} [DecidableEq α] (l : List α) : List α :=
  l.foldl (fun acc x => if x ∈ acc then acc else acc ++ [x]) []

/-- How often `u` and `v` are neighbours in the sequence, in either order. -/
def adjacencies (l : List Int) (u v : Int) : Nat :=
  (transitions l).countP (fun p => decide (p = (u, v)) || decide (p = (v, u)))

end Spec

open Spec

theorem firstSeen_append {α : Type} [DecidableEq α] (l : List α) (x : α) :
    firstSeen (l ++ [x]) = if x ∈ firstSeen l then firstSeen l else firstSeen l ++ [x] := by
  unfold firstSeen
  rw [List.foldl_append]
  rfl

theorem mem_firstSeen {α : Type} [DecidableEq α] (l : List α) (x : α) : x ∈ firstSeen l ↔ x ∈ l := by
  induction l using List.reverseRecOn with
  | nil => simp [firstSeen]
  | append_singleton l y ih =>
    rw [firstSeen_append]
    split
    · rename_i h
      rw [List.mem_append, List.mem_singleton, ih]
      constructor
      · exact Or.inl
      · rintro (h' | rfl)
        · exact h'
        · exact ih.1 h
    · rw [List.mem_append, List.mem_append, ih]

theorem firstSeen_nodup {α : Type} [DecidableEq α] (l : List α) : (firstSeen l).Nodup := by
  induction l using List.reverseRecOn with
  | nil => simp [firstSeen]
  | append_singleton l y ih =>
    rw [firstSeen_append]
    split
    · exact ih
    · rename_i h
      rw [List.nodup_append]
      refine ⟨ih, by simp, ?_⟩
      intro a ha b hb
      rw [List.mem_singleton] at hb
      subst hb
      intro e; subst e; exact h ha

theorem transitions_append (l : List Int) (x : Int) :
    transitions (l ++ [x]) = match l.getLast? with
      | none => []
      | some y => transitions l ++ [(y, x)] := by
  induction l with
  | nil => rfl
  | cons a l ih =>
    cases l with
    | nil => rfl
    | cons b l =>
      have e : transitions (a :: b :: l ++ [x]) = (a, b) :: transitions (b :: l ++ [x]) := rfl
      have e2 : transitions (a :: b :: l) = (a, b) :: transitions (b :: l) := rfl
      rw [e, ih, e2, List.getLast?_cons_cons]
      cases h : (b :: l).getLast? with
      | none => simp at h
      | some y => rfl

/-- Invariants carried through a monadic fold. -/
theorem foldlM_inv {α σ : Type} (f : σ → α → Py σ) (P : List α → σ → Prop)
    (hstep : ∀ pre a s s', P pre s → f s a = .ok s' → P (pre ++ [a]) s') (l pre : List α) (s s' : σ)
    (h0 : P pre s) (h : l.foldlM f s = .ok s') : P (pre ++ l) s' := by
  induction l generalizing pre s with
  | nil => cases h; simpa using h0
  | cons a l ih =>
    rw [List.foldlM_cons] at h
    cases hf : f s a with
    | error e => rw [hf] at h; cases h
    | ok s1 =>
      rw [hf] at h
      have := ih (pre ++ [a]) s1 (hstep pre a s s1 h0 hf) h
      simpa using this

/-- A nested monadic loop is a loop over the flattened list. -/
theorem foldlM_flatMap {α β σ : Type} (f : σ → α → β → Py σ) (g : α → List β) (l : List α) (s : σ) :
    l.foldlM (fun s a => (g a).foldlM (fun s b => f s a b) s) s =
      (l.flatMap (fun a => (g a).map (fun b => (a, b)))).foldlM (fun s p => f s p.1 p.2) s := by
  induction l generalizing s with
  | nil => rfl
  | cons a l ih =>
    rw [List.foldlM_cons, List.flatMap_cons, List.foldlM_append, List.foldlM_map]
    congr 1
    funext s'
    exact ih s'

/-! ### The weight bookkeeping -/

/-- Everything known about the graph after the chords `hs` from a fresh start. -/
structure GInv (hs : List Int) (g : MGraph) (last : Option Int) : Prop where
  last_eq : last = hs.getLast?
  nodes_eq : dkeys g.nodes = firstSeen hs
  edges_nodup : (dkeys g.edges).Nodup
  ends : ∀ u v w, dget g.edges (u, v) = some w → u ∈ hs ∧ v ∈ hs
  weight : ∀ u v w, dget g.edges (u, v) = some w →
    w = (adjacencies hs u v : ℚ) + (if u = v ∧ hs.head? = some u then 1 else 0)
  covered : ∀ u v, (u, v) ∈ transitions hs →
    (∃ w, dget g.edges (u, v) = some w) ∨ (∃ w, dget g.edges (v, u) = some w)
  anti : ∀ u v w w', dget g.edges (u, v) = some w → dget g.edges (v, u) = some w' → u = v
  justified : ∀ u v w, dget g.edges (u, v) = some w →
    (u, v) ∈ transitions hs ∨ (u = v ∧ hs.head? = some u)
  head_loop : ∀ x, hs.head? = some x → ∃ w, dget g.edges (x, x) = some w
  total : (g.edges.map (·.2)).sum = (hs.length : ℚ)

theorem dset_sum {K : Type} [DecidableEq K] (d : List (K × ℚ)) (k : K) (w : ℚ) (v : ℚ)
    (h : dget d k = some w) : ((dset d k v).map (·.2)).sum = (d.map (·.2)).sum - w + v := by
  induction d with
  | nil => cases h
  | cons p d ih =>
    unfold dget at h
    unfold dset
    split at h
    · rename_i hp
      cases h
      simp [hp]; ring
    · rename_i hp
      rw [if_neg hp, List.map_cons, List.sum_cons, ih h, List.map_cons, List.sum_cons]
      ring

theorem dset_sum_new {K : Type} [DecidableEq K] (d : List (K × ℚ)) (k : K) (v : ℚ)
    (h : dget d k = none) : ((dset d k v).map (·.2)).sum = (d.map (·.2)).sum + v := by
  rw [dset_of_new d k v ((dget_eq_none d k).1 h)]
  simp

theorem adjacencies_append (hs : List Int) (l x u v : Int) (hl : hs.getLast? = some l) :
    adjacencies (hs ++ [x]) u v = adjacencies hs u v +
      (if (l, x) = (u, v) ∨ (l, x) = (v, u) then 1 else 0) := by
  unfold adjacencies
  rw [transitions_append, hl]
  simp only [List.countP_append, List.countP_cons, List.countP_nil]
  congr 1
  by_cases h : (l, x) = (u, v) ∨ (l, x) = (v, u)
  · rw [if_pos h]; rcases h with h | h <;> simp [h]
  · rw [if_neg h]
    push Not at h
    simp [h.1, h.2]

theorem touch_keys {A E : Type} (g : DiGraph A E) (a : A) (n : Int) :
    dkeys (g.touch a n).nodes = if n ∈ dkeys g.nodes then dkeys g.nodes else dkeys g.nodes ++ [n] := by
  unfold DiGraph.touch
  by_cases h : dhas g.nodes n = true
  · rw [if_pos h, if_pos ((dhas_iff _ _).1 h)]
  · rw [if_neg h, if_neg (fun h' => h ((dhas_iff _ _).2 h'))]
    simp [dkeys]

theorem touch_edges {A E : Type} (g : DiGraph A E) (a : A) (n : Int) : (g.touch a n).edges = g.edges := by
  unfold DiGraph.touch; split <;> rfl

theorem touch_of_mem {A E : Type} (g : DiGraph A E) (a : A) (n : Int) (h : n ∈ dkeys g.nodes) :
    g.touch a n = g := by
  unfold DiGraph.touch
  rw [if_pos ((dhas_iff _ _).2 h)]

/-- Adding an edge between existing nodes only changes the edges. -/
theorem addEdge_of_mem {A E : Type} (g : DiGraph A E) (a : A) (u v : Int) (e : E)
    (hu : u ∈ dkeys g.nodes) (hv : v ∈ dkeys g.nodes) :
    g.addEdge a u v e = { g with edges := dset g.edges (u, v) e } := by
  unfold DiGraph.addEdge
  rw [touch_of_mem g a u hu, touch_of_mem g a v hv]

theorem ginv_first (x : Int) (attr : Tens) (names : Finset String) :
    GInv [x] (linkChord DiGraph.empty none x attr names) (some x) := by
  have e : linkChord DiGraph.empty none x attr names =
      ⟨[(x, ⟨some attr, some (.hash x), some x⟩)], [((x, x), 1)]⟩ := by
    unfold linkChord
    simp only []
    rw [addEdge_of_mem _ _ _ _ _ (by simp [DiGraph.addNode, DiGraph.empty, dset, dkeys])
      (by simp [DiGraph.addNode, DiGraph.empty, dset, dkeys])]
    rfl
  rw [e]
  have hget : ∀ u v w, dget [((x, x), (1 : ℚ))] (u, v) = some w → u = x ∧ v = x ∧ w = 1 := by
    intro u v w h
    unfold dget at h
    split at h
    · rename_i hp
      cases h
      injection hp with h1 h2
      exact ⟨h1.symm, h2.symm, rfl⟩
    · cases h
  refine ⟨rfl, by simp [dkeys, firstSeen], by simp [dkeys], ?_, ?_, ?_, ?_, ?_, ?_, by simp⟩
  · intro u v w h
    obtain ⟨rfl, rfl, _⟩ := hget u v w h
    simp
  · intro u v w h
    obtain ⟨rfl, rfl, rfl⟩ := hget u v w h
    simp [adjacencies, transitions]
  · intro u v h; simp [transitions] at h
  · intro u v w w' h h'
    obtain ⟨rfl, rfl, _⟩ := hget u v w h
    rfl
  · intro u v w h
    obtain ⟨rfl, rfl, _⟩ := hget u v w h
    right; simp
  · intro y h
    simp at h
    subst h
    exact ⟨1, by simp [dget]⟩

theorem mem_of_getLast {l : List Int} {x : Int} (h : l.getLast? = some x) : x ∈ l :=
  List.mem_of_getLast? h

theorem head_append_of_ne (hs : List Int) (x : Int) (h : hs ≠ []) : (hs ++ [x]).head? = hs.head? := by
  cases hs with
  | nil => exact absurd rfl h
  | cons a l => rfl

/-- A step along an edge that exists (in the given orientation `(a, b)`, which is the pair
`{l, x}`) only increments its weight. -/
theorem ginv_bump (hs : List Int) (g : MGraph) (l x a b : Int) (w : ℚ) (inv : GInv hs g (some l))
    (hab : (a, b) = (l, x) ∨ (a, b) = (x, l)) (hw : dget g.edges (a, b) = some w) :
    GInv (hs ++ [x]) { g with edges := dset g.edges (a, b) (w + 1) } (some x) := by
  have hl : hs.getLast? = some l := inv.last_eq.symm
  have hne : hs ≠ [] := by intro h; rw [h] at hl; cases hl
  have hx : x ∈ hs := by
    have := inv.ends a b w hw
    rcases hab with h | h <;> (injection h with h1 h2; subst h1; subst h2)
    · exact this.2
    · exact this.1
  have hex : ∀ u v, (∃ w', dget (dset g.edges (a, b) (w + 1)) (u, v) = some w') ↔
      ∃ w', dget g.edges (u, v) = some w' := by
    intro u v
    rw [dget_dset]
    by_cases h : (a, b) = (u, v)
    · rw [if_pos h, ← h, hw]; exact ⟨fun _ => ⟨_, rfl⟩, fun _ => ⟨_, rfl⟩⟩
    · rw [if_neg h]
  refine ⟨by simp, ?_, dset_nodup _ _ _ inv.edges_nodup, ?_, ?_, ?_, ?_, ?_, ?_, ?_⟩
  · show dkeys g.nodes = _
    rw [inv.nodes_eq, firstSeen_append, if_pos ((mem_firstSeen _ _).2 hx)]
  · intro u v w' h
    obtain ⟨w'', h⟩ := (hex u v).1 ⟨w', h⟩
    have := inv.ends u v w'' h
    simp [this.1, this.2]
  · intro u v w' h
    rw [adjacencies_append hs l x u v hl, head_append_of_ne hs x hne]
    simp only [] at h
    rw [dget_dset] at h
    by_cases he : (a, b) = (u, v)
    · rw [if_pos he] at h
      cases h
      have hww := inv.weight a b w hw
      injection he with h1 h2
      subst h1; subst h2
      rw [hww, if_pos (c := (l, x) = (a, b) ∨ (l, x) = (b, a))]
      · push_cast; ring
      · rcases hab with h | h
        · left; exact h.symm
        · right; injection h with h1 h2; subst h1; subst h2; rfl
    · rw [if_neg he] at h
      rw [inv.weight u v w' h, if_neg (c := (l, x) = (u, v) ∨ (l, x) = (v, u))]
      · push_cast; ring
      · intro hc
        -- (u,v) is one orientation of the pair, (a,b) the other: both exist, so they coincide
        have hba : (u, v) = (b, a) := by
          rcases hab with h1 | h1 <;> rcases hc with h2 | h2
          · exact absurd (h1.trans h2) he
          · injection h1 with e1 e2; injection h2 with e3 e4
            subst e1; subst e2; subst e3; subst e4; rfl
          · injection h1 with e1 e2; injection h2 with e3 e4
            subst e1; subst e2; subst e3; subst e4; rfl
          · injection h1 with e1 e2; injection h2 with e3 e4
            subst e1; subst e2; subst e3; subst e4; exact absurd rfl he
        injection hba with e1 e2
        subst e1; subst e2
        have := inv.anti _ _ _ _ hw h
        subst this
        exact he rfl
  · intro u v h
    rw [transitions_append, hl, List.mem_append, List.mem_singleton] at h
    simp only [hex]
    rcases h with h | h
    · exact inv.covered u v h
    · injection h with h1 h2
      subst h1; subst h2
      rcases hab with h | h
      · left; rw [← h]; exact ⟨w, hw⟩
      · right; rw [← h]; exact ⟨w, hw⟩
  · intro u v w1 w2 h1 h2
    obtain ⟨w3, h3⟩ := (hex u v).1 ⟨w1, h1⟩
    obtain ⟨w4, h4⟩ := (hex v u).1 ⟨w2, h2⟩
    exact inv.anti u v w3 w4 h3 h4
  · intro u v w1 h1
    obtain ⟨w3, h3⟩ := (hex u v).1 ⟨w1, h1⟩
    rw [head_append_of_ne hs x hne, transitions_append, hl, List.mem_append]
    rcases inv.justified u v w3 h3 with h | h
    · exact Or.inl (Or.inl h)
    · exact Or.inr h
  · intro y hy
    rw [head_append_of_ne hs x hne] at hy
    exact (hex y y).2 (inv.head_loop y hy)
  · simp only []
    rw [dset_sum _ _ _ _ hw, inv.total, List.length_append, List.length_singleton]
    push_cast; ring

/-- A step along a new pair adds the edge in playing direction. -/
theorem ginv_new (hs : List Int) (g : MGraph) (l x : Int) (a : NodeAttr) (inv : GInv hs g (some l))
    (h1 : dget g.edges (x, l) = none) (h2 : dget g.edges (l, x) = none) :
    GInv (hs ++ [x]) ((g.addNode x a).addEdge .none l x 1) (some x) := by
  have hl : hs.getLast? = some l := inv.last_eq.symm
  have hne : hs ≠ [] := by intro h; rw [h] at hl; cases hl
  have hlm : l ∈ hs := mem_of_getLast hl
  have hln : l ∈ dkeys (g.addNode x a).nodes := by
    unfold DiGraph.addNode
    simp only []
    rw [mem_dkeys_dset, inv.nodes_eq, mem_firstSeen]
    exact Or.inr hlm
  have hxn : x ∈ dkeys (g.addNode x a).nodes := by
    unfold DiGraph.addNode
    simp only []
    rw [mem_dkeys_dset]
    exact Or.inl rfl
  rw [addEdge_of_mem _ _ _ _ _ hln hxn]
  have hedges : (g.addNode x a).edges = g.edges := rfl
  rw [hedges]
  have hno : ∀ u v, (u, v) ∈ transitions hs → ¬ ((l, x) = (u, v) ∨ (l, x) = (v, u)) := by
    intro u v h hc
    rcases inv.covered u v h with ⟨w, hw⟩ | ⟨w, hw⟩ <;> rcases hc with hc | hc <;>
      (injection hc with e1 e2; subst e1; subst e2; first | (rw [h1] at hw; cases hw) | (rw [h2] at hw; cases hw))
  have hadj0 : adjacencies hs l x = 0 := by
    unfold adjacencies
    rw [List.countP_eq_zero]
    rintro ⟨u, v⟩ hp
    have := hno u v hp
    push Not at this
    simp only [Bool.or_eq_true, decide_eq_true_eq, not_or]
    refine ⟨fun e => this.1 e.symm, fun e => this.2 ?_⟩
    injection e with e1 e2
    subst e1; subst e2; rfl
  have hlx : ¬ (l = x ∧ hs.head? = some l) := by
    rintro ⟨rfl, hh⟩
    obtain ⟨w, hw⟩ := inv.head_loop l hh
    rw [h1] at hw; cases hw
  refine ⟨by simp, ?_, dset_nodup _ _ _ inv.edges_nodup, ?_, ?_, ?_, ?_, ?_, ?_, ?_⟩
  · show dkeys (dset g.nodes x a) = _
    rw [dkeys_dset, inv.nodes_eq, firstSeen_append]
  · intro u v w h
    simp only [] at h
    rw [dget_dset] at h
    by_cases he : (l, x) = (u, v)
    · injection he with e1 e2
      subst e1; subst e2
      simp [hlm]
    · rw [if_neg he] at h
      have := inv.ends u v w h
      simp [this.1, this.2]
  · intro u v w h
    rw [adjacencies_append hs l x u v hl, head_append_of_ne hs x hne]
    simp only [] at h
    rw [dget_dset] at h
    by_cases he : (l, x) = (u, v)
    · rw [if_pos he] at h
      cases h
      injection he with e1 e2
      subst e1; subst e2
      rw [hadj0, if_pos (Or.inl rfl), if_neg hlx]
      norm_num
    · rw [if_neg he] at h
      rw [inv.weight u v w h, if_neg (c := (l, x) = (u, v) ∨ (l, x) = (v, u))]
      · push_cast; ring
      · rintro (hc | hc)
        · exact he hc
        · injection hc with e1 e2
          subst e1; subst e2
          rw [h1] at h; cases h
  · intro u v h
    rw [transitions_append, hl, List.mem_append, List.mem_singleton] at h
    simp only [dget_dset]
    rcases h with h | h
    · have hn := hno u v h
      push Not at hn
      rw [if_neg hn.1, if_neg hn.2]
      exact inv.covered u v h
    · rw [if_pos h.symm]
      exact Or.inl ⟨_, rfl⟩
  · intro u v w1 w2 g1 g2
    simp only [] at g1 g2
    rw [dget_dset] at g1 g2
    by_cases he : (l, x) = (u, v)
    · by_cases he' : (l, x) = (v, u)
      · injection he with e1 e2; injection he' with e3 e4
        rw [← e1, ← e3]
      · rw [if_neg he'] at g2
        injection he with e1 e2
        subst e1; subst e2
        rw [h1] at g2; cases g2
    · rw [if_neg he] at g1
      by_cases he' : (l, x) = (v, u)
      · injection he' with e1 e2
        subst e1; subst e2
        rw [h1] at g1; cases g1
      · rw [if_neg he'] at g2
        exact inv.anti u v w1 w2 g1 g2
  · intro u v w1 g1
    rw [head_append_of_ne hs x hne, transitions_append, hl, List.mem_append, List.mem_singleton]
    simp only [] at g1
    rw [dget_dset] at g1
    by_cases he : (l, x) = (u, v)
    · exact Or.inl (Or.inr he.symm)
    · rw [if_neg he] at g1
      rcases inv.justified u v w1 g1 with h | h
      · exact Or.inl (Or.inl h)
      · exact Or.inr h
  · intro y hy
    rw [head_append_of_ne hs x hne] at hy
    obtain ⟨w, hw⟩ := inv.head_loop y hy
    simp only [dget_dset]
    split
    · exact ⟨_, rfl⟩
    · exact ⟨w, hw⟩
  · simp only []
    rw [dset_sum_new _ _ _ h2, inv.total, List.length_append, List.length_singleton]
    push_cast; ring

/-- The graph invariant is kept by every chord. -/
theorem ginv_link (hs : List Int) (g : MGraph) (last : Option Int) (x : Int) (attr : Tens)
    (names : Finset String) (h : (hs = [] ∧ g = DiGraph.empty ∧ last = none) ∨ (hs ≠ [] ∧ GInv hs g last)) :
    GInv (hs ++ [x]) (linkChord g last x attr names) (some x) := by
  rcases h with ⟨rfl, rfl, rfl⟩ | ⟨hne, inv⟩
  · exact ginv_first x attr names
  · have hl := inv.last_eq
    cases hlast : hs.getLast? with
    | none => exact absurd (List.getLast?_eq_none_iff.1 hlast) hne
    | some l =>
      rw [hlast] at hl
      subst hl
      unfold linkChord
      simp only []
      cases h1 : dget g.edges (x, l) with
      | some w => exact ginv_bump hs g l x x l w inv (Or.inr rfl) h1
      | none =>
        simp only []
        cases h2 : dget g.edges (l, x) with
        | some w => exact ginv_bump hs g l x l x w inv (Or.inl rfl) h2
        | none => exact ginv_new hs g l x _ inv h1 h2

end NGC
