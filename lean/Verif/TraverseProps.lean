import Verif.Traverse
import Mathlib.Logic.Relation
import Mathlib.Data.List.GetD

/-! Property theorem C134: the traversal visits what can be reached, nearest first. -/

namespace NGC
namespace Spec

/-- The weight of the step from `u` to `w`: that of the first edge between them. -/
def StepWeight (g : TravGraph) (u w : Int) (x : ℚ) : Prop :=
  ∃ l, g.attr = some l ∧ ∃ i : Nat, g.edges[i]? = some (u, w) ∧ l[i]? = some x ∧ ∀ j : Nat, j < i → g.edges[j]? ≠ some (u, w)

/-- There is a walk of length `d` from `s` to `v`. -/
inductive WalkTo (g : TravGraph) (s : Int) : Int → ℚ → Prop
  | start : WalkTo g s s 0
  | step {u w : Int} {d x : ℚ} : WalkTo g s u d → StepWeight g u w x → WalkTo g s w (d + x)

/-- `d` is the least length of a walk from `s` to `v`. -/
def Distance (g : TravGraph) (s v : Int) (d : ℚ) : Prop := WalkTo g s v d ∧ ∀ d', WalkTo g s v d' → d ≤ d'

/-- `v` can be reached from `s` along edges. -/
def Reaches (g : TravGraph) (s v : Int) : Prop := Relation.ReflTransGen (fun u w => (u, w) ∈ g.edges) s v

/-- Every edge has a weight. -/
def Weighted (g : TravGraph) : Prop := ∃ l, g.attr = some l ∧ g.edges.length ≤ l.length

end Spec

/-! ### The heap -/

theorem heapMin_mem : ∀ (rest : List (ℚ × Int)) (m : ℚ × Int), heapMin m rest ∈ m :: rest := by
  intro rest
  induction rest with
  | nil => intro m; simp [heapMin]
  | cons p rest ih =>
    intro m
    unfold heapMin
    split
    · exact List.mem_cons_of_mem _ (ih p)
    · rcases List.mem_cons.1 (ih m) with h | h
      · rw [h]; exact List.mem_cons_self
      · exact List.mem_cons_of_mem _ (List.mem_cons_of_mem _ h)

theorem heapLt_false {p q : ℚ × Int} : heapLt p q = false ↔ q.1 < p.1 ∨ (q.1 = p.1 ∧ q.2 ≤ p.2) := by
  unfold heapLt
  simp only [Bool.or_eq_false_iff, Bool.and_eq_false_iff, decide_eq_false_iff_not, not_lt]
  constructor
  · rintro ⟨h1, h2⟩
    rcases lt_or_eq_of_le h1 with h | h
    · exact Or.inl h
    · right
      refine ⟨h, ?_⟩
      rcases h2 with h2 | h2
      · exact absurd h.symm h2
      · exact h2
  · rintro (h | ⟨h1, h2⟩)
    · exact ⟨le_of_lt h, Or.inl (ne_of_gt h)⟩
    · exact ⟨le_of_eq h1, Or.inr h2⟩

theorem heapLt_true {p q : ℚ × Int} : heapLt p q = true ↔ p.1 < q.1 ∨ (p.1 = q.1 ∧ p.2 < q.2) := by
  unfold heapLt
  simp

theorem heapMin_least : ∀ (rest : List (ℚ × Int)) (m : ℚ × Int), ∀ p ∈ m :: rest, heapLt p (heapMin m rest) = false := by
  have key : ∀ (rest : List (ℚ × Int)) (m : ℚ × Int), (heapLt m (heapMin m rest) = false) ∧ ∀ p ∈ rest, heapLt p (heapMin m rest) = false := by
    intro rest
    induction rest with
    | nil =>
      intro m
      refine ⟨?_, by simp⟩
      rw [heapLt_false]
      exact Or.inr ⟨rfl, le_refl _⟩
    | cons q rest ih =>
      intro m
      unfold heapMin
      split
      · rename_i hq
        obtain ⟨h1, h2⟩ := ih q
        refine ⟨?_, ?_⟩
        · rw [heapLt_false] at h1 ⊢
          rw [heapLt_true] at hq
          rcases hq with hq | ⟨hq, hq'⟩
          · rcases h1 with h1 | ⟨h1, _⟩
            · exact Or.inl (lt_trans h1 hq)
            · exact Or.inl (h1 ▸ hq)
          · rcases h1 with h1 | ⟨h1, h1'⟩
            · exact Or.inl (hq ▸ h1)
            · exact Or.inr ⟨h1.trans hq, le_of_lt (lt_of_le_of_lt h1' hq')⟩
        · intro p hp
          rcases List.mem_cons.1 hp with rfl | hp
          · exact h1
          · exact h2 p hp
      · rename_i hq
        obtain ⟨h1, h2⟩ := ih m
        refine ⟨h1, ?_⟩
        intro p hp
        rcases List.mem_cons.1 hp with rfl | hp
        · have hq' : heapLt p m = false := by simpa using hq
          rw [heapLt_false] at hq' h1 ⊢
          rcases hq' with hq' | ⟨hq', hq''⟩
          · rcases h1 with h1 | ⟨h1, _⟩
            · exact Or.inl (lt_trans h1 hq')
            · exact Or.inl (h1 ▸ hq')
          · rcases h1 with h1 | ⟨h1, h1'⟩
            · exact Or.inl (hq' ▸ h1)
            · exact Or.inr ⟨h1.trans hq', le_trans h1' hq''⟩
        · exact h2 p hp
  intro rest m p hp
  rcases List.mem_cons.1 hp with rfl | hp
  · exact (key rest p).1
  · exact (key rest m).2 p hp

/-! ### Weights -/

namespace TravGraph

/-- The weight the traversal uses for an edge. -/
def wt (g : TravGraph) (u w : Int) : ℚ :=
  (g.attr.getD []).getD (g.edges.findIdx (fun e => decide (e.1 = u) && decide (e.2 = w))) 0

theorem mem_neighbors {g : TravGraph} {u w : Int} : w ∈ g.neighbors u ↔ (u, w) ∈ g.edges := by
  unfold neighbors
  simp only [List.mem_map, List.mem_filter, decide_eq_true_eq]
  constructor
  · rintro ⟨⟨a, b⟩, ⟨h1, h2⟩, h3⟩
    simp only at h2 h3
    subst h2; subst h3
    exact h1
  · intro h
    exact ⟨(u, w), ⟨h, rfl⟩, rfl⟩

theorem stepWeight_iff {g : TravGraph} (hw : Spec.Weighted g) {u w : Int} {x : ℚ} :
    Spec.StepWeight g u w x ↔ (u, w) ∈ g.edges ∧ x = g.wt u w := by
  obtain ⟨l, hl, hlen⟩ := hw
  have hpe : ∀ e : Int × Int, (decide (e.1 = u) && decide (e.2 = w)) = true ↔ e = (u, w) := by
    intro e
    rw [Bool.and_eq_true, decide_eq_true_eq, decide_eq_true_eq, Prod.ext_iff]
  constructor
  · rintro ⟨l', hl', i, h1, h2, h3⟩
    rw [hl] at hl'; cases hl'
    have hmem : (u, w) ∈ g.edges := List.mem_of_getElem? h1
    refine ⟨hmem, ?_⟩
    have hi : g.edges.findIdx (fun e => decide (e.1 = u) && decide (e.2 = w)) = i := by
      obtain ⟨hlt, h1'⟩ := List.getElem?_eq_some_iff.1 h1
      rw [List.findIdx_eq hlt]
      refine ⟨?_, ?_⟩
      · rw [hpe]; exact h1'
      · intro j hj
        have := h3 j hj
        rw [List.getElem?_eq_getElem (by omega)] at this
        by_contra hc
        rw [Bool.not_eq_false, hpe] at hc
        exact this (by rw [hc])
    unfold wt
    rw [hi, hl]
    simp [List.getD, h2]
  · rintro ⟨hmem, rfl⟩
    have hlt : g.edges.findIdx (fun e => decide (e.1 = u) && decide (e.2 = w)) < g.edges.length :=
      List.findIdx_lt_length_of_exists ⟨(u, w), hmem, (hpe _).2 rfl⟩
    refine ⟨l, hl, g.edges.findIdx (fun e => decide (e.1 = u) && decide (e.2 = w)), ?_, ?_, ?_⟩
    · rw [List.getElem?_eq_getElem hlt]
      congr 1
      exact (hpe _).1 (List.findIdx_getElem (w := hlt))
    · unfold wt
      rw [hl]
      simp only [Option.getD_some]
      rw [List.getD_eq_getElem _ _ (lt_of_lt_of_le hlt hlen), List.getElem?_eq_getElem]
    · intro j hj hc
      have := List.not_of_lt_findIdx hj
      obtain ⟨hlt', h'⟩ := List.getElem?_eq_some_iff.1 hc
      rw [(hpe _).2 h'] at this
      exact absurd this (by simp)

/-- One push succeeds. -/
theorem push_ok {g : TravGraph} (hw : Spec.Weighted g) {u w : Int} (h : (u, w) ∈ g.edges) (d : ℚ) (st : TravState) :
    g.push d u w st = .ok { st with pq := st.pq ++ [(d + g.wt u w, w)] } := by
  obtain ⟨l, hl, hlen⟩ := hw
  have hpe : ∀ e : Int × Int, (decide (e.1 = u) && decide (e.2 = w)) = true ↔ e = (u, w) := by
    intro e
    rw [Bool.and_eq_true, decide_eq_true_eq, decide_eq_true_eq, Prod.ext_iff]
  have hlt : g.edges.findIdx (fun e => decide (e.1 = u) && decide (e.2 = w)) < g.edges.length :=
    List.findIdx_lt_length_of_exists ⟨(u, w), h, (hpe _).2 rfl⟩
  have hf : g.edges.findIdx? (fun e => decide (e.1 = u) && decide (e.2 = w)) =
      some (g.edges.findIdx (fun e => decide (e.1 = u) && decide (e.2 = w))) := List.findIdx?_eq_some_of_exists ⟨(u, w), h, (hpe _).2 rfl⟩
  unfold push
  rw [hf]
  have ha : g.attrAt (g.edges.findIdx (fun e => decide (e.1 = u) && decide (e.2 = w))) = .ok (g.wt u w) := by
    unfold attrAt wt
    rw [hl]
    simp only [Option.getD_some]
    rw [List.getElem?_eq_getElem (lt_of_lt_of_le hlt hlen), List.getD_eq_getElem _ _ (lt_of_lt_of_le hlt hlen)]
  dsimp only
  rw [ha]
  rfl

theorem visitNeighbors_ok {g : TravGraph} (hw : Spec.Weighted g) (d : ℚ) (u : Int) :
    ∀ (ns : List Int) (st : TravState), (∀ w ∈ ns, (u, w) ∈ g.edges) →
      g.visitNeighbors d u ns st = .ok ⟨st.visited, st.pq ++ (ns.filter (fun w => decide (w ∉ st.visited))).map (fun w => (d + g.wt u w, w)),
        st.nodeSeq, st.edgeSeq ++ ns.map (fun w => (u, w))⟩ := by
  intro ns
  induction ns with
  | nil => intro st _; simp [visitNeighbors]
  | cons v rest ih =>
    intro st h
    unfold visitNeighbors
    by_cases hv : v ∈ st.visited
    · simp only [hv, if_true, bind, Except.bind]
      rw [ih _ (fun w hw' => h w (List.mem_cons_of_mem _ hw'))]
      simp [hv, List.append_assoc]
    · simp only [hv, if_false, bind, Except.bind]
      rw [push_ok hw (h v List.mem_cons_self)]
      dsimp only
      rw [ih _ (fun w hw' => h w (List.mem_cons_of_mem _ hw'))]
      simp [hv, List.append_assoc]

/-! ### The invariant -/

/-- The invariant of the loop; `done` lists the visited nodes with the distances at which they were taken from the heap. -/
structure TInv (g : TravGraph) (start : Int) (done : List (ℚ × Int)) (st : TravState) : Prop where
  vis : ∀ v, v ∈ st.visited ↔ v ∈ done.map (·.2)
  seq : st.nodeSeq = done.map (·.2)
  edg : st.edgeSeq = done.flatMap (fun p => (g.neighbors p.2).map (fun w => (p.2, w)))
  nodup : (done.map (·.2)).Nodup
  walkD : ∀ p ∈ done, Spec.WalkTo g start p.2 p.1
  walkP : ∀ p ∈ st.pq, Spec.WalkTo g start p.2 p.1
  clos : ∀ p ∈ done, ∀ w ∈ g.neighbors p.2, (∃ q ∈ done, q.2 = w ∧ ((∀ e ∈ g.edges, 0 ≤ g.wt e.1 e.2) → q.1 ≤ p.1 + g.wt p.2 w)) ∨
    ((p.1 + g.wt p.2 w, w) ∈ st.pq ∧ w ∉ done.map (·.2))
  first : (done = [] ∧ st.pq = [(0, start)]) ∨ done.head? = some (0, start)
  ordD : (∀ e ∈ g.edges, 0 ≤ g.wt e.1 e.2) → done.Pairwise (fun p q => p.1 ≤ q.1)
  ordP : (∀ e ∈ g.edges, 0 ≤ g.wt e.1 e.2) → ∀ p ∈ done, ∀ q ∈ st.pq, p.1 ≤ q.1
  ordDs : (∀ e ∈ g.edges, 0 < g.wt e.1 e.2) → done.Pairwise (fun p q => heapLt p q = true)
  ordPs : (∀ e ∈ g.edges, 0 < g.wt e.1 e.2) → ∀ p ∈ done, ∀ q ∈ st.pq, heapLt q p = false

/-- What is left to do: heap entries and edges of unvisited nodes. -/
def todo (g : TravGraph) (st : TravState) : Nat := st.pq.length + (g.edges.filter (fun e => decide (e.1 ∉ st.visited))).length

theorem round_inv {g : TravGraph} (hw : Spec.Weighted g) {start : Int} {done : List (ℚ × Int)} {st : TravState} (inv : TInv g start done st)
    (m : ℚ × Int) (rest : List (ℚ × Int)) (hpq : st.pq = m :: rest) :
    ∃ st' done', g.round (heapPop m rest).1 { st with pq := (heapPop m rest).2 } = .ok st' ∧ TInv g start done' st' ∧ g.todo st' < g.todo st := by
  obtain ⟨⟨d, u⟩, hp⟩ : ∃ x, heapMin m rest = x := ⟨_, rfl⟩
  have hmem : (d, u) ∈ st.pq := by rw [hpq, ← hp]; exact heapMin_mem rest m
  have hleast : ∀ p ∈ st.pq, heapLt p (d, u) = false := by
    rw [hpq, ← hp]; exact heapMin_least rest m
  have hpop : heapPop m rest = ((d, u), st.pq.erase (d, u)) := by unfold heapPop; rw [hp, hpq]
  rw [hpop]
  dsimp only
  have hlen : (st.pq.erase (d, u)).length + 1 = st.pq.length := by
    rw [List.length_erase_of_mem hmem]
    have := List.length_pos_of_mem hmem
    omega
  have hsub : ∀ q ∈ st.pq.erase (d, u), q ∈ st.pq := fun q hq => List.mem_of_mem_erase hq
  have hle : ∀ q ∈ st.pq, d ≤ q.1 := by
    intro q hq
    rcases heapLt_false.1 (hleast q hq) with h | ⟨h, _⟩
    · exact le_of_lt h
    · exact le_of_eq h
  by_cases hv : u ∈ st.visited
  · refine ⟨{ st with pq := st.pq.erase (d, u) }, done, ?_, ?_, ?_⟩
    · unfold round
      simp [hv]
    · have hud : u ∈ done.map (·.2) := (inv.vis u).1 hv
      refine ⟨inv.vis, inv.seq, inv.edg, inv.nodup, inv.walkD, fun p hp => inv.walkP p (hsub p hp), ?_, ?_, inv.ordD,
        fun hn p hp q hq => inv.ordP hn p hp q (hsub q hq), inv.ordDs, fun hn p hp q hq => inv.ordPs hn p hp q (hsub q hq)⟩
      · intro p hp w hwn
        rcases inv.clos p hp w hwn with h | ⟨h1, h2⟩
        · exact Or.inl h
        · right
          refine ⟨?_, h2⟩
          refine (List.mem_erase_of_ne ?_).2 h1
          intro hc
          rw [Prod.mk.injEq] at hc
          exact h2 (hc.2 ▸ hud)
      · rcases inv.first with ⟨h1, h2⟩ | h
        · rw [h1] at hud; simp at hud
        · exact Or.inr h
    · unfold todo
      dsimp only
      omega
  · have hround : g.round (d, u) { st with pq := st.pq.erase (d, u) } = .ok ⟨u :: st.visited,
        st.pq.erase (d, u) ++ ((g.neighbors u).filter (fun w => decide (w ∉ u :: st.visited))).map (fun w => (d + g.wt u w, w)),
        st.nodeSeq ++ [u], st.edgeSeq ++ (g.neighbors u).map (fun w => (u, w))⟩ := by
      unfold round
      simp only [hv, if_false]
      rw [visitNeighbors_ok hw d u _ _ (fun w h => mem_neighbors.1 h)]
    have hud : u ∉ done.map (·.2) := fun h => hv ((inv.vis u).2 h)
    have hwalk : Spec.WalkTo g start u d := inv.walkP (d, u) hmem
    have hmemP : ∀ q, q ∈ st.pq.erase (d, u) ++ ((g.neighbors u).filter (fun w => decide (w ∉ u :: st.visited))).map (fun w => (d + g.wt u w, w)) →
        q ∈ st.pq ∨ ∃ w ∈ g.neighbors u, w ∉ u :: st.visited ∧ q = (d + g.wt u w, w) := by
      intro q hq
      rcases List.mem_append.1 hq with h | h
      · exact Or.inl (hsub q h)
      · obtain ⟨w, hw1, rfl⟩ := List.mem_map.1 h
        rw [List.mem_filter] at hw1
        exact Or.inr ⟨w, hw1.1, by simpa using hw1.2, rfl⟩
    refine ⟨_, done ++ [(d, u)], hround, ?_, ?_⟩
    · constructor
      · intro v
        simp only [List.mem_cons, List.map_append, List.map_cons, List.map_nil, List.mem_append, List.mem_nil_iff, or_false]
        rw [inv.vis v]
        tauto
      · simp [inv.seq]
      · simp [inv.edg]
      · rw [List.map_append]
        refine List.nodup_append.2 ⟨inv.nodup, by simp, ?_⟩
        intro a ha b hb
        simp only [List.map_cons, List.map_nil, List.mem_cons, List.mem_nil_iff, or_false] at hb
        subst hb
        intro hc
        exact hud (hc ▸ ha)
      · intro p hp
        rcases List.mem_append.1 hp with h | h
        · exact inv.walkD p h
        · simp only [List.mem_cons, List.mem_nil_iff, or_false] at h
          subst h; exact hwalk
      · intro q hq
        rcases hmemP q hq with h | ⟨w, hwn, _, rfl⟩
        · exact inv.walkP q h
        · exact Spec.WalkTo.step hwalk ((stepWeight_iff hw).2 ⟨mem_neighbors.1 hwn, rfl⟩)
      · intro p hp w hwn
        rcases List.mem_append.1 hp with h | h
        · rcases inv.clos p h w hwn with ⟨q, hq, hq1, hq2⟩ | ⟨h1, h2⟩
          · exact Or.inl ⟨q, List.mem_append_left _ hq, hq1, hq2⟩
          · by_cases hwu : w = u
            · left
              refine ⟨(d, u), by simp, hwu.symm, ?_⟩
              intro _
              exact hle _ h1
            · right
              refine ⟨List.mem_append_left _ ((List.mem_erase_of_ne ?_).2 h1), ?_⟩
              · intro hc
                rw [Prod.mk.injEq] at hc
                exact hwu hc.2
              · simp only [List.map_append, List.map_cons, List.map_nil, List.mem_append, List.mem_cons, List.mem_nil_iff, or_false]
                rintro (hc | hc)
                · exact h2 hc
                · exact hwu hc
        · simp only [List.mem_cons, List.mem_nil_iff, or_false] at h
          subst h
          by_cases hwv : w ∈ u :: st.visited
          · left
            rcases List.mem_cons.1 hwv with rfl | hwv
            · refine ⟨(d, w), by simp, rfl, ?_⟩
              intro hn
              have := hn (w, w) (mem_neighbors.1 hwn)
              dsimp only at this ⊢
              linarith
            · obtain ⟨q, hq, rfl⟩ := List.mem_map.1 ((inv.vis w).1 hwv)
              refine ⟨q, List.mem_append_left _ hq, rfl, ?_⟩
              intro hn
              have h1 := hn (u, q.2) (mem_neighbors.1 hwn)
              have h2 := inv.ordP hn q hq (d, u) hmem
              dsimp only at h1 h2 ⊢
              linarith
          · right
            refine ⟨List.mem_append_right _ (List.mem_map.2 ⟨w, List.mem_filter.2 ⟨hwn, by simpa using hwv⟩, rfl⟩), ?_⟩
            simp only [List.map_append, List.map_cons, List.map_nil, List.mem_append, List.mem_cons, List.mem_nil_iff, or_false]
            rintro (hc | hc)
            · exact hwv (List.mem_cons_of_mem _ ((inv.vis w).2 hc))
            · exact hwv (hc ▸ List.mem_cons_self)
      · right
        rcases inv.first with ⟨h1, h2⟩ | h
        · rw [h2] at hmem
          simp only [List.mem_cons, List.mem_nil_iff, or_false, Prod.mk.injEq] at hmem
          rw [h1]
          simp [hmem.1, hmem.2]
        · rw [List.head?_append, h]
          rfl
      · intro hn
        refine List.pairwise_append.2 ⟨inv.ordD hn, by simp, ?_⟩
        intro a ha b hb
        simp only [List.mem_cons, List.mem_nil_iff, or_false] at hb
        subst hb
        exact inv.ordP hn a ha _ hmem
      · intro hn p hp q hq
        have hpd : p.1 ≤ d := by
          rcases List.mem_append.1 hp with h | h
          · exact inv.ordP hn p h _ hmem
          · simp only [List.mem_cons, List.mem_nil_iff, or_false] at h
            rw [h]
        have hqd : d ≤ q.1 := by
          rcases hmemP q hq with h | ⟨w, hwn, _, rfl⟩
          · exact hle q h
          · have := hn (u, w) (mem_neighbors.1 hwn)
            dsimp only at this ⊢
            linarith
        exact le_trans hpd hqd
      · intro hn
        refine List.pairwise_append.2 ⟨inv.ordDs hn, by simp, ?_⟩
        intro a ha b hb
        simp only [List.mem_cons, List.mem_nil_iff, or_false] at hb
        subst hb
        rcases heapLt_false.1 (inv.ordPs hn a ha _ hmem) with h | ⟨h1, h2⟩
        · exact heapLt_true.2 (Or.inl h)
        · refine heapLt_true.2 (Or.inr ⟨h1, lt_of_le_of_ne h2 ?_⟩)
          intro hc
          exact hud (List.mem_map.2 ⟨a, ha, hc⟩)
      · intro hn p hp q hq
        have hpd : heapLt (d, u) p = false := by
          rcases List.mem_append.1 hp with h | h
          · exact inv.ordPs hn p h _ hmem
          · simp only [List.mem_cons, List.mem_nil_iff, or_false] at h
            rw [h, heapLt_false]
            exact Or.inr ⟨rfl, le_refl _⟩
        have hqd : heapLt q (d, u) = false := by
          rcases hmemP q hq with h | ⟨w, hwn, _, rfl⟩
          · exact hleast q h
          · have := hn (u, w) (mem_neighbors.1 hwn)
            rw [heapLt_false]
            left
            dsimp only at this ⊢
            linarith
        rw [heapLt_false] at hpd hqd ⊢
        rcases hpd with h1 | ⟨h1, h1'⟩ <;> rcases hqd with h2 | ⟨h2, h2'⟩ <;> dsimp only at *
        · exact Or.inl (lt_trans h1 h2)
        · exact Or.inl (h2 ▸ h1)
        · exact Or.inl (h1 ▸ h2)
        · exact Or.inr ⟨h1.trans h2, le_trans h1' h2'⟩
    · unfold todo
      dsimp only
      rw [List.length_append, List.length_map]
      have h1 : ((g.neighbors u).filter (fun w => decide (w ∉ u :: st.visited))).length ≤ (g.neighbors u).length := List.length_filter_le _ _
      have h2 : (g.neighbors u).length + (g.edges.filter (fun e => decide (e.1 ∉ u :: st.visited))).length =
          (g.edges.filter (fun e => decide (e.1 ∉ st.visited))).length := by
        unfold neighbors
        rw [List.length_map]
        clear hround hmemP h1 hlen hsub hle hleast hmem hpop
        induction g.edges with
        | nil => rfl
        | cons e es ih =>
          by_cases he : e.1 = u
          · have : e.1 ∉ st.visited := he ▸ hv
            simp only [List.filter_cons, he, decide_true, if_true, List.mem_cons, true_or, not_true_eq_false, decide_false, Bool.false_eq_true, if_false,
              hv, not_false_eq_true, List.length_cons] at ih ⊢
            omega
          · by_cases he2 : e.1 ∈ st.visited
            · simp only [List.filter_cons, he, he2, decide_false, Bool.false_eq_true, if_false, List.mem_cons, or_true, not_true_eq_false] at ih ⊢
              exact ih
            · simp only [List.filter_cons, he, he2, decide_false, Bool.false_eq_true, if_false, List.mem_cons, or_self, not_false_eq_true, decide_true,
                if_true, List.length_cons] at ih ⊢
              omega
      omega

/-- The loop ends, with an empty heap. -/
theorem loop_inv {g : TravGraph} (hw : Spec.Weighted g) {start : Int} : ∀ (n : Nat) (done : List (ℚ × Int)) (st : TravState), TInv g start done st →
    g.todo st ≤ n → ∃ st' done', (∀ fuel, n ≤ fuel → g.loop fuel st = .ok (some st')) ∧ TInv g start done' st' ∧ st'.pq = [] := by
  intro n
  induction n with
  | zero =>
    intro done st inv hn
    have hpq : st.pq = [] := by
      unfold todo at hn
      exact List.length_eq_zero_iff.1 (by omega)
    refine ⟨st, done, ?_, inv, hpq⟩
    intro fuel _
    unfold loop
    rw [hpq]
  | succ n ih =>
    intro done st inv hn
    cases hpq : st.pq with
    | nil =>
      refine ⟨st, done, ?_, inv, hpq⟩
      intro fuel _
      unfold loop
      rw [hpq]
    | cons m rest =>
      obtain ⟨st1, done1, h1, inv1, hlt⟩ := round_inv hw inv m rest hpq
      obtain ⟨st', done', h2, inv2, he⟩ := ih done1 st1 inv1 (by omega)
      refine ⟨st', done', ?_, inv2, he⟩
      intro fuel hf
      obtain ⟨f, rfl⟩ : ∃ f, fuel = f + 1 := ⟨fuel - 1, by omega⟩
      unfold loop
      rw [hpq]
      dsimp only
      rw [h1]
      exact h2 f (by omega)

theorem traverse_inv {g : TravGraph} (hw : Spec.Weighted g) (start : Int) :
    ∃ done : List (ℚ × Int), (∀ fuel, g.edges.length + 1 ≤ fuel → g.traverse fuel start =
        .ok (some (done.map (·.2), done.flatMap (fun p => (g.neighbors p.2).map (fun w => (p.2, w)))))) ∧
      ∃ st, TInv g start done st ∧ st.pq = [] ∧ done.head? = some (0, start) := by
  have inv0 : TInv g start [] { visited := [], pq := [(0, start)], nodeSeq := [], edgeSeq := [] } := by
    refine ⟨by simp, rfl, rfl, by simp, by simp, ?_, by simp, Or.inl ⟨rfl, rfl⟩, by simp, by simp, by simp, by simp⟩
    intro p hp
    simp only [List.mem_cons, List.mem_nil_iff, or_false] at hp
    rw [hp]
    exact Spec.WalkTo.start
  have htodo : g.todo { visited := [], pq := [(0, start)], nodeSeq := [], edgeSeq := [] } = g.edges.length + 1 := by
    unfold todo
    simp
    omega
  obtain ⟨st', done, h1, inv, he⟩ := loop_inv hw (g.edges.length + 1) [] _ inv0 (le_of_eq htodo)
  refine ⟨done, ?_, st', inv, he, ?_⟩
  · intro fuel hf
    unfold traverse
    rw [h1 fuel hf]
    simp only [bind, Except.bind, Option.map_some]
    rw [inv.seq, inv.edg]
  · rcases inv.first with ⟨_, h⟩ | h
    · rw [he] at h; cases h
    · exact h

end TravGraph

open TravGraph

/-- **C134, what is visited.** On a graph with a weight for every edge the traversal ends after at most one round per edge and one more. It visits every node that
can be reached from the start, and no other, once, the start first, and lists the outgoing edges of each visited node in the order of the nodes. -/
theorem C134_visits (g : TravGraph) (hw : Spec.Weighted g) (start : Int) :
    ∃ nodes edges, (∀ fuel, g.edges.length + 1 ≤ fuel → g.traverse fuel start = .ok (some (nodes, edges))) ∧
      nodes.Nodup ∧ nodes.head? = some start ∧ (∀ v, v ∈ nodes ↔ Spec.Reaches g start v) ∧
      edges = nodes.flatMap (fun u => g.edges.filter (fun e => decide (e.1 = u))) := by
  obtain ⟨done, h, st, inv, he, hhead⟩ := traverse_inv hw start
  refine ⟨_, _, h, inv.nodup, ?_, ?_, ?_⟩
  · rw [List.head?_map, hhead]
    rfl
  · intro v
    constructor
    · intro hv
      obtain ⟨p, hp, rfl⟩ := List.mem_map.1 hv
      have hwalk := inv.walkD p hp
      clear hv hp
      generalize p.2 = v at hwalk
      generalize p.1 = d at hwalk
      induction hwalk with
      | start => exact Relation.ReflTransGen.refl
      | step _ hs ih => exact ih.tail ((stepWeight_iff hw).1 hs).1
    · intro hr
      induction hr with
      | refl =>
        rw [List.head?_eq_some_iff] at hhead
        obtain ⟨ys, rfl⟩ := hhead
        simp
      | tail _ hs ih =>
        obtain ⟨p, hp, rfl⟩ := List.mem_map.1 ih
        rcases inv.clos p hp _ (mem_neighbors.2 hs) with ⟨q, hq, hq1, _⟩ | ⟨h1, _⟩
        · exact hq1 ▸ List.mem_map.2 ⟨q, hq, rfl⟩
        · rw [he] at h1; cases h1
  · rw [List.flatMap_map]
    congr 1
    funext p
    unfold neighbors
    rw [List.map_map]
    conv_rhs => rw [← List.map_id (g.edges.filter _)]
    refine List.map_congr_left ?_
    intro e he
    rw [List.mem_filter, decide_eq_true_eq] at he
    simp [← he.2]

theorem done_distance {g : TravGraph} (hw : Spec.Weighted g) {start : Int} {done : List (ℚ × Int)} {st : TravState} (inv : TInv g start done st)
    (he : st.pq = []) (hhead : done.head? = some (0, start)) (hn : ∀ e ∈ g.edges, 0 ≤ g.wt e.1 e.2) :
    ∀ p ∈ done, Spec.Distance g start p.2 p.1 := by
  have key : ∀ v d, Spec.WalkTo g start v d → ∃ q ∈ done, q.2 = v ∧ q.1 ≤ d := by
    intro v d hwalk
    induction hwalk with
    | start =>
      rw [List.head?_eq_some_iff] at hhead
      obtain ⟨ys, rfl⟩ := hhead
      exact ⟨(0, start), by simp, rfl, le_refl _⟩
    | step _ hs ih =>
      obtain ⟨q, hq, rfl, hqd⟩ := ih
      obtain ⟨hedge, rfl⟩ := (stepWeight_iff hw).1 hs
      rcases inv.clos q hq _ (mem_neighbors.2 hedge) with ⟨r, hr, hr1, hr2⟩ | ⟨h1, _⟩
      · exact ⟨r, hr, hr1, le_trans (hr2 hn) (by linarith)⟩
      · rw [he] at h1; cases h1
  intro p hp
  refine ⟨inv.walkD p hp, ?_⟩
  intro d' hd'
  obtain ⟨q, hq, hq1, hq2⟩ := key _ _ hd'
  have : q = p := List.inj_on_of_nodup_map inv.nodup hq hp hq1
  exact this ▸ hq2

/-- **C134, in which order.** If no weight is negative, every visited node has a distance from the start, the least length of a walk to it, and nodes are visited
nearest first. If all weights are positive, nodes at the same distance are visited in the order of their numbers, so the order is determined by the distances. -/
theorem C134_nearest_first (g : TravGraph) (hw : Spec.Weighted g) (start : Int) (hn : ∀ u w x, Spec.StepWeight g u w x → 0 ≤ x)
    (fuel : Nat) (hf : g.edges.length + 1 ≤ fuel) (nodes : List Int) (edges : List (Int × Int)) (h : g.traverse fuel start = .ok (some (nodes, edges))) :
    (∀ v ∈ nodes, ∃ d, Spec.Distance g start v d) ∧
    nodes.Pairwise (fun u v => ∀ du dv, Spec.Distance g start u du → Spec.Distance g start v dv → du ≤ dv) ∧
    ((∀ u w x, Spec.StepWeight g u w x → 0 < x) →
      nodes.Pairwise (fun u v => ∀ du dv, Spec.Distance g start u du → Spec.Distance g start v dv → du < dv ∨ (du = dv ∧ u < v))) := by
  obtain ⟨done, h', st, inv, he, hhead⟩ := traverse_inv hw start
  rw [h' fuel hf] at h
  simp only [Except.ok.injEq, Option.some.injEq, Prod.mk.injEq] at h
  obtain ⟨rfl, _⟩ := h
  have hn' : ∀ e ∈ g.edges, 0 ≤ g.wt e.1 e.2 := fun e hee => hn e.1 e.2 _ ((stepWeight_iff hw).2 ⟨hee, rfl⟩)
  have hd := done_distance hw inv he hhead hn'
  have huniq : ∀ {v d d'}, Spec.Distance g start v d → Spec.Distance g start v d' → d = d' :=
    fun h1 h2 => le_antisymm (h1.2 _ h2.1) (h2.2 _ h1.1)
  refine ⟨?_, ?_, ?_⟩
  · intro v hv
    obtain ⟨p, hp, rfl⟩ := List.mem_map.1 hv
    exact ⟨p.1, hd p hp⟩
  · rw [List.pairwise_map]
    refine List.Pairwise.imp_of_mem ?_ (inv.ordD hn')
    intro p q hp hq hpq du dv h1 h2
    rw [huniq h1 (hd p hp), huniq h2 (hd q hq)]
    exact hpq
  · intro hpos
    rw [List.pairwise_map]
    refine List.Pairwise.imp_of_mem ?_ (inv.ordDs (fun e hee => hpos e.1 e.2 _ ((stepWeight_iff hw).2 ⟨hee, rfl⟩)))
    intro p q hp hq hpq du dv h1 h2
    rw [huniq h1 (hd p hp), huniq h2 (hd q hq)]
    exact heapLt_true.1 hpq

/-- **C134, a graph without weights.** Then the traversal raises TypeError as soon as the start has an edge to another node; otherwise it visits the start alone. -/
theorem C134_unweighted (g : TravGraph) (ha : g.attr = none) (start : Int) (fuel : Nat) (hf : 1 ≤ fuel) :
    ((∃ w, w ≠ start ∧ (start, w) ∈ g.edges) → g.traverse fuel start = .error .type) ∧
    ((∀ w, (start, w) ∈ g.edges → w = start) →
      g.traverse fuel start = .ok (some ([start], g.edges.filter (fun e => decide (e.1 = start))))) := by
  obtain ⟨f, rfl⟩ : ∃ f, fuel = f + 1 := ⟨fuel - 1, by omega⟩
  have hr : g.round (0, start) { visited := [], pq := [], nodeSeq := [], edgeSeq := [] } =
      g.visitNeighbors 0 start (g.neighbors start) { visited := [start], pq := [], nodeSeq := [start], edgeSeq := [] } := rfl
  have hl : g.loop (f + 1) { visited := [], pq := [(0, start)], nodeSeq := [], edgeSeq := [] } =
      (g.visitNeighbors 0 start (g.neighbors start) { visited := [start], pq := [], nodeSeq := [start], edgeSeq := [] } >>= g.loop f) := by
    have : heapPop (0, start) [] = ((0, start), []) := by simp [heapPop, heapMin]
    conv_lhs => unfold loop
    dsimp only
    rw [this, hr]
  unfold traverse
  rw [hl]
  constructor
  · rintro ⟨w, hne, hw⟩
    have gen : ∀ (ns : List Int) (st : TravState), st.visited = [start] → (∀ v ∈ ns, (start, v) ∈ g.edges) → (∃ v ∈ ns, v ≠ start) →
        g.visitNeighbors 0 start ns st = .error .type := by
      intro ns
      induction ns with
      | nil => rintro st _ _ ⟨v, hv, _⟩; cases hv
      | cons v rest ih =>
        intro st hst hin hex
        unfold visitNeighbors
        by_cases hv : v = start
        · subst hv
          have hmem : v ∈ st.visited := by rw [hst]; simp
          simp only [hmem, if_true, bind, Except.bind]
          refine ih _ hst (fun z hz => hin z (List.mem_cons_of_mem _ hz)) ?_
          obtain ⟨z, hz, hz'⟩ := hex
          rcases List.mem_cons.1 hz with rfl | hz
          · exact absurd rfl hz'
          · exact ⟨z, hz, hz'⟩
        · have hmem : v ∉ st.visited := by rw [hst]; simpa using hv
          simp only [hmem, if_false, bind, Except.bind]
          have hp : ∀ s, g.push 0 start v s = .error .type := by
            intro s
            unfold push
            have hf : g.edges.findIdx? (fun e => decide (e.1 = start) && decide (e.2 = v)) =
                some (g.edges.findIdx (fun e => decide (e.1 = start) && decide (e.2 = v))) :=
              List.findIdx?_eq_some_of_exists ⟨(start, v), hin v List.mem_cons_self, by simp⟩
            rw [hf]
            simp [attrAt, ha, bind, Except.bind]
          rw [hp]
    rw [gen _ _ rfl (fun v hv => mem_neighbors.1 hv) ⟨w, mem_neighbors.2 hw, hne⟩]
    rfl
  · intro hall
    have gen : ∀ (ns : List Int) (st : TravState), st.visited = [start] → (∀ v ∈ ns, v = start) →
        g.visitNeighbors 0 start ns st = .ok { st with edgeSeq := st.edgeSeq ++ ns.map (fun v => (start, v)) } := by
      intro ns
      induction ns with
      | nil => intro st _ _; simp [visitNeighbors]
      | cons v rest ih =>
        intro st hst hin
        have hv := hin v List.mem_cons_self
        subst hv
        unfold visitNeighbors
        have hmem : v ∈ st.visited := by rw [hst]; simp
        simp only [hmem, if_true, bind, Except.bind]
        rw [ih { st with edgeSeq := st.edgeSeq ++ [(v, v)] } hst (fun z hz => hin z (List.mem_cons_of_mem _ hz))]
        simp
    rw [gen _ _ rfl (fun v hv => hall v (mem_neighbors.1 hv))]
    have hloop : ∀ st : TravState, st.pq = [] → g.loop f st = .ok (some st) := by
      intro st hst
      unfold loop
      rw [hst]
    dsimp only [bind, Except.bind]
    rw [hloop _ rfl]
    simp only [Option.map_some, List.nil_append, Except.ok.injEq, Option.some.injEq, Prod.mk.injEq, true_and]
    unfold neighbors
    rw [List.map_map]
    conv_rhs => rw [← List.map_id (g.edges.filter _)]
    refine List.map_congr_left ?_
    intro e he
    rw [List.mem_filter, decide_eq_true_eq] at he
    simp [← he.2]

/-! ### Examples -/

/-- Two ways from 0 to 2, a double edge whose second copy is ignored, a loop, and a part that cannot be reached. -/
def exTrav : TravGraph := { edges := [(0, 2), (0, 1), (1, 2), (2, 2), (2, 3), (5, 0), (0, 1)], attr := some [5, 1, 1, 0, 1/2, 1, 1/4] }

example : Spec.Weighted exTrav := ⟨_, rfl, by decide⟩

example : exTrav.traverse 8 0 = .ok (some ([0, 1, 2, 3], [(0, 2), (0, 1), (0, 1), (1, 2), (2, 2), (2, 3)])) := by decide +kernel

example : exTrav.traverse 8 7 = .ok (some ([7], [])) := by decide +kernel

example : ∀ u w x, Spec.StepWeight exTrav u w x → 0 ≤ x := by
  rintro u w x ⟨l, hl, i, _, hx, _⟩
  cases hl
  have : ∀ y ∈ [(5 : ℚ), 1, 1, 0, 1/2, 1, 1/4], 0 ≤ y := by decide +kernel
  exact this x (List.mem_of_getElem? hx)

/-- With a negative weight the order is not by distance: 2 is visited before 1 although a walk over 1 would make it nearer. -/
example : ({ edges := [(0, 1), (0, 2), (1, 2)], attr := some [3, 2, -2] } : TravGraph).traverse 4 0 =
    .ok (some ([0, 2, 1], [(0, 1), (0, 2), (1, 2)])) := by decide +kernel

example : ({ edges := [(0, 1)], attr := none } : TravGraph).traverse 4 0 = .error .type := by decide +kernel

end NGC
