import Verif.Gin
import Verif.GcnProps

namespace NGC

open Spec

section
variable {V W G F H C K : Type} [DecidableEq V] [DecidableEq W] [DecidableEq G] [Fintype V] [Fintype W] [Fintype F] [Fintype H] [Field K]
  [LinearOrder K] [IsStrictOrderedRing K]

omit [Fintype V] [Fintype W] [Fintype F] [Fintype H] in
theorem ginLayer_embeds {A B : Type} [Fintype A] (mlp : (A → K) → (B → K)) (σ : V → W) (edges : List (V × V)) (edges' : List (W × W))
    (h : Embeds σ edges edges') (x : Rows W A K) :
    (fun v => ginLayer mlp edges' x (σ v)) = ginLayer mlp edges (fun v => x (σ v)) := by
  funext v f
  unfold ginLayer
  have : (fun a => x (σ v) a + propagate edges' none x (σ v) a) = fun a => x (σ v) a + propagate edges none (fun v => x (σ v)) v a := by
    funext a
    rw [propagate_none, propagate_none, inflow_embeds σ edges edges' h]
  rw [this]

omit [Fintype V] [Fintype W] in
theorem gin_embeds (n : Gin F H C K) (σ : V → W) (edges : List (V × V)) (edges' : List (W × W)) (h : Embeds σ edges edges') (x : Rows W F K) :
    (fun v => n.rest.foldl (fun y mlp => ginLayer mlp edges' y) (ginLayer n.first edges' x) (σ v)) =
      n.rest.foldl (fun y mlp => ginLayer mlp edges y) (ginLayer n.first edges (fun v => x (σ v))) := by
  rw [← ginLayer_embeds n.first σ edges edges' h]
  generalize ginLayer n.first edges' x = y
  induction n.rest generalizing y with
  | nil => rfl
  | cons m ms ih =>
    simp only [List.foldl_cons]
    rw [ih, ginLayer_embeds m σ edges edges' h]

/-- C170: the prediction for a graph does not depend on the names or the order of its nodes, nor on the order of its edges. -/
theorem C170_invariant (n : Gin F H C K) (σ : V ≃ W) (edges : List (V × V)) (edges' : List (W × W))
    (he : edges'.Perm (edges.map (fun e => (σ e.1, σ e.2)))) (x : Rows W F K) (batch : W → G) :
    n.forward x edges' batch = n.forward (fun v => x (σ v)) edges (fun v => batch (σ v)) := by
  have h := gin_embeds n σ edges edges' ⟨σ.injective, fun _ => he.filter _⟩ x
  funext g
  unfold Gin.forward
  congr 1
  rw [← h]
  funext f
  unfold addPool
  exact (Equiv.sum_comp σ (fun w => if batch w = g then
    n.rest.foldl (fun y mlp => ginLayer mlp edges' y) (ginLayer n.first edges' x) w f else 0)).symm

/-- C170: the graphs of a batch do not influence each other: the prediction for each is the one for that graph alone. -/
theorem C170_batch (n : Gin F H C K) (e1 : List (V × V)) (e2 : List (W × W)) (x : Rows (V ⊕ W) F K) :
    let edges := e1.map (fun e => ((Sum.inl e.1 : V ⊕ W), (Sum.inl e.2 : V ⊕ W))) ++ e2.map (fun e => (Sum.inr e.1, Sum.inr e.2))
    n.forward x edges (Sum.elim (fun _ => false) (fun _ => true)) false = n.forward (fun v => x (Sum.inl v)) e1 (fun _ => ()) () ∧
    n.forward x edges (Sum.elim (fun _ => false) (fun _ => true)) true = n.forward (fun w => x (Sum.inr w)) e2 (fun _ => ()) () := by
  intro edges
  have emb1 : Embeds (Sum.inl : V → V ⊕ W) e1 edges := by
    refine ⟨Sum.inl_injective, fun i => ?_⟩
    show (List.filter _ (_ ++ _)).Perm _
    rw [List.filter_append]
    have : (e2.map (fun e : W × W => ((Sum.inr e.1 : V ⊕ W), (Sum.inr e.2 : V ⊕ W)))).filter (fun e => decide (e.2 = Sum.inl i)) = [] := by
      rw [List.filter_eq_nil_iff]
      intro a ha
      rw [List.mem_map] at ha
      obtain ⟨b, _, rfl⟩ := ha
      simp
    rw [this, List.append_nil]
  have emb2 : Embeds (Sum.inr : W → V ⊕ W) e2 edges := by
    refine ⟨Sum.inr_injective, fun i => ?_⟩
    show (List.filter _ (_ ++ _)).Perm _
    rw [List.filter_append]
    have : (e1.map (fun e : V × V => ((Sum.inl e.1 : V ⊕ W), (Sum.inl e.2 : V ⊕ W)))).filter (fun e => decide (e.2 = Sum.inr i)) = [] := by
      rw [List.filter_eq_nil_iff]
      intro a ha
      rw [List.mem_map] at ha
      obtain ⟨b, _, rfl⟩ := ha
      simp
    rw [this, List.nil_append]
  have h1 := gin_embeds n Sum.inl e1 edges emb1 x
  have h2 := gin_embeds n Sum.inr e2 edges emb2 x
  constructor
  · unfold Gin.forward
    congr 1
    rw [← h1]
    funext f
    simp [addPool, Fintype.sum_sum_type]
  · unfold Gin.forward
    congr 1
    rw [← h2]
    funext f
    simp [addPool, Fintype.sum_sum_type]

end

theorem scatter_loop (zero : List ℚ) (out : List (List ℚ)) : ∀ (k : Nat) (acc : List (List ℚ)), k ≤ out.length → k ≤ acc.length →
    (List.range k).foldlM (fun (acc : List (List ℚ)) i =>
      if i < acc.length then (.ok (acc.set i (out.getD i zero)) : Py (List (List ℚ))) else .error .runtime) acc =
    .ok (out.take k ++ acc.drop k) := by
  intro k
  induction k with
  | zero => intro acc _ _; simp [pure, Except.pure]
  | succ k ih =>
    intro acc h1 h2
    rw [List.range_succ, List.foldlM_append, ih acc (by omega) (by omega)]
    have hl : k < (out.take k ++ acc.drop k).length := by simp; omega
    simp only [bind, Except.bind, List.foldlM_cons, List.foldlM_nil, if_pos hl, pure, Except.pure]
    congr 1
    apply List.ext_getElem
    · simp; omega
    · intro j hj1 hj2
      rw [List.getElem_set]
      split
      · rename_i hk
        subst hk
        rw [List.getElem_append_left (by simp; omega)]
        simp only [List.getElem_take]
        rw [List.getD_eq_getElem?_getD, List.getElem?_eq_getElem (by omega)]
        rfl
      · rename_i hk
        by_cases hjk : j < k
        · rw [List.getElem_append_left (by simp; omega), List.getElem_append_left (by simp; omega)]
          simp
        · rw [List.getElem_append_right (by simp; omega), List.getElem_append_right (by simp; omega)]
          simp only [List.length_take, List.getElem_drop]
          congr 1
          omega

/-- C170: defect of the example: the output for graph number `j` of a batch is taken as the prediction for NODE number `j` of the batch, and
all nodes after the first `number of graphs` nodes are predicted to be of class 0, whatever the network is and whatever graph they are in. -/
theorem C170_node_classes (classes nodes : Nat) (out : List (List ℚ)) (h : out.length ≤ nodes) :
    nodeClasses classes nodes out = .ok (out.map argmaxRow ++ List.replicate (nodes - out.length) 0) := by
  unfold nodeClasses scatterRows
  rw [scatter_loop _ out out.length _ le_rfl (by simpa using h)]
  simp only [Except.map, List.take_length, List.map_append, List.drop_replicate, List.map_replicate]
  have : argmaxRow (List.replicate classes 0) = 0 := by
    cases classes with
    | zero => rfl
    | succ c =>
      have hf : ∀ n, (List.replicate n (0 : ℚ)).foldl max 0 = 0 := by
        intro n
        induction n with
        | zero => rfl
        | succ n ih => rw [List.replicate_succ, List.foldl_cons, max_self, ih]
      unfold argmaxRow
      rw [List.replicate_succ, List.foldl_cons, List.headD_cons, max_self, hf, List.idxOf_cons_self]
  rw [this]

/-- Two graphs of three and two nodes: the outputs of the two graphs go to the first two nodes of the first graph. -/
example : nodeClasses 3 5 [[1, 2, 0], [0, 0, 7]] = .ok [1, 2, 0, 0, 0] := by decide +kernel

/-- A classifier of one feature whose prediction does depend on the edges. -/
example :
    let n : Gin (Fin 1) (Fin 1) (Fin 1) ℚ := ⟨id, [fun r f => 2 * r f], id⟩
    n.forward (fun (i : Fin 3) _ => (i.val : ℚ)) [(2, 0)] (fun _ => ()) () 0 = 14 ∧
    n.forward (fun (i : Fin 3) _ => (i.val : ℚ)) [] (fun _ => ()) () 0 = 6 := by
  decide +kernel

end NGC
