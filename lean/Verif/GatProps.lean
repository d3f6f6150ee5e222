import Verif.GatLstm
import Verif.GcnNetsProps

namespace NGC

section
variable {V W G G' A B C P : Type} [DecidableEq V] [Fintype V] [DecidableEq W] [Fintype W] [DecidableEq G] [DecidableEq G']
  [Fintype A] [Fintype B] [Fintype C] [Fintype P]

namespace Spec

/-- A row times the matrix of a layer, for a head and a column. -/
def projected (c : Gat A P B) (x : Rows V A ℝ) (u : V) (f : P × B) : ℝ := ∑ a, x u a * c.w a f

/-- How much node `i` attends to node `u` before normalization. -/
noncomputable def attention (c : Gat A P B) (x : Rows V A ℝ) (p : P) (u i : V) : ℝ :=
  Real.exp (leaky ((∑ b, projected c x u (p, b) * c.attSrc p b) + ∑ b, projected c x i (p, b) * c.attDst p b))

end Spec

open Spec

/-- C178: what an attention layer computes: the mean of the projected rows of the predecessors of a node and of its own row, each with its
attention as weight, plus the bias. The edge attributes are not used. -/
theorem C178_formula {E : Type} (c : Gat A P B) (x : Rows V A ℝ) (edges : List (V × V)) (attr : Option (List E)) (i : V) (p : P) (b : B) :
    c.apply x edges attr i (p, b) =
      ((sources edges i ++ [i]).map (fun u => attention c x p u i * projected c x u (p, b))).sum /
        ((sources edges i ++ [i]).map (fun u => attention c x p u i)).sum + c.bias (p, b) := by
  unfold Gat.apply
  rw [propagate_some]
  unfold inflowW
  rw [zip_map_self, List.filter_map]
  have h1 : ((fun e : (V × V) × ℝ => decide (e.1.2 = i)) ∘ fun e : V × V => (e, c.weight x (selfLooped edges) p e)) =
      fun e => decide (e.2 = i) := rfl
  have h2 : (sources edges i).map (fun u => (u, i)) ++ [(i, i)] = (sources edges i ++ [i]).map (fun u => (u, i)) := by simp
  simp only [h1, selfLooped_at]
  rw [h2, List.map_map, List.map_map, div_eq_mul_inv, ← List.sum_map_mul_right]
  congr 2
  apply List.map_congr_left
  intro u _
  simp only [Function.comp, Gat.weight, selfLooped_at]
  rw [h2, List.map_map]
  have h3 : ∀ u, Real.exp (c.score x p (u, i)) = attention c x p u i := fun u => rfl
  have h4 : ((fun e' => Real.exp (c.score x p e')) ∘ fun u => (u, i)) = fun u => attention c x p u i := rfl
  rw [h3, h4]
  have h5 : c.lin x u (p, b) = projected c x u (p, b) := rfl
  rw [h5]
  ring

theorem attention_pos (c : Gat A P B) (x : Rows V A ℝ) (p : P) (u i : V) : 0 < attention c x p u i := Real.exp_pos _

theorem attention_sum_pos (c : Gat A P B) (x : Rows V A ℝ) (p : P) (i : V) (l : List V) : 0 < ((l ++ [i]).map (fun u => attention c x p u i)).sum := by
  induction l with
  | nil => simpa using attention_pos c x p i i
  | cons a l ih =>
    simp only [List.cons_append, List.map_cons, List.sum_cons]
    exact add_pos (attention_pos c x p a i) ih

/-- C178: nothing is amplified: without the bias, the output for a node lies between the least and the greatest of the projected rows of
itself and its predecessors, whatever the attention. -/
theorem C178_between {E : Type} (c : Gat A P B) (x : Rows V A ℝ) (edges : List (V × V)) (attr : Option (List E)) (i : V) (f : P × B) (lo hi : ℝ)
    (h : ∀ u, u = i ∨ (u, i) ∈ edges → lo ≤ projected c x u f ∧ projected c x u f ≤ hi) :
    lo + c.bias f ≤ c.apply x edges attr i f ∧ c.apply x edges attr i f ≤ hi + c.bias f := by
  obtain ⟨p, b⟩ := f
  rw [C178_formula]
  have hS := attention_sum_pos c x p i (sources edges i)
  have hm : ∀ u ∈ sources edges i ++ [i], lo ≤ projected c x u (p, b) ∧ projected c x u (p, b) ≤ hi := by
    intro u hu
    apply h
    rcases List.mem_append.mp hu with hu | hu
    · unfold sources at hu
      obtain ⟨e, he, rfl⟩ := List.mem_map.mp hu
      obtain ⟨h2, h3⟩ := List.mem_filter.mp he
      simp only [decide_eq_true_eq] at h3
      right
      rw [← h3.1]; exact h2
    · left; simpa using hu
  constructor
  · apply add_le_add_left
    rw [le_div_iff₀ hS, ← List.sum_map_mul_left]
    apply List.sum_le_sum
    intro u hu
    rw [mul_comm]
    exact mul_le_mul_of_nonneg_left (hm u hu).1 (attention_pos _ _ _ _ _).le
  · apply add_le_add_left
    rw [div_le_iff₀ hS, ← List.sum_map_mul_left]
    apply List.sum_le_sum
    intro u hu
    rw [mul_comm hi]
    exact mul_le_mul_of_nonneg_left (hm u hu).2 (attention_pos _ _ _ _ _).le

/-- C178: attention does not count: if all predecessors of a node have its own features, their number is irrelevant and the output is that of
a graph of the node alone. In particular for a node without predecessors. -/
theorem C178_alike {E : Type} (c : Gat A P B) (x : Rows V A ℝ) (edges : List (V × V)) (attr : Option (List E)) (i : V) (f : P × B)
    (h : ∀ u, (u, i) ∈ edges → x u = x i) :
    c.apply x edges attr i f = projected c x i f + c.bias f ∧
    c.apply x edges attr i f = c.apply (E := E) (fun _ : Unit => x i) [] none () f := by
  have h1 : c.apply x edges attr i f = projected c x i f + c.bias f := by
    have := C178_between c x edges attr i f (projected c x i f) (projected c x i f) (by
      rintro u (rfl | hu)
      · exact ⟨le_refl _, le_refl _⟩
      · have : projected c x u f = projected c x i f := by unfold projected; rw [h u hu]
        rw [this]; exact ⟨le_refl _, le_refl _⟩)
    exact le_antisymm this.2 this.1
  refine ⟨h1, ?_⟩
  rw [h1]
  have := C178_between (E := E) c (fun _ : Unit => x i) [] none () f (projected c x i f) (projected c x i f) (by
    intro u _
    exact ⟨le_refl _, le_refl _⟩)
  exact le_antisymm this.1 this.2

/-- C178 (defect): the switch `use_edge_weights` of the first example and the edge attributes have no effect. -/
theorem C178_attributes {E : Type} (use use' : Bool) (c1 : Gat A Unit B) (c2 : Gat (Unit × B) Unit C) (x : Rows V A ℝ) (edges : List (V × V))
    (attr attr' : List E) (batch : V → G) : gatPooled use c1 c2 x edges attr batch = gatPooled use' c1 c2 x edges attr' batch := by
  have h1 : ∀ {D F Q : Type} [Fintype D] [Fintype F] [Fintype Q] (c : Gat D Q F) (y : Rows V D ℝ) (a a' : Option (List E)), c.apply y edges a = c.apply y edges a' := by
    intro D F Q _ _ _ c y a a'
    funext i f
    obtain ⟨p, b⟩ := f
    rw [C178_formula, C178_formula]
  unfold gatPooled
  cases use <;> cases use' <;> simp only [h1 c1 x (some attr) none, h1 c1 x (some attr') none, h1 c2 _ (some attr) none, h1 c2 _ (some attr') none, Bool.false_eq_true, if_true, if_false]

theorem sources_contained (σ : V → W) (edges : List (V × V)) (edges' : List (W × W)) (h : Contained σ edges edges') (i : V) :
    (sources edges' (σ i)).Perm ((sources edges i).map σ) := by
  unfold sources
  have h1 := ((h.2 i).filter (fun e => decide (e.1 ≠ σ i))).map (·.1)
  rw [List.filter_filter, List.filter_map, List.map_map, List.filter_filter] at h1
  rw [List.map_map]
  have e1 : (fun a : W × W => decide (a.1 ≠ σ i) && decide (a.2 = σ i)) = fun e => decide (e.2 = σ i ∧ e.1 ≠ σ i) := by
    funext e
    rw [Bool.and_comm, ← Bool.decide_and]
  have e2 : (fun a : V × V => ((fun e : W × W => decide (e.1 ≠ σ i)) ∘ fun e : V × V => (σ e.1, σ e.2)) a && decide (a.2 = i)) =
      fun e => decide (e.2 = i ∧ e.1 ≠ i) := by
    funext e
    simp only [Function.comp]
    rw [Bool.and_comm, ← Bool.decide_and]
    simp only [ne_eq, h.1.eq_iff]
  rw [e1, e2] at h1
  exact h1

theorem gat_contained {E : Type} (c : Gat A P B) (σ : V → W) (edges : List (V × V)) (edges' : List (W × W)) (h : Contained σ edges edges')
    (x : Rows W A ℝ) (a a' : Option (List E)) (i : V) : c.apply x edges' a (σ i) = c.apply (fun v => x (σ v)) edges a' i := by
  funext f
  obtain ⟨p, b⟩ := f
  rw [C178_formula, C178_formula]
  have hs : (sources edges' (σ i) ++ [σ i]).Perm ((sources edges i ++ [i]).map σ) := by
    rw [List.map_append]
    exact (sources_contained σ edges edges' h i).append (List.Perm.refl _)
  rw [(hs.map _).sum_eq, (hs.map (fun u => attention c x p u (σ i))).sum_eq, List.map_map, List.map_map]
  rfl

/-- C178: the outputs of the attention network for the nodes of a graph that lies in a larger one without edges into it from outside (after a
renumbering, or in a batch) are those for that graph alone. -/
theorem C178_contained (σ : V → W) (edges : List (V × V)) (edges' : List (W × W)) (h : Contained σ edges edges') (x : Rows W A ℝ) (i : V)
    (c1 : Gat A P B) (c2 : Gat (P × B) Unit C) : gatForward c1 c2 x edges' (σ i) = gatForward c1 c2 (fun v => x (σ v)) edges i := by
  unfold gatForward
  rw [gat_contained _ σ edges edges' h _ none none]
  congr 1
  funext v g
  simp only [actRows]
  rw [gat_contained _ σ edges edges' h _ none none]

/-- C178: what pooling computes: for each graph of the batch the mean of the rows of its nodes, and zero for a graph without nodes. -/
theorem C178_pool (batch : V → G) (x : Rows V A ℝ) (g : G) (f : A) :
    meanPool batch x g f = (∑ v ∈ Finset.univ.filter (fun v => batch v = g), x v f) / (Finset.univ.filter (fun v => batch v = g)).card := by
  unfold meanPool
  rw [Finset.sum_filter]
  have hc : (∑ v, if batch v = g then (1 : ℝ) else 0) = ((Finset.univ.filter (fun v => batch v = g)).card : ℝ) := by
    rw [← Finset.sum_filter]; simp
  rw [hc]
  by_cases h0 : (Finset.univ.filter (fun v => batch v = g)).card = 0
  · have hz : (∑ v, if batch v = g then x v f else 0) = 0 := by
      rw [← Finset.sum_filter, Finset.card_eq_zero.1 h0, Finset.sum_empty]
    rw [hz, zero_div, zero_div]
  · rw [max_eq_right]
    exact_mod_cast Nat.one_le_iff_ne_zero.2 h0

/-- C178: graphs of a batch do not influence each other's predictions in the pooled network of the first example, and the predictions for a
graph are logarithms of probabilities. -/
theorem C178_pooled {E : Type} (use : Bool) (c1 : Gat A Unit B) (c2 : Gat (Unit × B) Unit C) (x : Rows (V ⊕ W) A ℝ) (e1 : List (V × V))
    (e2 : List (W × W)) (attr : List E) (b1 : V → G) (b2 : W → G') (g : G) :
    gatPooled use c1 c2 x (e1.map (fun e => (Sum.inl e.1, Sum.inl e.2)) ++ e2.map (fun e => (Sum.inr e.1, Sum.inr e.2))) attr
        (Sum.elim (fun v => Sum.inl (b1 v)) (fun w => Sum.inr (b2 w)) : V ⊕ W → G ⊕ G') (Sum.inl g) =
      gatPooled use c1 c2 (fun v => x (Sum.inl v)) e1 attr b1 g ∧
    (Nonempty C → ∑ c, Real.exp (gatPooled use c1 c2 (fun v => x (Sum.inl v)) e1 attr b1 g c) = 1) := by
  constructor
  · rw [C178_attributes use false, C178_attributes use false c1 c2 (fun v => x (Sum.inl v))]
    · have hc := (C175_batch e1 e2).1
      unfold gatPooled
      simp only [Bool.false_eq_true, if_false]
      congr 1
      funext f
      unfold meanPool
      simp only [Fintype.sum_sum_type, Sum.elim_inl, Sum.elim_inr, Sum.inl.injEq, reduceCtorEq, if_false, Finset.sum_const_zero, add_zero]
      congr 1
      refine Finset.sum_congr rfl (fun v _ => ?_)
      congr 1
      refine congrFun ?_ f
      rw [gat_contained _ Sum.inl e1 _ hc _ none none]
      congr 1
      funext v g
      simp only [relu]
      rw [gat_contained _ Sum.inl e1 _ hc _ none none]
    · exact attr
    · exact attr
  · intro hC
    exact (C175_probabilities _).2.1

/-- C178: two layers of attention see the features of those nodes only from which a walk of at most two edges leads to the node. -/
theorem C178_local (edges : List (V × V)) (x y : Rows V A ℝ) (i : V) (h : ∀ u, Within edges 2 u i → x u = y u) (c1 : Gat A P B)
    (c2 : Gat (P × B) Unit C) : gatForward c1 c2 x edges i = gatForward c1 c2 y edges i := by
  have key : ∀ {D F Q : Type} [Fintype D] [Fintype F] [Fintype Q] (c : Gat D Q F) (x y : Rows V D ℝ) (j : V), (∀ u, u = j ∨ (u, j) ∈ edges → x u = y u) →
      c.apply (E := Unit) x edges none j = c.apply (E := Unit) y edges none j := by
    intro D F Q _ _ _ c x y j hj
    funext f
    obtain ⟨p, b⟩ := f
    rw [C178_formula, C178_formula]
    have hp : ∀ u, u = j ∨ (u, j) ∈ edges → ∀ f, projected c x u f = projected c y u f := by
      intro u hu f
      unfold projected
      rw [hj u hu]
    have hm : ∀ u ∈ sources edges j ++ [j], u = j ∨ (u, j) ∈ edges := by
      intro u hu
      rcases List.mem_append.mp hu with hu | hu
      · unfold sources at hu
        obtain ⟨e, he, rfl⟩ := List.mem_map.mp hu
        obtain ⟨h2, h3⟩ := List.mem_filter.mp he
        simp only [decide_eq_true_eq] at h3
        right
        rw [← h3.1]; exact h2
      · left; simpa using hu
    have ha : ∀ u, u = j ∨ (u, j) ∈ edges → attention c x p u j = attention c y p u j := by
      intro u hu
      unfold attention
      simp only [hp u hu, hp j (Or.inl rfl)]
    congr 3
    · apply List.map_congr_left
      intro u hu
      rw [ha u (hm u hu), hp u (hm u hu)]
    · apply List.map_congr_left
      intro u hu
      rw [ha u (hm u hu)]
  unfold gatForward
  apply key
  intro u hu
  funext f
  simp only [actRows]
  rw [key c1 x y u (fun v hv => h v (within_step hu (within_step hv (.here 0 v))))]

end

/-- **C178, the activations.** The score of an edge and the activation between the layers are the identity above 0; below 0 the score is a fifth, and the activation lies between -1 and 0. Both keep the order. -/
theorem C178_activations (s t : ℝ) :
    (0 ≤ t → leaky t = t ∧ elu t = t) ∧ (t < 0 → leaky t = 1 / 5 * t ∧ elu t = Real.exp t - 1 ∧ -1 < elu t ∧ elu t < 0) ∧
    (s < t → leaky s < leaky t ∧ elu s < elu t) := by
  have neg : ∀ u : ℝ, u < 0 → leaky u = 1 / 5 * u ∧ elu u = Real.exp u - 1 := by
    intro u h
    unfold leaky elu
    rw [if_neg (not_le.2 h), if_neg (not_lt.2 h.le)]
    exact ⟨by ring, rfl⟩
  have pos : ∀ u : ℝ, 0 ≤ u → leaky u = u ∧ elu u = u := by
    intro u h
    unfold leaky elu
    rw [if_pos h]
    refine ⟨rfl, ?_⟩
    split
    · rfl
    · rename_i h2
      have : u = 0 := le_antisymm (not_lt.1 h2) h
      rw [this]; simp
  have below : ∀ u : ℝ, u < 0 → -1 < elu u ∧ elu u < 0 := by
    intro u h
    rw [(neg u h).2]
    have h1 := Real.exp_pos u
    have h2 : Real.exp u < 1 := Real.exp_lt_one_iff.2 h
    exact ⟨by linarith, by linarith⟩
  refine ⟨pos t, fun h => ⟨(neg t h).1, (neg t h).2, below t h⟩, fun h => ?_⟩
  rcases lt_or_ge s 0 with hs | hs
  · rcases lt_or_ge t 0 with ht | ht
    · rw [(neg s hs).1, (neg s hs).2, (neg t ht).1, (neg t ht).2]
      exact ⟨by linarith, by have := Real.exp_lt_exp.2 h; linarith⟩
    · rw [(pos t ht).1, (pos t ht).2, (neg s hs).1]
      exact ⟨by linarith, lt_of_lt_of_le (below s hs).2 ht⟩
  · have ht : 0 ≤ t := hs.trans h.le
    rw [(pos t ht).1, (pos t ht).2, (pos s hs).1, (pos s hs).2]
    exact ⟨h, h⟩

end NGC
