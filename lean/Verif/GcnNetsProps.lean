import Verif.GcnNets
import Verif.GcnProps

namespace NGC

section
variable {V W A B C : Type} [DecidableEq V] [Fintype V] [DecidableEq W] [Fintype W] [Fintype A] [Fintype B] [Fintype C]

/-! ### Specification -/

namespace Spec

/-- The sources of the edges into `i` from other nodes, with repetition. -/
def sources (edges : List (V × V)) (i : V) : List V := (edges.filter (fun e => decide (e.2 = i ∧ e.1 ≠ i))).map (·.1)

/-- One more than the number of edges into `i` from other nodes. -/
def links (edges : List (V × V)) (i : V) : ℝ := 1 + (sources edges i).length

/-- The row of a node times the matrix of a layer. -/
def lifted (c : GConv A B) (x : Rows V A ℝ) (u : V) (f : B) : ℝ := ∑ a, x u a * c.w a f

/-- An embedding of a graph into a graph such that the edges into a node of the image are those of the first graph. -/
def Contained (σ : V → W) (edges : List (V × V)) (edges' : List (W × W)) : Prop :=
  Function.Injective σ ∧ ∀ i, (edges'.filter (fun e => decide (e.2 = σ i))).Perm
    ((edges.filter (fun e => decide (e.2 = i))).map (fun e => (σ e.1, σ e.2)))

end Spec

open Spec

/-! ### One layer -/

theorem zip_map_self {α β : Type} (l : List α) (g : α → β) : l.zip (l.map g) = l.map (fun e => (e, g e)) := by
  induction l with
  | nil => rfl
  | cons a l ih => simp [ih]

theorem loops_at (i : V) : (((Finset.univ : Finset V).toList.map (fun v => (v, v))).filter (fun e => decide (e.2 = i))) = [(i, i)] := by
  rw [List.filter_map]
  have : ((fun e : V × V => decide (e.2 = i)) ∘ fun v => (v, v)) = fun v => decide (v = i) := rfl
  have h2 : (Finset.univ : Finset V).toList.filter (fun v => decide (v = i)) = [i] := by
    apply List.perm_singleton.mp
    apply (List.perm_ext_iff_of_nodup ((Finset.nodup_toList _).filter _) (List.nodup_singleton i)).mpr
    simp
  rw [this, h2]
  rfl

theorem selfLooped_at (edges : List (V × V)) (i : V) :
    (selfLooped edges).filter (fun e => decide (e.2 = i)) = (sources edges i).map (fun u => (u, i)) ++ [(i, i)] := by
  unfold selfLooped sources
  rw [List.filter_append, loops_at, List.filter_filter, List.map_map]
  congr 1
  have h1 : edges.filter (fun a => decide (a.2 = i) && decide (a.1 ≠ a.2)) = edges.filter (fun e => decide (e.2 = i ∧ e.1 ≠ i)) := by
    apply List.filter_congr
    intro e _
    by_cases h : e.2 = i
    · simp [h]
    · simp [h]
  rw [h1]
  symm
  conv_rhs => rw [← List.map_id (List.filter _ _)]
  apply List.map_congr_left
  intro e he
  have := (List.mem_filter.mp he).2
  simp only [decide_eq_true_eq] at this
  simp only [Function.comp, id]
  rw [← this.1]

theorem inDeg_looped (edges : List (V × V)) (i : V) : inDeg (selfLooped edges) i = links edges i := by
  unfold inDeg links
  rw [selfLooped_at]
  simp [add_comm]

theorem links_pos (edges : List (V × V)) (i : V) : 0 < links edges i := by unfold links; positivity

/-- C175: what the layer computes. Into every node flow its own row and the rows of the sources of its edges from other nodes, each
multiplied by the matrix and divided by the root of the number of links of its node and of the receiving node; then the bias is added. -/
theorem C175_formula (c : GConv A B) (x : Rows V A ℝ) (edges : List (V × V)) (i : V) (f : B) :
    c.apply x edges i f =
      (((sources edges i).map (fun u => lifted c x u f / √(links edges u))).sum + lifted c x i f / √(links edges i)) / √(links edges i) +
        c.b f := by
  unfold GConv.apply
  rw [propagate_some]
  unfold inflowW normWeights
  rw [zip_map_self, List.filter_map]
  have : ((fun e : (V × V) × ℝ => decide (e.1.2 = i)) ∘
      fun e : V × V => (e, (√(inDeg (selfLooped edges) e.1))⁻¹ * (√(inDeg (selfLooped edges) e.2))⁻¹)) = fun e => decide (e.2 = i) := rfl
  rw [this, selfLooped_at]
  simp only [List.map_append, List.map_map, List.sum_append, List.map_cons, List.map_nil, List.sum_cons, List.sum_nil, add_zero, inDeg_looped]
  congr 1
  rw [add_div]
  congr 1
  · rw [div_eq_mul_inv, ← List.sum_map_mul_right]
    congr 1
    apply List.map_congr_left
    intro u _
    simp only [Function.comp, lifted]
    ring
  · unfold lifted
    ring

theorem sources_loops (edges : List (V × V)) (loops : List V) (i : V) :
    sources (edges ++ loops.map (fun v => (v, v))) i = sources edges i := by
  unfold sources
  rw [List.filter_append, List.map_append]
  have : (loops.map (fun v => (v, v))).filter (fun e => decide (e.2 = i ∧ e.1 ≠ i)) = [] := by
    rw [List.filter_eq_nil_iff]
    intro e he
    obtain ⟨v, _, rfl⟩ := List.mem_map.mp he
    simp
  rw [this]
  simp

/-- C175: chords that follow themselves are irrelevant: self loops, however many, change nothing. -/
theorem C175_loops (c : GConv A B) (x : Rows V A ℝ) (edges : List (V × V)) (loops : List V) :
    c.apply x (edges ++ loops.map (fun v => (v, v))) = c.apply x edges := by
  funext i f
  simp only [C175_formula, links, sources_loops]

theorem conv_contained (c : GConv A B) (σ : V → W) (edges : List (V × V)) (edges' : List (W × W)) (h : Contained σ edges edges')
    (x : Rows W A ℝ) (i : V) : c.apply x edges' (σ i) = c.apply (fun v => x (σ v)) edges i := by
  have hs : ∀ i, (sources edges' (σ i)).Perm ((sources edges i).map σ) := by
    intro i
    unfold sources
    have h1 := ((h.2 i).filter (fun e => decide (e.1 ≠ σ i))).map (·.1)
    rw [List.filter_filter, List.filter_map, List.map_map, List.filter_filter] at h1
    rw [List.map_map]
    have e1 : (fun a : W × W => decide (a.1 ≠ σ i) && decide (a.2 = σ i)) = fun e => decide (e.2 = σ i ∧ e.1 ≠ σ i) := by
      funext e
      rw [Bool.and_comm, ← Bool.decide_and]
    have e2 : (fun a : V × V => ((fun e : W × W => decide (e.1 ≠ σ i)) ∘ fun e : V × V => (σ e.1, σ e.2)) a && decide (a.2 = i)) =
        fun e => decide (e.2 = i ∧ e.1 ≠ i) := by
      funext e
      simp only [Function.comp]
      rw [Bool.and_comm, ← Bool.decide_and]
      simp only [ne_eq, h.1.eq_iff]
    rw [e1, e2] at h1
    exact h1
  have hl : ∀ i, links edges' (σ i) = links edges i := by
    intro i
    unfold links
    rw [(hs i).length_eq, List.length_map]
  funext f
  rw [C175_formula, C175_formula, hl, ((hs i).map _).sum_eq, List.map_map]
  have he : ((fun u => lifted c x u f / √(links edges' u)) ∘ σ) = fun u => lifted c (fun v => x (σ v)) u f / √(links edges u) := by
    funext u
    simp only [Function.comp, hl]
    rfl
  rw [he]
  rfl

theorem conv_congr (c : GConv A B) (edges : List (V × V)) (x y : Rows V A ℝ) (i : V)
    (h : ∀ u, u = i ∨ (u, i) ∈ edges → x u = y u) : c.apply x edges i = c.apply y edges i := by
  funext f
  rw [C175_formula, C175_formula]
  have h1 : lifted c x i f = lifted c y i f := by unfold lifted; rw [h i (Or.inl rfl)]
  rw [h1]
  congr 4
  apply List.map_congr_left
  intro u hu
  unfold sources at hu
  obtain ⟨e, he, rfl⟩ := List.mem_map.mp hu
  obtain ⟨h2, h3⟩ := List.mem_filter.mp he
  simp only [decide_eq_true_eq] at h3
  have : x e.1 = y e.1 := h e.1 (Or.inr (by rw [← h3.1]; exact h2))
  unfold lifted
  rw [this]

theorem conv_twins (c : GConv A B) (edges : List (V × V)) (x : Rows V A ℝ) (u v : V) (hx : x u = x v)
    (hs : (sources edges u).Perm (sources edges v)) : c.apply x edges u = c.apply x edges v := by
  funext f
  rw [C175_formula, C175_formula]
  have h1 : links edges u = links edges v := by unfold links; rw [hs.length_eq]
  have h2 : lifted c x u f = lifted c x v f := by unfold lifted; rw [hx]
  rw [h1, h2, (hs.map _).sum_eq]

/-! ### The networks -/

/-- C175: the predictions of the classifiers with two and three layers, and the rows of the four encoders, for the nodes of a graph that
lies in a larger one without edges into it from outside, are those for that graph alone. Every renumbering is such an embedding, and every
graph of a batch. -/
theorem C175_contained (σ : V → W) (edges : List (V × V)) (edges' : List (W × W)) (h : Contained σ edges edges') (x : Rows W A ℝ) (i : V) :
    (∀ (m : GCoder A B C), m.encode x edges' (σ i) = m.encode (fun v => x (σ v)) edges i) ∧
    (∀ (act : ℝ → ℝ) (c1 : GConv A B) (c2 : GConv B C), gcn2Forward act c1 c2 x edges' (σ i) = gcn2Forward act c1 c2 (fun v => x (σ v)) edges i) ∧
    (∀ (act : ℝ → ℝ) (c1 : GConv A B) (c2 : GConv B B) (c3 : GConv B C),
      gcn3Forward act c1 c2 c3 x edges' (σ i) = gcn3Forward act c1 c2 c3 (fun v => x (σ v)) edges i) := by
  refine ⟨?_, ?_, ?_⟩
  · intro m
    cases m with
    | gcn n =>
      simp only [GCoder.encode, GEncoder.forward]
      rw [conv_contained _ σ edges edges' h]
      congr 1
      funext v g
      simp only [relu]
      rw [conv_contained _ σ edges edges' h]
    | varGcn n =>
      simp only [GCoder.encode, GVarEncoder.forward]
      rw [conv_contained _ σ edges edges' h]
      congr 1
      funext v g
      simp only [relu]
      rw [conv_contained _ σ edges edges' h]
    | lin c => exact conv_contained _ σ edges edges' h x i
    | varLin mu ls => exact conv_contained _ σ edges edges' h x i
  · intro act c1 c2
    unfold gcn2Forward
    rw [conv_contained _ σ edges edges' h]
    congr 2
    funext v g
    simp only [actRows]
    rw [conv_contained _ σ edges edges' h]
  · intro act c1 c2 c3
    unfold gcn3Forward
    rw [conv_contained _ σ edges edges' h]
    congr 2
    funext v g
    simp only [actRows]
    rw [conv_contained _ σ edges edges' h]
    congr 2
    funext w g
    simp only [actRows]
    rw [conv_contained _ σ edges edges' h]

/-- C175: a renumbering of the nodes, with the edges in any order, is an embedding as above. -/
theorem C175_renumber (σ : V ≃ W) (edges : List (V × V)) (edges' : List (W × W)) (h : edges'.Perm (edges.map (fun e => (σ e.1, σ e.2)))) :
    Contained σ edges edges' := by
  refine ⟨σ.injective, ?_⟩
  intro i
  refine (h.filter _).trans ?_
  rw [List.filter_map]
  have : ((fun e : W × W => decide (e.2 = σ i)) ∘ fun e : V × V => (σ e.1, σ e.2)) = fun e => decide (e.2 = i) := by
    funext e; simp
  rw [this]

/-- C175: each of two graphs put together in one batch is embedded as above. -/
theorem C175_batch (e1 : List (V × V)) (e2 : List (W × W)) :
    Contained (Sum.inl : V → V ⊕ W) e1 (e1.map (fun e => (Sum.inl e.1, Sum.inl e.2)) ++ e2.map (fun e => (Sum.inr e.1, Sum.inr e.2))) ∧
    Contained (Sum.inr : W → V ⊕ W) e2 (e1.map (fun e => (Sum.inl e.1, Sum.inl e.2)) ++ e2.map (fun e => (Sum.inr e.1, Sum.inr e.2))) := by
  constructor
  · refine ⟨Sum.inl_injective, fun i => ?_⟩
    rw [List.filter_append, List.filter_map, List.filter_map]
    have h1 : ((fun e : (V ⊕ W) × (V ⊕ W) => decide (e.2 = Sum.inl i)) ∘ fun e : V × V => (Sum.inl e.1, Sum.inl e.2)) =
        fun e => decide (e.2 = i) := by funext e; simp
    have h2 : ((fun e : (V ⊕ W) × (V ⊕ W) => decide (e.2 = Sum.inl i)) ∘ fun e : W × W => (Sum.inr e.1, Sum.inr e.2)) =
        fun _ => false := by funext e; simp
    rw [h1, h2]
    simp
  · refine ⟨Sum.inr_injective, fun i => ?_⟩
    rw [List.filter_append, List.filter_map, List.filter_map]
    have h1 : ((fun e : (V ⊕ W) × (V ⊕ W) => decide (e.2 = Sum.inr i)) ∘ fun e : V × V => (Sum.inl e.1, Sum.inl e.2)) =
        fun _ => false := by funext e; simp
    have h2 : ((fun e : (V ⊕ W) × (V ⊕ W) => decide (e.2 = Sum.inr i)) ∘ fun e : W × W => (Sum.inr e.1, Sum.inr e.2)) =
        fun e => decide (e.2 = i) := by funext e; simp
    rw [h1, h2]
    simp

theorem within_step {edges : List (V × V)} {n : ℕ} {u v : V} {i : V} (h : u = i ∨ (u, i) ∈ edges) (hv : Within edges n v u) :
    Within edges (n + 1) v i := by
  rcases h with rfl | h
  · clear * - hv
    induction hv with
    | here n v => exact .here _ v
    | step n u v w h1 h2 ih => exact .step _ u v w ih h2
  · exact .step n v u i hv h

/-- C175: the row or prediction for a node depends on the features of those nodes only from which it is reached by a walk of at most as
many edges as there are layers. -/
theorem C175_local (edges : List (V × V)) (x y : Rows V A ℝ) (i : V) :
    ((∀ u, Within edges 2 u i → x u = y u) → ∀ (m : GCoder A B C), m.encode x edges i = m.encode y edges i) ∧
    ((∀ u, Within edges 1 u i → x u = y u) → ∀ (c d : GConv A C), (GCoder.lin (H := B) c).encode x edges i = (GCoder.lin (H := B) c).encode y edges i ∧
      (GCoder.varLin (H := B) c d).encode x edges i = (GCoder.varLin (H := B) c d).encode y edges i) ∧
    ((∀ u, Within edges 2 u i → x u = y u) → ∀ (act : ℝ → ℝ) (c1 : GConv A B) (c2 : GConv B C),
      gcn2Forward act c1 c2 x edges i = gcn2Forward act c1 c2 y edges i) ∧
    ((∀ u, Within edges 3 u i → x u = y u) → ∀ (act : ℝ → ℝ) (c1 : GConv A B) (c2 : GConv B B) (c3 : GConv B C),
      gcn3Forward act c1 c2 c3 x edges i = gcn3Forward act c1 c2 c3 y edges i) := by
  have one : ∀ {D : Type} [Fintype D] (c : GConv A D) (j : V), (∀ u, Within edges 1 u j → x u = y u) → c.apply x edges j = c.apply y edges j :=
    fun c j h => conv_congr c edges x y j (fun u hu => h u (within_step hu (.here 0 u)))
  have two : (∀ u, Within edges 2 u i → x u = y u) → ∀ {D E : Type} [Fintype D] (c : GConv A D) (j : V), j = i ∨ (j, i) ∈ edges →
      c.apply x edges j = c.apply y edges j :=
    fun h D E _ c j hj => one c j (fun u hu => h u (within_step hj hu))
  refine ⟨?_, ?_, ?_, ?_⟩
  · intro h m
    have hone : ∀ {D : Type} [Fintype D] (c : GConv A D), c.apply x edges i = c.apply y edges i := fun c => two h (E := Unit) c i (Or.inl rfl)
    cases m with
    | gcn n =>
      simp only [GCoder.encode, GEncoder.forward]
      apply conv_congr
      intro u hu
      funext f
      simp only [relu, two h (E := Unit) n.conv1 u hu]
    | varGcn n =>
      simp only [GCoder.encode, GVarEncoder.forward]
      apply conv_congr
      intro u hu
      funext f
      simp only [relu, two h (E := Unit) n.conv1 u hu]
    | lin c => exact hone c
    | varLin mu ls => exact hone mu
  · intro h c d
    exact ⟨one c i h, one c i h⟩
  · intro h act c1 c2
    unfold gcn2Forward
    congr 1
    apply conv_congr
    intro u hu
    funext f
    simp only [actRows, two h (E := Unit) c1 u hu]
  · intro h act c1 c2 c3
    unfold gcn3Forward
    congr 1
    apply conv_congr
    intro u hu
    funext f
    simp only [actRows]
    congr 1
    refine congrFun (conv_congr c2 edges _ _ u ?_) f
    intro v hv
    funext g
    simp only [actRows]
    rw [one c1 v (fun w hw => h w (within_step hu (within_step hv hw)))]

/-- C175: two nodes with the same features and the same predecessors other than themselves get the same rows and predictions, whatever the
parameters. -/
theorem C175_twins (edges : List (V × V)) (x : Rows V A ℝ) (u v : V) (hx : x u = x v) (hs : (sources edges u).Perm (sources edges v)) :
    (∀ (m : GCoder A B C), m.encode x edges u = m.encode x edges v) ∧
    (∀ (act : ℝ → ℝ) (c1 : GConv A B) (c2 : GConv B C), gcn2Forward act c1 c2 x edges u = gcn2Forward act c1 c2 x edges v) ∧
    (∀ (act : ℝ → ℝ) (c1 : GConv A B) (c2 : GConv B B) (c3 : GConv B C), gcn3Forward act c1 c2 c3 x edges u = gcn3Forward act c1 c2 c3 x edges v) := by
  have hr : ∀ {D E : Type} [Fintype D] [Fintype E] (c : GConv D E) (z : Rows V D ℝ), z u = z v → c.apply z edges u = c.apply z edges v :=
    fun c z hz => conv_twins c edges z u v hz hs
  refine ⟨?_, ?_, ?_⟩
  · intro m
    cases m with
    | gcn n =>
      refine hr _ _ ?_
      funext f
      simp only [relu, hr n.conv1 x hx]
    | varGcn n =>
      refine hr _ _ ?_
      funext f
      simp only [relu, hr n.conv1 x hx]
    | lin c => exact hr _ _ hx
    | varLin mu ls => exact hr _ _ hx
  · intro act c1 c2
    unfold gcn2Forward
    congr 1
    refine hr _ _ ?_
    funext f
    simp only [actRows, hr c1 x hx]
  · intro act c1 c2 c3
    unfold gcn3Forward
    congr 1
    refine hr _ _ ?_
    funext f
    simp only [actRows]
    congr 1
    refine congrFun (hr _ _ ?_) f
    funext g
    simp only [actRows, hr c1 x hx]

/-- C175: the outputs of the classifiers are logarithms of probabilities: each is at most 0 and their exponentials add up to 1; the class
with the greatest output is the one with the greatest row entry of the last layer. -/
theorem C175_probabilities [Nonempty C] (r : C → ℝ) :
    (∀ c, logSoftmax r c ≤ 0) ∧ ∑ c, Real.exp (logSoftmax r c) = 1 ∧ ∀ c d, logSoftmax r c ≤ logSoftmax r d ↔ r c ≤ r d := by
  have hpos : 0 < ∑ d, Real.exp (r d) := Finset.sum_pos (fun d _ => Real.exp_pos _) Finset.univ_nonempty
  refine ⟨?_, ?_, ?_⟩
  · intro c
    unfold logSoftmax
    have h1 : Real.exp (r c) ≤ ∑ d, Real.exp (r d) := Finset.single_le_sum (f := fun d => Real.exp (r d)) (fun d _ => (Real.exp_pos _).le) (Finset.mem_univ c)
    have h2 := Real.log_le_log (Real.exp_pos _) h1
    rw [Real.log_exp] at h2
    linarith
  · unfold logSoftmax
    simp only [Real.exp_sub, Real.exp_log hpos]
    rw [← Finset.sum_div, div_self hpos.ne']
  · intro c d
    unfold logSoftmax
    constructor <;> intro h <;> linarith

/-! ### The link predictor -/

/-- C176: the similarity of two nodes does not depend on their order: it does not tell a transition from its reverse. It lies strictly
between 0 and 1, is above one half exactly if the scalar product of the rows is positive, and a node is similar to itself. -/
theorem C176_symmetric (m : GCoder A B C) (x : Rows V A ℝ) (edges : List (V × V)) (a b : V) :
    predictLink m x edges a b = predictLink m x edges b a ∧ 0 < predictLink m x edges a b ∧ predictLink m x edges a b < 1 ∧
    (1 / 2 < predictLink m x edges a b ↔ 0 < ∑ c, m.encode x edges a c * m.encode x edges b c) ∧
    1 / 2 ≤ predictLink m x edges a a := by
  refine ⟨?_, Real.sigmoid_pos _, Real.sigmoid_lt_one _, ?_, ?_⟩
  · unfold predictLink rowDot
    congr 1
    exact Finset.sum_congr rfl (fun c _ => mul_comm _ _)
  · unfold predictLink
    rw [one_div, ← Real.sigmoid_zero, Real.sigmoid_strictMono.lt_iff_lt]
    rfl
  · unfold predictLink
    rw [one_div, ← Real.sigmoid_zero, Real.sigmoid_strictMono.le_iff_le]
    exact Finset.sum_nonneg (fun c _ => mul_self_nonneg _)

/-- C176: nodes with the same features and the same predecessors are never told apart: they are predicted to be at least as similar as not,
and they are equally similar to every other node. -/
theorem C176_twins (m : GCoder A B C) (edges : List (V × V)) (x : Rows V A ℝ) (u v : V) (hx : x u = x v)
    (hs : (sources edges u).Perm (sources edges v)) :
    1 / 2 ≤ predictLink m x edges u v ∧ ∀ w, predictLink m x edges u w = predictLink m x edges v w := by
  have h := (C175_twins (B := B) (C := C) edges x u v hx hs).1 m
  have h2 : ∀ w, predictLink m x edges u w = predictLink m x edges v w := by
    intro w
    unfold predictLink rowDot
    rw [h]
  refine ⟨?_, h2⟩
  rw [h2]
  exact (C176_symmetric m x edges v v).2.2.2.2

/-- C176: the similarity in a graph of a batch, or after renumbering, is that of the graph alone. -/
theorem C176_contained (m : GCoder A B C) (σ : V → W) (edges : List (V × V)) (edges' : List (W × W)) (h : Contained σ edges edges')
    (x : Rows W A ℝ) (a b : V) : predictLink m x edges' (σ a) (σ b) = predictLink m (fun v => x (σ v)) edges a b := by
  unfold predictLink rowDot
  rw [(C175_contained (B := B) (C := C) σ edges edges' h x a).1 m, (C175_contained (B := B) (C := C) σ edges edges' h x b).1 m]

/-! ### The accuracy of a test -/

theorem sig_half (t : ℝ) : Real.sigmoid t > 1 / 2 ↔ 0 < t := by
  rw [gt_iff_lt, one_div, ← Real.sigmoid_zero, Real.sigmoid_strictMono.lt_iff_lt]

/-- **C176, what is compared.** To predict links a variational model is the plain model with its layer for the means: the layer for the deviations has no part. -/
theorem C176_means (x : Rows V A ℝ) (edges : List (V × V)) (c1 : GConv A B) (mu ls : GConv B C) (m l : GConv A C) :
    (GCoder.varGcn ⟨c1, mu, ls⟩).encode x edges = (GCoder.gcn ⟨c1, mu⟩ : GCoder A B C).encode x edges ∧
    (GCoder.varLin m l : GCoder A B C).encode x edges = (GCoder.lin m : GCoder A B C).encode x edges :=
  ⟨rfl, rfl⟩

/-- **C177, training rows.** While training, a variational model adds to its rows the noise times the exponential of what its layer for the deviations gives, but at most of 10; a plain model adds nothing. So
without noise training and prediction see the same rows, and the noise is enlarged at most `e ^ 10` times. -/
theorem C177_noise (x : Rows V A ℝ) (edges : List (V × V)) (c1 : GConv A B) (mu ls : GConv B C) (m l : GConv A C) (noise : Rows V C ℝ) (i : V) (f : C) :
    (GCoder.varGcn ⟨c1, mu, ls⟩).encodeTrain x edges noise i f =
      (GCoder.varGcn ⟨c1, mu, ls⟩).encode x edges i f + noise i f * Real.exp (min ((GCoder.gcn ⟨c1, ls⟩ : GCoder A B C).encode x edges i f) 10) ∧
    (GCoder.varLin m l : GCoder A B C).encodeTrain x edges noise i f =
      (GCoder.varLin m l : GCoder A B C).encode x edges i f + noise i f * Real.exp (min ((GCoder.lin l : GCoder A B C).encode x edges i f) 10) ∧
    (GCoder.gcn ⟨c1, mu⟩).encodeTrain x edges noise = (GCoder.gcn ⟨c1, mu⟩).encode x edges ∧
    (GCoder.lin m : GCoder A B C).encodeTrain x edges noise = (GCoder.lin m : GCoder A B C).encode x edges ∧
    (∀ g : GCoder A B C, g.encodeTrain x edges (fun _ _ => 0) = g.encode x edges ∧
      |g.encodeTrain x edges noise i f - g.encode x edges i f| ≤ |noise i f| * Real.exp 10) := by
  refine ⟨rfl, rfl, rfl, rfl, fun g => ?_⟩
  have hb : ∀ t : ℝ, |noise i f * Real.exp (min t 10)| ≤ |noise i f| * Real.exp 10 := by
    intro t
    rw [abs_mul, abs_of_pos (Real.exp_pos _)]
    exact mul_le_mul_of_nonneg_left (Real.exp_le_exp.2 (min_le_right _ _)) (abs_nonneg _)
  have h0 : 0 ≤ |noise i f| * Real.exp 10 := mul_nonneg (abs_nonneg _) (Real.exp_pos _).le
  cases g with
  | gcn n => exact ⟨rfl, by show |n.forward x edges i f - n.forward x edges i f| ≤ _; simpa using h0⟩
  | lin c => exact ⟨rfl, by show |c.apply x edges i f - c.apply x edges i f| ≤ _; simpa using h0⟩
  | varGcn n =>
    refine ⟨by funext i f; simp [GCoder.encodeTrain, GCoder.moments, GCoder.encode], ?_⟩
    simpa [GCoder.encodeTrain, GCoder.moments, GCoder.encode] using hb _
  | varLin a b =>
    refine ⟨by funext i f; simp [GCoder.encodeTrain, GCoder.moments, GCoder.encode], ?_⟩
    simpa [GCoder.encodeTrain, GCoder.moments, GCoder.encode] using hb _

/-- C177: the accuracy is the share of pairs decided rightly: of the positive pairs those with positive, of the negative pairs those without
positive scalar product. Without pairs it is ZeroDivisionError. -/
theorem C177_accuracy (z : Rows V C ℝ) (pos neg : List (V × V)) :
    (pos = [] ∧ neg = [] → linkAccuracy z pos neg = .error .zeroDiv) ∧
    (¬ (pos = [] ∧ neg = []) → linkAccuracy z pos neg =
      .ok ((((pos.filter (fun e => decide (0 < rowDot z e.1 e.2))).length + (neg.filter (fun e => decide (¬ 0 < rowDot z e.1 e.2))).length : ℕ) : ℝ) /
        (pos.length + neg.length))) := by
  have hy : (List.replicate (pos ++ neg).length (0 : Nat)).mapIdx (fun i y => if i < pos.length then 1 else y) =
      List.replicate pos.length 1 ++ List.replicate neg.length 0 := by
    apply List.ext_getElem
    · simp
    · intro i h1 h2
      simp only [List.getElem_mapIdx, List.getElem_replicate, List.getElem_append, List.length_replicate]
      split <;> simp
  constructor
  · rintro ⟨rfl, rfl⟩
    rfl
  · intro hne
    unfold linkAccuracy
    simp only [hy]
    have hlen : (List.replicate pos.length 1 ++ List.replicate neg.length 0 : List Nat).length = pos.length + neg.length := by simp
    rw [hlen, if_neg]
    · congr 2
      · norm_cast
        rw [List.map_append, List.zip_append (by simp), List.filter_append, List.length_append]
        congr 1
        · clear hy hlen hne
          induction pos with
          | nil => rfl
          | cons e pos ih =>
            simp only [List.map_cons, List.length_cons, List.replicate_succ, List.zip_cons_cons, List.filter_cons, sig_half] at ih ⊢
            by_cases h : 0 < rowDot z e.1 e.2 <;> simp [h, ih]
        · clear hy hlen hne
          induction neg with
          | nil => rfl
          | cons e neg ih =>
            simp only [List.map_cons, List.length_cons, List.replicate_succ, List.zip_cons_cons, List.filter_cons, sig_half] at ih ⊢
            by_cases h : 0 < rowDot z e.1 e.2
            · have : ¬ rowDot z e.1 e.2 ≤ 0 := not_le.mpr h
              simp [h, ih, this]
            · have h' : rowDot z e.1 e.2 ≤ 0 := not_lt.mp h
              simp [h, h', ih]
      · push_cast; ring
    · intro h
      apply hne
      have h1 : pos.length = 0 := by omega
      have h2 : neg.length = 0 := by omega
      exact ⟨List.length_eq_zero_iff.mp h1, List.length_eq_zero_iff.mp h2⟩

/-- C177: the accuracy lies between 0 and 1. -/
theorem C177_bounds (z : Rows V C ℝ) (pos neg : List (V × V)) (r : ℝ) (h : linkAccuracy z pos neg = .ok r) : 0 ≤ r ∧ r ≤ 1 := by
  obtain ⟨h0, h1⟩ := C177_accuracy z pos neg
  by_cases hne : pos = [] ∧ neg = []
  · rw [h0 hne] at h; cases h
  · rw [h1 hne] at h
    have := Except.ok.inj h
    rw [← this]
    refine ⟨by positivity, ?_⟩
    apply div_le_one_of_le₀ _ (by positivity)
    have a := List.length_filter_le (fun e => decide (0 < rowDot z e.1 e.2)) pos
    have b := List.length_filter_le (fun e => decide (¬ 0 < rowDot z e.1 e.2)) neg
    exact_mod_cast Nat.add_le_add a b

/-- C177: the model cannot learn directions: if the negative pairs are the positive pairs reversed, the accuracy is one half, whatever the
rows. -/
theorem C177_reversed (z : Rows V C ℝ) (pos : List (V × V)) (hp : pos ≠ []) :
    linkAccuracy z pos (pos.map (fun e => (e.2, e.1))) = .ok (1 / 2) := by
  rw [(C177_accuracy z pos _).2 (by simp [hp])]
  congr 1
  have hd : ∀ a b, rowDot z a b = rowDot z b a := fun a b => Finset.sum_congr rfl (fun c _ => mul_comm _ _)
  have h1 : ((pos.map (fun e => (e.2, e.1))).filter (fun e => decide (¬ 0 < rowDot z e.1 e.2))).length =
      (pos.filter (fun e => decide (¬ 0 < rowDot z e.1 e.2))).length := by
    rw [List.filter_map, List.length_map]
    congr 2
    funext e
    simp only [Function.comp, hd e.2 e.1]
  have h2 : (pos.filter (fun e => decide (0 < rowDot z e.1 e.2))).length + (pos.filter (fun e => decide (¬ 0 < rowDot z e.1 e.2))).length =
      pos.length := by
    have := List.length_eq_length_filter_add (l := pos) (fun e => decide (0 < rowDot z e.1 e.2))
    rw [this]
    congr 3
    funext e
    by_cases h : 0 < rowDot z e.1 e.2 <;> simp [h]
  rw [h1, h2, List.length_map]
  have : (0 : ℝ) < pos.length := by exact_mod_cast List.length_pos_of_ne_nil hp
  field_simp
  ring

/-! ### The loss -/

/-- C177: the second part of the loss is never negative, and 0 exactly if all means and logarithms of deviations are 0. -/
theorem C177_kl [Nonempty V] (mu ls : Rows V C ℝ) :
    0 ≤ klLoss mu ls ∧ (klLoss mu ls = 0 ↔ ∀ v c, mu v c = 0 ∧ ls v c = 0) := by
  have ht : ∀ v c, 0 ≤ mu v c ^ 2 + (Real.exp (ls v c) ^ 2 - 2 * ls v c - 1) := by
    intro v c
    have h1 : Real.exp (ls v c) ^ 2 = Real.exp (2 * ls v c) := by rw [← Real.exp_nat_mul]; norm_num
    have h2 := Real.add_one_le_exp (2 * ls v c)
    nlinarith [sq_nonneg (mu v c)]
  have hcard : (0 : ℝ) < Fintype.card V := by exact_mod_cast Fintype.card_pos
  have heq : klLoss mu ls = (∑ v : V, ∑ c, (mu v c ^ 2 + (Real.exp (ls v c) ^ 2 - 2 * ls v c - 1))) / (2 * Fintype.card V) := by
    unfold klLoss
    have : (∑ v : V, ∑ c, (1 + 2 * ls v c - mu v c ^ 2 - Real.exp (ls v c) ^ 2)) =
        - ∑ v : V, ∑ c, (mu v c ^ 2 + (Real.exp (ls v c) ^ 2 - 2 * ls v c - 1)) := by
      rw [← Finset.sum_neg_distrib]
      refine Finset.sum_congr rfl (fun v _ => ?_)
      rw [← Finset.sum_neg_distrib]
      exact Finset.sum_congr rfl (fun c _ => by ring)
    rw [this]
    field_simp
  rw [heq]
  refine ⟨div_nonneg (Finset.sum_nonneg (fun v _ => Finset.sum_nonneg (fun c _ => ht v c))) (by positivity), ?_⟩
  rw [div_eq_zero_iff, or_iff_left (by positivity), Finset.sum_eq_zero_iff_of_nonneg (fun v _ => Finset.sum_nonneg (fun c _ => ht v c))]
  constructor
  · intro h v c
    have h1 := (Finset.sum_eq_zero_iff_of_nonneg (fun c _ => ht v c)).mp (h v (Finset.mem_univ _)) c (Finset.mem_univ _)
    have h3 : Real.exp (ls v c) ^ 2 = Real.exp (2 * ls v c) := by rw [← Real.exp_nat_mul]; norm_num
    have h2 := Real.add_one_le_exp (2 * ls v c)
    have hls : ls v c = 0 := by
      by_contra hne
      have := Real.add_one_lt_exp (x := 2 * ls v c) (by simpa using hne)
      nlinarith [sq_nonneg (mu v c)]
    refine ⟨?_, hls⟩
    rw [hls] at h1
    simpa using h1
  · intro h v _
    refine Finset.sum_eq_zero (fun c _ => ?_)
    rw [(h v c).1, (h v c).2]
    simp

/-- C177: the first part of the loss is at least minus the (tiny) constant the library adds, and every pair decided with certainty costs
nothing. -/
theorem C177_recon (z : Rows V C ℝ) (pos neg : List (V × V)) : -(2 / 10 ^ 15) ≤ reconLoss z pos neg := by
  have term : ∀ s : ℝ, 0 < s → s < 1 → -(1 / 10 ^ 15) ≤ - Real.log (s + 1 / 10 ^ 15) := by
    intro s h0 h1
    have h2 := Real.log_le_sub_one_of_pos (x := s + 1 / 10 ^ 15) (by positivity)
    linarith
  have avg : ∀ (l : List ℝ), (∀ t ∈ l, -(1 / 10 ^ 15 : ℝ) ≤ t) → -(1 / 10 ^ 15 : ℝ) ≤ l.sum / l.length := by
    intro l hl
    rcases Nat.eq_zero_or_pos l.length with h0 | hpos
    · rw [h0]; norm_num
    · rw [le_div_iff₀ (by exact_mod_cast hpos)]
      have := List.card_nsmul_le_sum l _ hl
      rw [nsmul_eq_mul, mul_comm] at this
      exact this
  unfold reconLoss
  have h1 := avg (pos.map (fun e => - Real.log (Real.sigmoid (rowDot z e.1 e.2) + 1 / 10 ^ 15))) (by
    intro t ht
    obtain ⟨e, _, rfl⟩ := List.mem_map.mp ht
    exact term _ (Real.sigmoid_pos _) (Real.sigmoid_lt_one _))
  have h2 := avg (neg.map (fun e => - Real.log (1 - Real.sigmoid (rowDot z e.1 e.2) + 1 / 10 ^ 15))) (by
    intro t ht
    obtain ⟨e, _, rfl⟩ := List.mem_map.mp ht
    exact term _ (by linarith [Real.sigmoid_lt_one (rowDot z e.1 e.2)]) (by linarith [Real.sigmoid_pos (rowDot z e.1 e.2)]))
  rw [List.length_map] at h1 h2
  have : (2 / 10 ^ 15 : ℝ) = 1 / 10 ^ 15 + 1 / 10 ^ 15 := by norm_num
  rw [this]
  linarith

/-- C177: with the variational flag, training a plain model raises AttributeError; a variational model adds the second part divided by the
number of nodes, and so never has a smaller loss than without the flag. -/
theorem C177_flag [Nonempty V] (m : GCoder A B C) (x : Rows V A ℝ) (edges : List (V × V)) (noise : Rows V C ℝ) (pos neg : List (V × V)) :
    (∃ r, trainLoss m false x edges noise pos neg = .ok r ∧
      ((∃ n, m = .gcn n) ∨ (∃ c, m = .lin c) → trainLoss m true x edges noise pos neg = .error .attribute) ∧
      ((∃ n, m = .varGcn n) ∨ (∃ c d, m = .varLin c d) → ∃ r', trainLoss m true x edges noise pos neg = .ok r' ∧ r ≤ r')) := by
  refine ⟨_, rfl, ?_, ?_⟩
  · rintro (⟨n, rfl⟩ | ⟨c, rfl⟩) <;> rfl
  · have hc : (0 : ℝ) ≤ 1 / Fintype.card V := by positivity
    rintro (⟨n, rfl⟩ | ⟨c, d, rfl⟩)
    · refine ⟨_, rfl, ?_⟩
      exact le_add_of_nonneg_right (mul_nonneg hc (C177_kl _ _).1)
    · refine ⟨_, rfl, ?_⟩
      exact le_add_of_nonneg_right (mul_nonneg hc (C177_kl _ _).1)

end

/-! ### Examples -/

namespace ExNets

/-- Matrix 1, no bias. -/
def one : GConv Unit Unit := ⟨fun _ _ => 1, fun _ => 0⟩

/-- Features: `t` at the first node, 0 elsewhere. -/
def feat (t : ℝ) : Rows (Fin 4) Unit ℝ := fun v _ => if v = 0 then t else 0

/-- A chain of four chords, the second repeated. -/
def chain : List (Fin 4 × Fin 4) := [(0, 1), (1, 1), (1, 2), (2, 3)]

theorem src : Spec.sources chain 0 = [] ∧ Spec.sources chain 1 = [0] ∧ Spec.sources chain 2 = [1] ∧ Spec.sources chain 3 = [2] := by decide

theorem lnk : Spec.links chain 0 = 1 ∧ Spec.links chain 1 = 2 ∧ Spec.links chain 2 = 2 ∧ Spec.links chain 3 = 2 := by
  obtain ⟨h0, h1, h2, h3⟩ := src
  unfold Spec.links
  rw [h0, h1, h2, h3]
  norm_num

/-- C175: the bound on the walks is the right one: with two layers the third chord of the chain hears of the first. -/
theorem C175_local_tight (t : ℝ) (h : 0 ≤ t) :
    (GCoder.gcn ⟨one, one⟩).encode (feat t) chain 2 () = t / (2 * √2) ∧ (GCoder.gcn ⟨one, one⟩).encode (feat t) chain 3 () = 0 := by
  obtain ⟨h0, h1, h2, h3⟩ := src
  obtain ⟨l0, l1, l2, l3⟩ := lnk
  have a1 : one.apply (feat t) chain 1 () = t / √2 := by
    rw [C175_formula, h1, l1]
    simp [Spec.lifted, one, feat, l0]
  have a2 : one.apply (feat t) chain 2 () = 0 := by
    rw [C175_formula, h2, l2]
    simp [Spec.lifted, one, feat, l1]
  have a3 : one.apply (feat t) chain 3 () = 0 := by
    rw [C175_formula, h3, l3]
    simp [Spec.lifted, one, feat, l2]
  have hs : √2 * √2 = (2 : ℝ) := Real.mul_self_sqrt (by norm_num)
  have hp : (0 : ℝ) < √2 := by positivity
  constructor
  · simp only [GCoder.encode, GEncoder.forward]
    rw [C175_formula, h2, l2]
    simp only [Spec.lifted, one, relu, List.map_cons, List.map_nil, l1, Finset.univ_unique, Finset.sum_singleton, List.sum_cons, List.sum_nil, PUnit.default_eq_unit]
    have b1 : one.apply (feat t) chain 1 () = t / √2 := a1
    have b2 : one.apply (feat t) chain 2 () = 0 := a2
    unfold one at b1 b2
    rw [b1, b2, max_eq_right (by positivity), max_self]
    field_simp
    rw [sq, hs]
    ring
  · simp only [GCoder.encode, GEncoder.forward]
    rw [C175_formula, h3, l3]
    simp only [Spec.lifted, one, relu, List.map_cons, List.map_nil, l2, Finset.univ_unique, Finset.sum_singleton, List.sum_cons, List.sum_nil, PUnit.default_eq_unit]
    unfold one at a2 a3
    rw [a2, a3]
    simp

/-- Two chords with equal features that follow the same chord (the second also follows itself): the case of the theorems on twins. -/
example (t : ℝ) : feat t 1 = feat t 2 ∧ (Spec.sources [(0, 1), (0, 2), (2, 2)] (1 : Fin 4)).Perm (Spec.sources [(0, 1), (0, 2), (2, 2)] 2) := by
  refine ⟨?_, by decide⟩
  funext u
  simp [feat]

/-- A renumbering of the chain. -/
example : Spec.Contained (Equiv.swap (0 : Fin 4) 1) chain [(0, 2), (1, 0), (0, 0), (2, 3)] := C175_renumber _ _ _ (by decide)

end ExNets

end NGC
