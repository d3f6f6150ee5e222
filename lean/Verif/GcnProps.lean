import Verif.Gcn
import Mathlib.Algebra.BigOperators.Ring.Finset
import Mathlib.Analysis.SpecialFunctions.Log.Basic
import Mathlib.Tactic.FieldSimp
import Mathlib.Tactic.Ring

namespace NGC

section
variable {V W H F C K : Type} [DecidableEq V] [DecidableEq W] [Fintype H] [Fintype F] [Field K] [LinearOrder K] [IsStrictOrderedRing K]

/-! ### Specification -/

namespace Spec

/-- What arrives at node `i`, feature `f`, if all edges count alike. -/
def inflow (edges : List (V × V)) (x : Rows V H K) (i : V) (f : H) : K :=
  ((edges.filter (fun e => decide (e.2 = i))).map (fun e => x e.1 f)).sum

/-- What arrives if every edge has a weight. -/
def inflowW (edges : List ((V × V) × K)) (x : Rows V H K) (i : V) (f : H) : K :=
  ((edges.filter (fun e => decide (e.1.2 = i))).map (fun e => e.2 * x e.1.1 f)).sum

/-- What arrives at a node, with or without weights. -/
def arrives (edges : List (V × V)) (w : Option (List K)) (x : Rows V H K) (i : V) (f : H) : K :=
  match w with
  | none => inflow edges x i f
  | some ws => inflowW (edges.zip ws) x i f

/-- There is a walk of at most `n` edges from `u` to `v`. -/
inductive Within (edges : List (V × V)) : ℕ → V → V → Prop
  | here (n : ℕ) (v : V) : Within edges n v v
  | step (n : ℕ) (u v w : V) : Within edges n u v → (v, w) ∈ edges → Within edges (n + 1) u w

end Spec

open Spec

theorem propagate_none (edges : List (V × V)) (x : Rows V H K) (i : V) (f : H) :
    propagate edges none x i f = inflow edges x i f := by
  unfold propagate inflow weighted
  simp only [List.filter_map, List.map_map]
  rfl

theorem propagate_some (edges : List (V × V)) (ws : List K) (x : Rows V H K) (i : V) (f : H) :
    propagate edges (some ws) x i f = inflowW (edges.zip ws) x i f := by
  unfold propagate inflowW weighted
  simp only [List.filter_map, List.map_map]
  rfl

/-! ### C167 The layer -/

theorem propagate_arrives (edges : List (V × V)) (w : Option (List K)) (x : Rows V H K) (i : V) (f : H) :
    propagate edges w x i f = arrives edges w x i f := by
  cases w with
  | none => exact propagate_none edges x i f
  | some ws => exact propagate_some edges ws x i f

/-- C167: the layer computes the formula of its documentation, `((1-α) P X + α X0) ((1-β) I + β Θ)`, entry by entry, where `P X` adds up
the rows of the sources of the edges into a node, times the weights of the edges if there are weights; in the second form the two summands
have matrices of their own. -/
theorem C167_formula (c : Gcn2 H K) (x x0 : Rows V H K) (edges : List (V × V)) (w : Option (List K)) (i : V) (f : H) [DecidableEq H] :
    (c.weight2 = none → c.apply x x0 edges w i f =
      ∑ g, ((1 - c.alpha) * arrives edges w x i g + c.alpha * x0 i g) * ((1 - c.beta) * (if g = f then 1 else 0) + c.beta * c.weight1 g f)) ∧
    (∀ w2, c.weight2 = some w2 → c.apply x x0 edges w i f =
      ∑ g, (1 - c.alpha) * arrives edges w x i g * ((1 - c.beta) * (if g = f then 1 else 0) + c.beta * c.weight1 g f) +
      ∑ g, c.alpha * x0 i g * ((1 - c.beta) * (if g = f then 1 else 0) + c.beta * w2 g f)) := by
  have key : ∀ (s : H → K) (w : H → H → K), (1 - c.beta) * s f + c.beta * ∑ g, s g * w g f =
      ∑ g, s g * ((1 - c.beta) * (if g = f then 1 else 0) + c.beta * w g f) := by
    intro s w
    have e : ∀ g, s g * ((1 - c.beta) * (if g = f then 1 else 0) + c.beta * w g f) =
        (if g = f then (1 - c.beta) * s g else 0) + c.beta * (s g * w g f) := by
      intro g; split <;> ring
    rw [Finset.sum_congr rfl (fun g _ => e g), Finset.sum_add_distrib, Finset.sum_ite_eq' Finset.univ f, if_pos (Finset.mem_univ f),
      Finset.mul_sum]
  constructor
  · intro h
    unfold Gcn2.apply
    simp only [h, addmm, propagate_arrives]
    exact key (fun g => (1 - c.alpha) * arrives edges w x i g + c.alpha * x0 i g) c.weight1
  · intro w2 h
    unfold Gcn2.apply
    simp only [h, addmm, propagate_arrives]
    rw [key (fun g => (1 - c.alpha) * arrives edges w x i g) c.weight1, key (fun g => c.alpha * x0 i g) w2]

/-- C167: a layer with weights of its own for the two summands is the plain layer if the two are equal. -/
theorem C167_shared (a b : K) (w : H → H → K) (x x0 : Rows V H K) (edges : List (V × V)) (ew : Option (List K)) :
    (Gcn2.mk a b w (some w)).apply x x0 edges ew = (Gcn2.mk a b w none).apply x x0 edges ew := by
  funext i f
  simp only [Gcn2.apply, addmm]
  have : ∀ (p q : H → K), ∑ g, (p g + q g) * w g f = ∑ g, p g * w g f + ∑ g, q g * w g f := by
    intro p q
    rw [← Finset.sum_add_distrib]
    exact Finset.sum_congr rfl (fun g _ => by ring)
  rw [this]
  ring

theorem inflow_perm (edges edges' : List (V × V)) (h : edges.Perm edges') (x : Rows V H K) (i : V) (f : H) :
    inflow edges x i f = inflow edges' x i f := ((h.filter _).map _).sum_eq

/-- C167: the order of the edges is irrelevant; with `α = 1` the edges are irrelevant; with `β = 0` the weights are. -/
theorem C167_invariance (c : Gcn2 H K) (x x0 : Rows V H K) (edges : List (V × V)) :
    (∀ edges', edges.Perm edges' → c.apply x x0 edges none = c.apply x x0 edges' none) ∧
    (c.alpha = 1 → ∀ x' edges', c.apply x x0 edges none = c.apply x' x0 edges' none) ∧
    (c.beta = 0 → ∀ i f, c.apply x x0 edges none i f = (1 - c.alpha) * inflow edges x i f + c.alpha * x0 i f) := by
  refine ⟨?_, ?_, ?_⟩
  · intro edges' h
    have e : propagate edges none x = propagate edges' none x := by
      funext i f
      rw [propagate_none, propagate_none, inflow_perm edges edges' h]
    unfold Gcn2.apply
    rw [e]
  · intro h x' edges'
    unfold Gcn2.apply
    simp only [h, sub_self, zero_mul]
  · intro h i f
    unfold Gcn2.apply
    cases c.weight2 <;> simp only [addmm, h, propagate_none, sub_zero, one_mul, zero_mul, add_zero]

/-! ### C168 The network -/

theorem inflow_map (σ : V → W) (hσ : Function.Injective σ) (edges : List (V × V)) (x : Rows W H K) (i : V) (f : H) :
    inflow (edges.map (fun e => (σ e.1, σ e.2))) x (σ i) f = inflow edges (fun v => x (σ v)) i f := by
  unfold inflow
  rw [List.filter_map, List.map_map]
  have : ((fun e : W × W => decide (e.2 = σ i)) ∘ fun e : V × V => (σ e.1, σ e.2)) = fun e => decide (e.2 = i) := by
    funext e
    simp only [Function.comp, hσ.eq_iff]
  rw [this]
  rfl

/-- A layer at one node: what arrives there and its own row decide. -/
theorem apply_at (c : Gcn2 H K) (x x0 : Rows V H K) (edges : List (V × V)) (y y0 : Rows W H K) (edges' : List (W × W)) (i : V) (j : W)
    (h1 : ∀ f, inflow edges x i f = inflow edges' y j f) (h2 : x0 i = y0 j) :
    c.apply x x0 edges none i = c.apply y y0 edges' none j := by
  funext f
  unfold Gcn2.apply
  cases c.weight2 <;> simp only [addmm, propagate_none, h1, h2]

/-- An embedding of one graph into another such that all edges into the image come from the first graph. -/
def Embeds (σ : V → W) (edges : List (V × V)) (edges' : List (W × W)) : Prop :=
  Function.Injective σ ∧ ∀ i, (edges'.filter (fun e => decide (e.2 = σ i))).Perm
    ((edges.map (fun e => (σ e.1, σ e.2))).filter (fun e => decide (e.2 = σ i)))

theorem inflow_embeds (σ : V → W) (edges : List (V × V)) (edges' : List (W × W)) (h : Embeds σ edges edges') (x : Rows W H K) (i : V) (f : H) :
    inflow edges' x (σ i) f = inflow edges (fun v => x (σ v)) i f := by
  rw [← inflow_map σ h.1]
  unfold inflow
  exact ((h.2 i).map _).sum_eq

theorem convLoop_embeds (σ : V → W) (edges : List (V × V)) (edges' : List (W × W)) (h : Embeds σ edges edges')
    (drop : ℕ → Rows W H K) (x0 : Rows W H K) (cs : List (Gcn2 H K)) : ∀ (k : ℕ) (x : Rows W H K),
    (fun v => convLoop drop x0 edges' k cs x (σ v)) =
      convLoop (fun k v => drop k (σ v)) (fun v => x0 (σ v)) edges k cs (fun v => x (σ v)) := by
  induction cs with
  | nil => intro k x; rfl
  | cons c cs ih =>
    intro k x
    simp only [convLoop]
    rw [ih]
    congr 1
    funext v f
    unfold relu
    simp only
    have := apply_at c (dropout (drop k) x) x0 edges' (dropout (fun v => drop k (σ v)) (fun v => x (σ v))) (fun v => x0 (σ v)) edges (σ v) v
      (fun f => inflow_embeds σ edges edges' h _ v f) rfl
    rw [congrFun this f]

theorem forward_embeds (n : Net F H C K) (σ : V → W) (edges : List (V × V)) (edges' : List (W × W)) (h : Embeds σ edges edges')
    (dropIn : Rows W F K) (drop : ℕ → Rows W H K) (x : Rows W F K) (v : V) :
    n.forward dropIn drop x edges' (σ v) = n.forward (fun v => dropIn (σ v)) (fun k v => drop k (σ v)) (fun v => x (σ v)) edges v := by
  have := convLoop_embeds σ edges edges' h drop (relu (linear n.w0 n.b0 (dropout dropIn x))) n.convs 0 (relu (linear n.w0 n.b0 (dropout dropIn x)))
  unfold Net.forward
  funext f
  simp only [linear, dropout]
  congr 1
  apply Finset.sum_congr rfl
  intro g _
  congr 2
  exact congrFun (congrFun this v) g

/-- C168: renaming the nodes renames the predictions and changes nothing else, with whatever dropout. -/
theorem C168_equivariant (n : Net F H C K) (σ : V ≃ W) (edges : List (V × V)) (dropIn : Rows W F K) (drop : ℕ → Rows W H K) (x : Rows W F K)
    (v : V) :
    n.forward dropIn drop x (edges.map (fun e => (σ e.1, σ e.2))) (σ v) =
      n.forward (fun v => dropIn (σ v)) (fun k v => drop k (σ v)) (fun v => x (σ v)) edges v :=
  forward_embeds n σ edges _ ⟨σ.injective, fun _ => List.Perm.refl _⟩ dropIn drop x v

/-- C168: the order of the edges is irrelevant. -/
theorem C168_edge_order (n : Net F H C K) (edges edges' : List (V × V)) (h : edges.Perm edges') (dropIn : Rows V F K) (drop : ℕ → Rows V H K)
    (x : Rows V F K) : n.forward dropIn drop x edges = n.forward dropIn drop x edges' := by
  funext v
  have := forward_embeds n id edges' edges ⟨fun _ _ h => h, fun i => by
    have e : edges'.map (fun e : V × V => (id e.1, id e.2)) = edges' := by simp
    rw [e]; exact h.filter _⟩ dropIn drop x v
  exact this

/-- C168: graphs put together in one batch do not influence each other: the predictions for the nodes of each are those the network makes
for that graph alone. -/
theorem C168_batch (n : Net F H C K) (e1 : List (V × V)) (e2 : List (W × W)) (x : Rows (V ⊕ W) F K) :
    (∀ v, n.eval x (e1.map (fun e => (Sum.inl e.1, Sum.inl e.2)) ++ e2.map (fun e => (Sum.inr e.1, Sum.inr e.2))) (Sum.inl v) =
      n.eval (fun v => x (Sum.inl v)) e1 v) ∧
    (∀ w, n.eval x (e1.map (fun e => (Sum.inl e.1, Sum.inl e.2)) ++ e2.map (fun e => (Sum.inr e.1, Sum.inr e.2))) (Sum.inr w) =
      n.eval (fun w => x (Sum.inr w)) e2 w) := by
  constructor
  · intro v
    refine forward_embeds n Sum.inl e1 _ ⟨Sum.inl_injective, fun i => ?_⟩ _ _ x v
    rw [List.filter_append]
    have : (e2.map (fun e : W × W => ((Sum.inr e.1 : V ⊕ W), (Sum.inr e.2 : V ⊕ W)))).filter (fun e => decide (e.2 = Sum.inl i)) = [] := by
      rw [List.filter_eq_nil_iff]
      intro a ha
      rw [List.mem_map] at ha
      obtain ⟨b, _, rfl⟩ := ha
      simp
    rw [this, List.append_nil]
  · intro w
    refine forward_embeds n Sum.inr e2 _ ⟨Sum.inr_injective, fun i => ?_⟩ _ _ x w
    rw [List.filter_append]
    have : (e1.map (fun e : V × V => ((Sum.inl e.1 : V ⊕ W), (Sum.inl e.2 : V ⊕ W)))).filter (fun e => decide (e.2 = Sum.inr i)) = [] := by
      rw [List.filter_eq_nil_iff]
      intro a ha
      rw [List.mem_map] at ha
      obtain ⟨b, _, rfl⟩ := ha
      simp
    rw [this, List.nil_append]

theorem inflow_congr (edges : List (V × V)) (x y : Rows V H K) (i : V) (f : H) (h : ∀ u, (u, i) ∈ edges → x u = y u) :
    inflow edges x i f = inflow edges y i f := by
  unfold inflow
  congr 1
  apply List.map_congr_left
  intro e he
  rw [List.mem_filter, decide_eq_true_eq] at he
  have : (e.1, i) ∈ edges := by rw [← he.2]; exact he.1
  rw [h e.1 this]

theorem Spec.Within.mono {edges : List (V × V)} {n : ℕ} {u v : V} (h : Within edges n u v) : Within edges (n + 1) u v := by
  induction h with
  | here n v => exact .here _ _
  | step n u v w _ he ih => exact .step _ _ _ _ ih he

theorem within_before {edges : List (V × V)} {n : ℕ} {u v w : V} (hu : Within edges n u v) (hw : (w, u) ∈ edges) :
    Within edges (n + 1) w v := by
  induction hu with
  | here n v => exact .step _ _ _ _ (.here n w) hw
  | step n a b c' _ he ih' => exact .step _ _ _ _ (ih' hw) he

theorem convLoop_local (edges : List (V × V)) (x0 y0 : Rows V H K) (cs : List (Gcn2 H K)) : ∀ (k : ℕ) (dx dy : ℕ → Rows V H K)
    (x y : Rows V H K) (v : V),
    (∀ u, Within edges cs.length u v → x u = y u ∧ x0 u = y0 u ∧ ∀ k, dx k u = dy k u) →
    convLoop dx x0 edges k cs x v = convLoop dy y0 edges k cs y v := by
  induction cs with
  | nil => intro k dx dy x y v h; exact (h v (.here _ _)).1
  | cons c cs ih =>
    intro k dx dy x y v h
    simp only [convLoop]
    apply ih
    intro u hu
    have hu' : Within edges (c :: cs).length u v := hu.mono
    refine ⟨?_, (h u hu').2⟩
    have hin : ∀ f, inflow edges (dropout (dx k) x) u f = inflow edges (dropout (dy k) y) u f := by
      intro f
      apply inflow_congr
      intro w hw
      have hwv : Within edges (cs.length + 1) w v := within_before hu hw
      obtain ⟨a, _, b⟩ := h w hwv
      funext f
      unfold dropout
      rw [a, b]
    have := apply_at c (dropout (dx k) x) x0 edges (dropout (dy k) y) y0 edges u u hin (h u hu').2.1
    unfold relu
    funext f
    simp only [congrFun this f, (h u hu').1]

/-- C168: the prediction for a node depends on the features of those nodes only from which it is reached by a walk of at most as many
edges as the network has layers. -/
theorem C168_local (n : Net F H C K) (edges : List (V × V)) (x y : Rows V F K) (v : V)
    (h : ∀ u, Within edges n.convs.length u v → x u = y u) : n.eval x edges v = n.eval y edges v := by
  unfold Net.eval Net.forward
  have h0 : ∀ u, Within edges n.convs.length u v → relu (linear n.w0 n.b0 (dropout (fun _ _ => 1) x)) u =
      relu (linear n.w0 n.b0 (dropout (fun _ _ => 1) y)) u := by
    intro u hu
    unfold relu linear dropout
    rw [h u hu]
  have := convLoop_local edges _ _ n.convs 0 (fun _ _ _ => 1) (fun _ _ _ => 1) _ _ v (fun u hu => ⟨h0 u hu, h0 u hu, fun _ => rfl⟩)
  funext f
  simp only [linear, dropout] at this ⊢
  rw [this]

/-- C168: the prediction for a node without edges into it is the one for a graph of that node alone. -/
theorem C168_isolated (n : Net F H C K) (edges : List (V × V)) (x : Rows V F K) (v : V) (h : ∀ e ∈ edges, e.2 ≠ v) :
    n.eval x edges v = n.eval (fun _ : Unit => x v) [] () := by
  refine forward_embeds n (fun _ : Unit => v) [] edges ⟨fun _ _ _ => rfl, fun i => ?_⟩ _ _ x ()
  rw [List.filter_eq_nil_iff.2 (fun e he => by simpa using h e he)]
  exact List.Perm.refl _

theorem convLoop_twins (edges : List (V × V)) (x0 : Rows V H K) (u v : V)
    (hin : ((edges.filter (fun e => decide (e.2 = u))).map (·.1)).Perm ((edges.filter (fun e => decide (e.2 = v))).map (·.1)))
    (h0 : x0 u = x0 v) (cs : List (Gcn2 H K)) : ∀ (k : ℕ) (x : Rows V H K), x u = x v →
    convLoop (fun _ _ _ => 1) x0 edges k cs x u = convLoop (fun _ _ _ => 1) x0 edges k cs x v := by
  induction cs with
  | nil => intro k x h; exact h
  | cons c cs ih =>
    intro k x h
    simp only [convLoop]
    apply ih
    have hi : ∀ f, inflow edges (dropout (fun _ _ => 1) x) u f = inflow edges (dropout (fun _ _ => 1) x) v f := by
      intro f
      have := (hin.map (fun w => dropout (fun _ _ => 1) x w f)).sum_eq
      simpa only [inflow, List.map_map, Function.comp_def] using this
    have := apply_at c (dropout (fun _ _ => 1) x) x0 edges (dropout (fun _ _ => 1) x) x0 edges u v hi h0
    unfold relu
    funext f
    simp only [congrFun this f, h]

/-- C168: two nodes with the same features and the same predecessors get the same predictions, whatever the parameters. -/
theorem C168_twins (n : Net F H C K) (edges : List (V × V)) (x : Rows V F K) (u v : V) (hx : x u = x v)
    (hin : ((edges.filter (fun e => decide (e.2 = u))).map (·.1)).Perm ((edges.filter (fun e => decide (e.2 = v))).map (·.1))) :
    n.eval x edges u = n.eval x edges v := by
  unfold Net.eval Net.forward
  have h0 : relu (linear n.w0 n.b0 (dropout (fun _ _ => 1) x)) u = relu (linear n.w0 n.b0 (dropout (fun _ _ => 1) x)) v := by
    unfold relu linear dropout
    rw [hx]
  have := convLoop_twins edges _ u v hin h0 n.convs 0 _ h0
  funext f
  simp only [linear, dropout] at this ⊢
  rw [this]

/-- **C168, the formula.** With whatever dropout, the network is this: the first rows are the positive parts of a linear map of the features; every
layer adds what it computes from its inputs, scaled by dropout factors of its own, to them and keeps the positive part; the predictions are a linear map of
the last rows, scaled by factors of their own. -/
theorem C168_formula (n : Net F H C K) (edges : List (V × V)) (dropIn : Rows V F K) (drop : ℕ → Rows V H K) (x : Rows V F K) (X : ℕ → Rows V H K)
    (h0 : ∀ v g, X 0 v g = max 0 ((∑ a, dropIn v a * x v a * n.w0 a g) + n.b0 g))
    (hk : ∀ (k : ℕ) c, n.convs[k]? = some c → ∀ v g, X (k + 1) v g = max 0 (c.apply (fun u f => drop k u f * X k u f) (X 0) edges none v g + X k v g))
    (v : V) (c : C) :
    n.forward dropIn drop x edges v c = (∑ g, drop n.convs.length v g * X n.convs.length v g * n.w1 g c) + n.b1 c := by
  have hx0 : relu (linear n.w0 n.b0 (dropout dropIn x)) = X 0 := by
    funext v g
    rw [h0]
    rfl
  have key : ∀ (l : List (Gcn2 H K)) (k : ℕ), (∀ j c, l[j]? = some c → n.convs[k + j]? = some c) →
      convLoop drop (X 0) edges k l (X k) = X (k + l.length) := by
    intro l
    induction l with
    | nil => intro k _; rfl
    | cons c l ih =>
      intro k hl
      rw [convLoop]
      have hstep : relu (fun i f => c.apply (dropout (drop k) (X k)) (X 0) edges none i f + X k i f) = X (k + 1) := by
        funext v g
        rw [hk k c (by simpa using hl 0 c rfl)]
        rfl
      rw [hstep, ih (k + 1) (fun j d hj => by rw [show k + 1 + j = k + (j + 1) by omega]; exact hl (j + 1) d hj), List.length_cons]
      congr 1
      omega
  unfold Net.forward
  rw [hx0, key n.convs 0 (fun j c h => by simpa using h), Nat.zero_add]
  rfl

/-- Without layers. -/
example (n : Net F H C K) (hn : n.convs = []) (x : Rows V F K) (v : V) (c : C) :
    n.eval x [] v c = (∑ g, 1 * max 0 ((∑ a, 1 * x v a * n.w0 a g) + n.b0 g) * n.w1 g c) + n.b1 c := by
  have := C168_formula n [] (fun _ _ => 1) (fun _ _ _ => 1) x (fun _ v g => max 0 ((∑ a, 1 * x v a * n.w0 a g) + n.b0 g)) (fun _ _ => rfl)
    (by rw [hn]; intro k c h; cases h) v c
  exact this

/-! ### C169 The cache -/

/-- A call of a layer: rows, first rows, edges, weights. -/
structure GcnCall (V H K : Type) where
  x : Rows V H K
  x0 : Rows V H K
  edges : List (V × V)
  w : Option (List K)

/-- A history of calls: the outputs and the layer afterwards. -/
def gcnRun (norm : List (V × V) → Option (List K) → List (V × V) × Option (List K)) :
    GcnObj V H K → List (GcnCall V H K) → List (Rows V H K) × GcnObj V H K
  | o, [] => ([], o)
  | o, c :: rest =>
    let r := o.forward norm c.x c.x0 c.edges c.w
    let s := gcnRun norm r.2 rest
    (r.1 :: s.1, s.2)

theorem gcnRun_cached (norm : List (V × V) → Option (List K) → List (V × V) × Option (List K)) (e : List (V × V) × Option (List K)) :
    ∀ (calls : List (GcnCall V H K)) (o : GcnObj V H K), o.cache = some e →
      gcnRun norm o calls = (calls.map (fun d => o.par.apply d.x d.x0 e.1 e.2), o) := by
  intro calls
  induction calls with
  | nil => intro o _; rfl
  | cons c calls ih =>
    intro o h
    have : o.forward norm c.x c.x0 c.edges c.w = (o.par.apply c.x c.x0 e.1 e.2, o) := by
      unfold GcnObj.forward; rw [h]
    simp only [gcnRun, this, ih o h, List.map_cons]

/-- C169: a layer with `cached=True` computes every call of every history with the edges of the first call, normalized; the edges and
weights of later calls have no effect. After `reset_parameters` the next call counts as the first. -/
theorem C169_cached (norm : List (V × V) → Option (List K) → List (V × V) × Option (List K)) (par : Gcn2 H K)
    (first : GcnCall V H K) (later : List (GcnCall V H K)) :
    (gcnRun norm ⟨par, true, none⟩ (first :: later)).1 =
      (first :: later).map (fun d => par.apply d.x d.x0 (norm first.edges first.w).1 (norm first.edges first.w).2) ∧
    ∀ w1 w2, (gcnRun norm ⟨par, true, none⟩ (first :: later)).2.reset w1 w2 = ⟨{ par with weight1 := w1, weight2 := w2 }, true, none⟩ := by
  have h : GcnObj.forward norm ⟨par, true, none⟩ first.x first.x0 first.edges first.w =
      (par.apply first.x first.x0 (norm first.edges first.w).1 (norm first.edges first.w).2, ⟨par, true, some (norm first.edges first.w)⟩) := rfl
  simp only [gcnRun, h]
  rw [gcnRun_cached norm (norm first.edges first.w) later _ rfl]
  exact ⟨rfl, fun w1 w2 => rfl⟩

/-- C169: without caching every call of every history is computed with its own edges. -/
theorem C169_not_cached (norm : List (V × V) → Option (List K) → List (V × V) × Option (List K)) (par : Gcn2 H K) :
    ∀ calls : List (GcnCall V H K), gcnRun norm ⟨par, false, none⟩ calls =
      (calls.map (fun d => par.apply d.x d.x0 (norm d.edges d.w).1 (norm d.edges d.w).2), ⟨par, false, none⟩) := by
  intro calls
  induction calls with
  | nil => rfl
  | cons c calls ih =>
    have h : GcnObj.forward norm ⟨par, false, none⟩ c.x c.x0 c.edges c.w =
      (par.apply c.x c.x0 (norm c.edges c.w).1 (norm c.edges c.w).2, ⟨par, false, none⟩) := rfl
    simp only [gcnRun, h, ih, List.map_cons]

end

/-- The constructor of a layer (minimum_example_node_classification.py 113-116): `theta` and `layer` must be given together. Simplified:
real numbers. A layer number of zero raises ZeroDivisionError, a logarithm of a number that is not positive ValueError. -/
noncomputable def layerBeta (theta : Option ℝ) (layer : Option ℤ) : Py ℝ :=
  match theta, layer with
  | none, none => .ok 1
  | some t, some l =>
    if l = 0 then .error .zeroDiv
    else if t / l + 1 ≤ 0 then .error .value
    else .ok (Real.log (t / l + 1))
  | _, _ => .error .assertion

/-- C167: the strength of the identity mapping in the layers `1, 2, …` of a network with positive `theta`: it is positive, at most
`theta / layer`, below 1 for `theta ≤ 1`, and strictly smaller in later layers. -/
theorem C167_beta (theta : ℝ) (h : 0 < theta) (l : ℕ) :
    ∃ b b', layerBeta (some theta) (some (l + 1)) = .ok b ∧ layerBeta (some theta) (some (l + 2)) = .ok b' ∧
      0 < b ∧ b ≤ theta / (l + 1) ∧ b' < b ∧ (theta ≤ 1 → b < 1) := by
  have hl : (0 : ℝ) < (l : ℝ) + 1 := by positivity
  have hl2 : (0 : ℝ) < (l : ℝ) + 2 := by positivity
  have hp : 0 < theta / ((l : ℝ) + 1) := div_pos h hl
  have hp2 : 0 < theta / ((l : ℝ) + 2) := div_pos h hl2
  refine ⟨Real.log (theta / (l + 1) + 1), Real.log (theta / (l + 2) + 1), ?_, ?_, ?_, ?_, ?_, ?_⟩
  · unfold layerBeta
    have : ((l : ℤ) + 1) ≠ 0 := by omega
    simp only [this, if_false]
    push_cast
    rw [if_neg (by linarith)]
  · unfold layerBeta
    have : ((l : ℤ) + 2) ≠ 0 := by omega
    simp only [this, if_false]
    push_cast
    rw [if_neg (by linarith)]
  · exact Real.log_pos (by linarith)
  · have := Real.log_le_sub_one_of_pos (x := theta / (l + 1) + 1) (by linarith)
    linarith
  · apply Real.log_lt_log (by linarith)
    have : theta / ((l : ℝ) + 2) < theta / (l + 1) := div_lt_div_of_pos_left h hl (by linarith)
    linarith
  · intro h1
    have h2 : theta / ((l : ℝ) + 1) ≤ 1 := by
      rw [div_le_one hl]
      have : (0 : ℝ) ≤ l := by positivity
      linarith
    have := Real.log_lt_sub_one_of_pos (x := theta / (l + 1) + 1) (by linarith) (by linarith)
    linarith

/-- C167: exactly one of `theta` and `layer` is refused with AssertionError; without both the strength is 1. -/
theorem C167_refused (theta : ℝ) (l : ℤ) :
    layerBeta (some theta) none = .error .assertion ∧ layerBeta none (some l) = .error .assertion ∧ layerBeta none none = .ok 1 ∧
    layerBeta (some theta) (some 0) = .error .zeroDiv ∧
    (l ≠ 0 → theta / l ≤ -1 → layerBeta (some theta) (some l) = .error .value) := by
  refine ⟨rfl, rfl, rfl, by simp [layerBeta], ?_⟩
  intro hl h
  unfold layerBeta
  simp only [hl, if_false]
  rw [if_pos (by linarith)]

/-! ### Examples -/

/-- A layer of one feature. -/
def exGcn : Gcn2 (Fin 1) ℚ := ⟨1/2, 1/4, fun _ _ => 3, none⟩

/-- A network of one feature and two layers. -/
def exNet : Net (Fin 1) (Fin 1) (Fin 1) ℚ := ⟨fun _ _ => 1, fun _ => 0, [exGcn, exGcn], fun _ _ => 1, fun _ => 0⟩

/-- Features that are zero but for the first of four nodes. -/
def exFeat (q : ℚ) : Rows (Fin 4) (Fin 1) ℚ := fun i _ => if i = 0 then q else 0

/-- A chain of four nodes. -/
def exChain : List (Fin 4 × Fin 4) := [(0, 1), (1, 2), (2, 3)]

example : exGcn.apply (exFeat 2) (exFeat 4) exChain none 1 0 = 3/2 ∧ exGcn.apply (exFeat 2) (exFeat 4) exChain (some [5, 1, 1]) 1 0 = 15/2 := by
  decide +kernel

/-- C168: the bound on the walks is the right one: with two layers the third node of a chain hears of the first, the fourth does not. -/
theorem C168_local_tight :
    exNet.eval (exFeat 1) exChain 2 0 ≠ exNet.eval (exFeat 2) exChain 2 0 ∧
    exNet.eval (exFeat 1) exChain 3 0 = exNet.eval (exFeat 2) exChain 3 0 := by
  decide +kernel

/-- C168: direction counts: the first node of the chain does not hear of the others, and a renaming is not an identity. -/
example : exNet.eval (fun (i : Fin 4) _ => (i.val : ℚ)) exChain 0 0 = 0 ∧ exNet.eval (fun (i : Fin 4) _ => (i.val : ℚ)) (exChain.map (fun e => (e.2, e.1))) 0 0 ≠ 0 := by
  decide +kernel

/-- C168: nodes 1 and 2 of a fork have the same predecessor and features, node 3 has not. -/
example : exNet.eval (exFeat 1) [(0, 1), (0, 2), (1, 3)] 1 0 = exNet.eval (exFeat 1) [(0, 1), (0, 2), (1, 3)] 2 0 ∧
    exNet.eval (exFeat 1) [(0, 1), (0, 2), (1, 3)] 1 0 ≠ exNet.eval (exFeat 1) [(0, 1), (0, 2), (1, 3)] 3 0 := by
  decide +kernel

/-- C169: the edges of the second call have no effect with a cache and have one without. -/
theorem C169_stale :
    let call (e : List (Fin 4 × Fin 4)) : GcnCall (Fin 4) (Fin 1) ℚ := ⟨exFeat 1, exFeat 1, e, none⟩
    let out (b : Bool) := (gcnRun (fun e w => (e, w)) ⟨exGcn, b, none⟩ [call exChain, call []]).1.map (fun r => r 1 0)
    out true = [3/4, 3/4] ∧ out false = [3/4, 0] := by
  decide +kernel

example : ∃ b, layerBeta (some 1) (some 1) = .ok b ∧ 0 < b ∧ b < 1 := by
  obtain ⟨b, _, h, _, h1, _, _, h2⟩ := C167_beta 1 one_pos 0
  exact ⟨b, by simpa using h, h1, h2 le_rfl⟩

end NGC
