import Verif.TopkPool
import Mathlib.Tactic.Linarith
import Mathlib.Tactic.Positivity
import Mathlib.Tactic.NormNum
import Mathlib.Tactic.Ring
import Mathlib.Tactic.FieldSimp
import Mathlib.Algebra.BigOperators.Field

/-!
C205 and C206: what the pooling experiment keeps of a graph, and what its loss measures.
-/

namespace NGC

variable {n d : ℕ} {H : Type}

theorem softOver_pos (s : Fin n → ℝ) (v : Fin n) : 0 < softOver s v := by
  have : 0 < ∑ u, Real.exp (s u) := Finset.sum_pos (fun u _ => Real.exp_pos _) ⟨v, Finset.mem_univ _⟩
  exact div_pos (Real.exp_pos _) this

theorem softOver_sum [NeZero n] (s : Fin n → ℝ) : ∑ v, softOver s v = 1 := by
  have : 0 < ∑ u, Real.exp (s u) := Finset.sum_pos (fun u _ => Real.exp_pos _) ⟨0, Finset.mem_univ _⟩
  unfold softOver
  rw [← Finset.sum_div, div_self this.ne']

theorem softOver_le_one (s : Fin n → ℝ) (v : Fin n) : softOver s v ≤ 1 := by
  haveI : NeZero n := ⟨fun h => by subst h; exact v.elim0⟩
  rw [← softOver_sum s]
  exact Finset.single_le_sum (fun u _ => (softOver_pos s u).le) (Finset.mem_univ v)

theorem softOver_le_iff (s : Fin n → ℝ) (u v : Fin n) : softOver s u ≤ softOver s v ↔ s u ≤ s v := by
  have : 0 < ∑ u, Real.exp (s u) := Finset.sum_pos (fun u _ => Real.exp_pos _) ⟨v, Finset.mem_univ _⟩
  unfold softOver
  rw [div_le_div_iff_of_pos_right this, Real.exp_le_exp]

/-- C205: the attention of the nodes is positive, at most 1 and adds up to 1; it orders the nodes as the first feature does, and adding a constant to that feature
changes nothing. The other features stay, shifted by one column. -/
theorem C205_attention (x : Fin n → Fin (d + 1) → ℝ) :
    (∀ v, 0 < attnOf x v ∧ attnOf x v ≤ 1) ∧ (0 < n → ∑ v, attnOf x v = 1) ∧
    (∀ u v, attnOf x u ≤ attnOf x v ↔ x u 0 ≤ x v 0) ∧ (∀ c : ℝ, attnOf (fun v j => x v j + c) = attnOf x) ∧
    ∀ v (j : Fin d), restOf x v j = x v j.succ := by
  refine ⟨fun v => ⟨softOver_pos _ v, softOver_le_one _ v⟩, ?_, fun u v => softOver_le_iff _ u v, ?_, fun _ _ => rfl⟩
  · intro h
    haveI : NeZero n := ⟨by omega⟩
    exact softOver_sum _
  · intro c
    funext v
    simp only [attnOf, softOver, Real.exp_add, ← Finset.sum_mul]
    exact mul_div_mul_right _ _ (Real.exp_pos c).ne'

theorem mem_keptNodes (score : Fin n → ℝ) (v : Fin n) :
    v ∈ keptNodes score ↔ min ((⨆ u, score u) - 1 / 10000000) (5 / 100) < score v := by
  simp [keptNodes]

theorem keptNodes_nodup (score : Fin n → ℝ) : (keptNodes score).Nodup := (List.nodup_finRange n).filter _

theorem sum_kept_le (score f : Fin n → ℝ) (hf : ∀ v, 0 ≤ f v) : ((keptNodes score).map f).sum ≤ ∑ v, f v := by
  rw [← List.sum_toFinset f (keptNodes_nodup score)]
  exact Finset.sum_le_sum_of_subset_of_nonneg (Finset.subset_univ _) (fun v _ _ => hf v)

/-- C205: the pooling keeps the nodes in their order, each once; with a node it keeps every node with at least its score; and it keeps a node with
the greatest score, so a graph is never emptied. Here `s` is what the softmax is taken of. -/
theorem C205_kept (s : Fin n → ℝ) :
    (keptNodes (softOver s)).Pairwise (· < ·) ∧
    (∀ u v, u ∈ keptNodes (softOver s) → s u ≤ s v → v ∈ keptNodes (softOver s)) ∧
    (∀ v, (∀ u, s u ≤ s v) → v ∈ keptNodes (softOver s)) ∧
    (0 < n → keptNodes (softOver s) ≠ []) := by
  have hbest : ∀ v, (∀ u, s u ≤ s v) → v ∈ keptNodes (softOver s) := by
    intro v hv
    haveI : Nonempty (Fin n) := ⟨v⟩
    rw [mem_keptNodes]
    have h1 : (⨆ u, softOver s u) ≤ softOver s v := ciSup_le (fun u => (softOver_le_iff s u v).2 (hv u))
    exact (min_le_left _ _).trans_lt (by linarith)
  refine ⟨(List.pairwise_lt_finRange n).filter _, ?_, hbest, ?_⟩
  · intro u v hu huv
    rw [mem_keptNodes] at hu ⊢
    exact hu.trans_le ((softOver_le_iff s u v).2 huv)
  · intro h0
    haveI : Nonempty (Fin n) := ⟨⟨0, h0⟩⟩
    obtain ⟨v, hv⟩ := Finite.exists_max s
    exact List.ne_nil_of_mem (hbest v hv)

/-- C205: if some node scores at least 0.0500001 the nodes that are kept are those that score above 0.05, and there are at most 19; otherwise they are
those within 1e-7 of the greatest score. So a graph of at most 19 nodes is cut at 0.05, and a graph whose nodes all score the same is kept whole. -/
theorem C205_few (s : Fin n → ℝ) :
    (∀ v, 500001 / 10000000 ≤ softOver s v →
      (keptNodes (softOver s)).length ≤ 19 ∧ ∀ u, u ∈ keptNodes (softOver s) ↔ 5 / 100 < softOver s u) ∧
    ((∀ v, softOver s v < 500001 / 10000000) →
      ∀ u, u ∈ keptNodes (softOver s) ↔ ∀ v, softOver s v - softOver s u < 1 / 10000000) ∧
    (0 < n → n ≤ 19 → ∀ u, u ∈ keptNodes (softOver s) ↔ 5 / 100 < softOver s u) ∧
    ((∀ u v, s u = s v) → (keptNodes (softOver s)).length = n) := by
  have hbdd : BddAbove (Set.range (softOver s)) := Set.Finite.bddAbove (Set.finite_range _)
  have h1 : ∀ v, 500001 / 10000000 ≤ softOver s v →
      (keptNodes (softOver s)).length ≤ 19 ∧ ∀ u, u ∈ keptNodes (softOver s) ↔ 5 / 100 < softOver s u := by
    intro v hv
    haveI : NeZero n := ⟨fun h => by subst h; exact v.elim0⟩
    have hsup := le_ciSup hbdd v
    have hk : ∀ u, u ∈ keptNodes (softOver s) ↔ 5 / 100 < softOver s u := by
      intro u
      rw [mem_keptNodes, min_eq_right (by linarith)]
    refine ⟨?_, hk⟩
    by_contra hlen
    have hne : keptNodes (softOver s) ≠ [] := by rintro h; rw [h] at hlen; simp at hlen
    have h2 := sum_kept_le (softOver s) (softOver s) (fun v => (softOver_pos s v).le)
    rw [softOver_sum] at h2
    have h3 : ∀ l : List (Fin n), (∀ u ∈ l, 5 / 100 < softOver s u) → l ≠ [] → (l.length : ℝ) * (5 / 100) < (l.map (softOver s)).sum := by
      intro l
      induction l with
      | nil => intro _ h; exact absurd rfl h
      | cons a l ih =>
        intro h _
        have ha := h a (by simp)
        rcases l with _ | ⟨b, l⟩
        · simpa using ha
        · have := ih (fun u hu => h u (by simp [hu])) (by simp)
          simp only [List.length_cons, List.map_cons, List.sum_cons, Nat.cast_add, Nat.cast_one] at this ⊢
          linarith
    have h4 := h3 _ (fun u hu => (hk u).1 hu) hne
    have h5 : (20 : ℝ) ≤ ((keptNodes (softOver s)).length : ℝ) := by exact_mod_cast (by omega : 20 ≤ _)
    linarith
  refine ⟨h1, ?_, ?_, ?_⟩
  · intro hs u
    haveI : Nonempty (Fin n) := ⟨u⟩
    obtain ⟨w, hw⟩ := exists_eq_ciSup_of_finite (f := softOver s)
    rw [mem_keptNodes, min_eq_left (by have := hs w; rw [hw] at this; linarith)]
    constructor
    · intro h v
      have := le_ciSup hbdd v
      linarith
    · intro h
      have := h w
      rw [hw] at this
      linarith
  · intro h0 h19 u
    haveI : Nonempty (Fin n) := ⟨u⟩
    haveI : NeZero n := ⟨by omega⟩
    obtain ⟨w, hw⟩ := Finite.exists_max (softOver s)
    refine (h1 w ?_).2 u
    have hsum := softOver_sum s
    have : ∑ v, softOver s v ≤ ∑ _v : Fin n, softOver s w := Finset.sum_le_sum (fun v _ => hw v)
    simp only [Finset.sum_const, Finset.card_univ, Fintype.card_fin, nsmul_eq_mul] at this
    have hn : (n : ℝ) ≤ 19 := by exact_mod_cast h19
    have hp := softOver_pos s w
    nlinarith
  · intro heq
    have : keptNodes (softOver s) = List.finRange n := by
      refine List.filter_eq_self.2 (fun v _ => ?_)
      have := (C205_kept s).2.2.1 v (fun u => (heq u v).le)
      rw [mem_keptNodes] at this
      simpa using this
    rw [this, List.length_finRange]

/-- C205: the edges after the pooling are those between kept nodes, in their order; the new numbers are places in the list of kept nodes, and
reading them there gives the edge back. -/
theorem C205_edges (perm : List (Fin n)) (edges : List (Fin n × Fin n)) :
    (keptEdges perm edges).map (fun e => (perm[e.1]?, perm[e.2]?)) =
      (edges.filter (fun e => decide (e.1 ∈ perm ∧ e.2 ∈ perm))).map (fun e => (some e.1, some e.2)) ∧
    (∀ e ∈ keptEdges perm edges, e.1 < perm.length ∧ e.2 < perm.length) ∧
    (keptEdges perm edges).length = edges.countP (fun e => decide (e.1 ∈ perm ∧ e.2 ∈ perm)) := by
  refine ⟨?_, ?_, ?_⟩
  · unfold keptEdges
    rw [List.map_map]
    refine List.map_congr_left (fun e he => ?_)
    have hm := of_decide_eq_true (List.mem_filter.1 he).2
    simp [List.getElem?_idxOf hm.1, List.getElem?_idxOf hm.2]
  · intro e he
    obtain ⟨e', he', rfl⟩ := List.mem_map.1 he
    have hm := of_decide_eq_true (List.mem_filter.1 he').2
    exact ⟨List.idxOf_lt_length_iff.2 hm.1, List.idxOf_lt_length_iff.2 hm.2⟩
  · simp [keptEdges, List.countP_eq_length_filter]

/-- C205: the share of kept nodes that `forward` returns is above 0 and at most 1. -/
theorem C205_ratio (net : TopkNet d H) (x : Fin n → Fin d → ℝ) (attn : Fin n → ℝ) (edges : List (Fin n × Fin n)) (h : 0 < n) :
    0 < (net.forward x attn edges).2.2 ∧ (net.forward x attn edges).2.2 ≤ 1 := by
  have hn : (0 : ℝ) < n := by exact_mod_cast h
  have h1 := (C205_kept (fun v => ∑ j, x v j * net.weight j)).2.2.2 h
  have h2 : 0 < (keptNodes (poolScore net.weight x)).length := List.length_pos_iff.2 h1
  have h3 : (keptNodes (poolScore net.weight x)).length ≤ n := by
    have := List.length_filter_le (fun v => decide (min ((⨆ u, poolScore net.weight x u) - 1 / 10000000) (5 / 100) < poolScore net.weight x v)) (List.finRange n)
    simpa [keptNodes] using this
  refine ⟨div_pos (by exact_mod_cast h2) hn, (div_le_one hn).2 (by exact_mod_cast h3)⟩

theorem klTerm_lower (t s : ℝ) (ht : 0 < t) (hs : 0 < s) : t - s - 1 / 10 ^ 14 ≤ klTerm t s := by
  have hs' : 0 < s + 1 / 10 ^ 14 := by positivity
  have h := Real.log_le_sub_one_of_pos (div_pos hs' ht)
  rw [Real.log_div hs'.ne' ht.ne'] at h
  have h2 : t * (Real.log (s + 1 / 10 ^ 14) - Real.log t) ≤ t * ((s + 1 / 10 ^ 14) / t - 1) := mul_le_mul_of_nonneg_left h ht.le
  have h3 : t * ((s + 1 / 10 ^ 14) / t - 1) = s + 1 / 10 ^ 14 - t := by field_simp
  unfold klTerm
  nlinarith

theorem sum_map_ge {α : Type} (l : List α) (f g : α → ℝ) (h : ∀ a ∈ l, g a ≤ f a) : (l.map g).sum ≤ (l.map f).sum :=
  List.sum_le_sum h

/-- C206: the attention loss of a graph of which `k` nodes are kept is at least `- 1 / k - 1e-14`, and at least `- 1e-14` if all are kept.
Defect: it is below 0 if every kept node has less attention than score. If a node scores at least
0.0500001 it is below `log 20 / k`. -/
theorem C206_divergence (a s : Fin n → ℝ) (h0 : 0 < n) :
    - (1 / (keptNodes (softOver s)).length) - 1 / 10 ^ 14 ≤ attnLoss (softOver a) (softOver s) (keptNodes (softOver s)) ∧
    ((keptNodes (softOver s)).length = n → - (1 / 10 ^ 14) ≤ attnLoss (softOver a) (softOver s) (keptNodes (softOver s))) ∧
    ((∀ v ∈ keptNodes (softOver s), softOver a v ≤ softOver s v) → attnLoss (softOver a) (softOver s) (keptNodes (softOver s)) < 0) ∧
    (∀ v, 500001 / 10000000 ≤ softOver s v →
      attnLoss (softOver a) (softOver s) (keptNodes (softOver s)) ≤ Real.log 20 / (keptNodes (softOver s)).length) := by
  haveI : NeZero n := ⟨by omega⟩
  have hne := (C205_kept s).2.2.2 h0
  have hk : (0 : ℝ) < ((keptNodes (softOver s)).length : ℝ) := by exact_mod_cast List.length_pos_iff.2 hne
  have hsplit : ∀ l : List (Fin n), (l.map (fun v => softOver a v - softOver s v - 1 / 10 ^ 14)).sum =
      (l.map (softOver a)).sum - (l.map (softOver s)).sum - l.length * (1 / 10 ^ 14) := by
    intro l
    induction l with
    | nil => simp
    | cons b l ih => simp only [List.map_cons, List.sum_cons, ih, List.length_cons, Nat.cast_add, Nat.cast_one]; ring
  have hlow : ((keptNodes (softOver s)).map (softOver a)).sum - ((keptNodes (softOver s)).map (softOver s)).sum
      - (keptNodes (softOver s)).length * (1 / 10 ^ 14) ≤ ((keptNodes (softOver s)).map (fun v => klTerm (softOver a v) (softOver s v))).sum := by
    rw [← hsplit]
    exact sum_map_ge _ _ _ (fun v _ => klTerm_lower _ _ (softOver_pos a v) (softOver_pos s v))
  have hsa : 0 ≤ ((keptNodes (softOver s)).map (softOver a)).sum :=
    List.sum_nonneg (fun r hr => by obtain ⟨v, _, rfl⟩ := List.mem_map.1 hr; exact (softOver_pos a v).le)
  have hss := sum_kept_le (softOver s) (softOver s) (fun v => (softOver_pos s v).le)
  rw [softOver_sum] at hss
  have hsa1 := sum_kept_le (softOver s) (softOver a) (fun v => (softOver_pos a v).le)
  rw [softOver_sum] at hsa1
  refine ⟨?_, ?_, ?_, ?_⟩
  · unfold attnLoss
    rw [le_div_iff₀ hk]
    have : (-(1 / ((keptNodes (softOver s)).length : ℝ)) - 1 / 10 ^ 14) * ((keptNodes (softOver s)).length : ℝ)
        = -1 - (keptNodes (softOver s)).length * (1 / 10 ^ 14) := by field_simp
    rw [this]
    linarith
  · intro hall
    have heq : keptNodes (softOver s) = List.finRange n := by
      have hsub : (keptNodes (softOver s)).Sublist (List.finRange n) := List.filter_sublist
      exact hsub.eq_of_length (by rw [hall, List.length_finRange])
    have hfull : ∀ f : Fin n → ℝ, ((keptNodes (softOver s)).map f).sum = ∑ v, f v := by
      intro f
      rw [← List.sum_toFinset f (keptNodes_nodup _), heq]
      congr 1
      ext v; simp
    rw [hfull, hfull, softOver_sum, softOver_sum] at hlow
    unfold attnLoss
    rw [le_div_iff₀ hk]
    linarith
  · intro hle
    unfold attnLoss
    refine div_neg_of_neg_of_pos ?_ hk
    have : ∀ l : List (Fin n), (∀ v ∈ l, softOver a v ≤ softOver s v) → l ≠ [] → (l.map (fun v => klTerm (softOver a v) (softOver s v))).sum < 0 := by
      intro l
      induction l with
      | nil => intro _ h; exact absurd rfl h
      | cons b l ih =>
        intro h _
        have hb : klTerm (softOver a b) (softOver s b) < 0 := by
          have h1 := h b (by simp)
          have h2 : Real.log (softOver a b) < Real.log (softOver s b + 1 / 10 ^ 14) :=
            Real.log_lt_log (softOver_pos a b) (lt_of_le_of_lt h1 (lt_add_of_pos_right _ (by positivity)))
          exact mul_neg_of_pos_of_neg (softOver_pos a b) (by linarith)
        rcases l with _ | ⟨c, l⟩
        · simpa using hb
        · have := ih (fun u hu => h u (by simp [hu])) (by simp)
          simp only [List.map_cons, List.sum_cons] at this ⊢
          linarith
    exact this _ hle hne
  · intro v hv
    have hmem := ((C205_few s).1 v hv).2
    unfold attnLoss
    refine div_le_div_of_nonneg_right ?_ hk.le
    have hterm : ∀ u ∈ keptNodes (softOver s), klTerm (softOver a u) (softOver s u) ≤ Real.log 20 * softOver a u := by
      intro u hu
      have hs := (hmem u).1 hu
      have h1 : Real.log (softOver a u) ≤ 0 := Real.log_nonpos (softOver_pos a u).le (softOver_le_one a u)
      have h2 : Real.log (1 / 20) ≤ Real.log (softOver s u + 1 / 10 ^ 14) :=
        Real.log_le_log (by norm_num) (by have : (0 : ℝ) < 1 / 10 ^ 14 := by positivity
                                          linarith)
      rw [Real.log_div (by norm_num) (by norm_num), Real.log_one] at h2
      unfold klTerm
      nlinarith [softOver_pos a u]
    refine (sum_map_ge _ _ _ hterm).trans ?_
    rw [List.sum_map_mul_left]
    have : 0 ≤ Real.log 20 := Real.log_nonneg (by norm_num)
    nlinarith

/-- C205, C206: what `forward` makes of a graph of the dataset, in formulas, if some node scores at least 0.0500001: the rows of the nodes that score above 0.05, times their scores, and the edges between
them go on to the rest of the network; the attention loss is the mean over these nodes of the attention times the logarithm of attention over score; the share is that of these nodes. -/
theorem C206_forward (net : TopkNet d H) (x : Fin n → Fin (d + 1) → ℝ) (edges : List (Fin n × Fin n)) (p a : Fin n → ℝ)
    (hp : ∀ v, p v = Real.exp (∑ j : Fin d, x v j.succ * net.weight j) / ∑ u, Real.exp (∑ j : Fin d, x u j.succ * net.weight j))
    (ha : ∀ v, a v = Real.exp (x v 0) / ∑ u, Real.exp (x u 0)) (hbig : ∃ v, 500001 / 10000000 ≤ p v) :
    let above := (List.finRange n).filter (fun v => decide (5 / 100 < p v))
    let r := net.forward (restOf x) (attnOf x) edges
    r.1 = net.tail (above.map (fun v h => net.conv1 (fun u j => x u j.succ) edges v h * p v)) (keptEdges above edges) ∧
    r.2.1 = (∑ v with 5 / 100 < p v, a v * (Real.log (a v) - Real.log (p v + 1 / 10 ^ 14))) / (Finset.univ.filter (fun v => 5 / 100 < p v)).card ∧
    r.2.2 = (Finset.univ.filter (fun v => 5 / 100 < p v)).card / n := by
  intro above r
  have hp' : p = poolScore net.weight (restOf x) := funext hp
  have ha' : a = attnOf x := funext ha
  obtain ⟨w, hw⟩ := hbig
  have hk : keptNodes p = above := by
    refine List.filter_congr (fun v _ => ?_)
    have hm := mem_keptNodes p v
    have h2 : v ∈ keptNodes p ↔ 5 / 100 < p v := by
      rw [hp'] at hw ⊢
      exact ((C205_few (fun u => ∑ j, restOf x u j * net.weight j)).1 w hw).2 v
    rw [decide_eq_decide]
    exact hm.symm.trans h2
  have hfin : ∀ f : Fin n → ℝ, (above.map f).sum = ∑ v with 5 / 100 < p v, f v := by
    intro f
    rw [← List.sum_toFinset f ((List.nodup_finRange n).filter _)]
    congr 1
    ext v
    simp [above]
  have hlen : above.length = (Finset.univ.filter (fun v => 5 / 100 < p v)).card := by
    rw [← List.toFinset_card_of_nodup ((List.nodup_finRange n).filter _)]
    congr 1
    ext v
    simp [above]
  have hr : r = (net.tail (above.map (fun v => fun h => net.conv1 (restOf x) edges v h * p v)) (keptEdges above edges), attnLoss a p above, (above.length : ℝ) / n) := by
    rw [← hk, hp', ha']
    rfl
  rw [hr]
  refine ⟨rfl, ?_, by rw [hlen]⟩
  change (above.map (fun v => klTerm (a v) (p v))).sum / _ = _
  rw [hfin, hlen]
  rfl

/-- The mean of a list of labels. -/
noncomputable def meanLabel (y : List ℝ) : ℝ := y.sum / y.length

theorem topkLoss_eq (y : List ℝ) (h : y ≠ []) (out attn : ℝ) :
    topkLoss y out attn = (out - meanLabel y) ^ 2 + (y.map (fun t => (t - meanLabel y) ^ 2)).sum / y.length + 100 * attn := by
  have hk : (0 : ℝ) < (y.length : ℝ) := by exact_mod_cast List.length_pos_iff.2 h
  have key : ∀ (m : ℝ) (l : List ℝ), (l.map (fun t => (out - t) ^ 2 + 100 * attn)).sum =
      (l.map (fun t => (t - m) ^ 2)).sum + l.length * (out - m) ^ 2 - 2 * (out - m) * (l.sum - l.length * m) + l.length * (100 * attn) := by
    intro m l
    induction l with
    | nil => simp
    | cons b l ih => simp only [List.map_cons, List.sum_cons, ih, List.length_cons, Nat.cast_add, Nat.cast_one]; ring
  have hm : y.sum - y.length * meanLabel y = 0 := by unfold meanLabel; field_simp; ring
  unfold topkLoss
  rw [key (meanLabel y) y, hm]
  field_simp
  ring

/-- C206: defect: every loss of an epoch is computed with the labels of the graph drawn before the loop, whatever graph the batch holds: it is the squared distance of the output from
the mean of those labels, plus their variance, plus 100 times the attention loss of the batch. -/
theorem C206_labels (sampled : RawGraph d) (nets : List (TopkNet d H)) (batches : List (RawGraph d)) (hy : sampled.y ≠ []) :
    topkEpoch sampled nets batches = (nets.zip batches).map (fun p =>
      ((p.1.forward (restOf p.2.x) (attnOf p.2.x) p.2.edges).1 - sampled.y.sum / sampled.y.length) ^ 2
      + (sampled.y.map (fun t => (t - sampled.y.sum / sampled.y.length) ^ 2)).sum / sampled.y.length
      + 100 * (p.1.forward (restOf p.2.x) (attnOf p.2.x) p.2.edges).2.1) := by
  unfold topkEpoch
  refine List.map_congr_left (fun p _ => ?_)
  exact topkLoss_eq _ hy _ _

/-- C206: so the labels of the batches change nothing, and for any attention loss the loss is least exactly when the output is the mean of the labels of the first graph. -/
theorem C206_best (y : List ℝ) (hy : y ≠ []) (out out' attn : ℝ) (hbest : out' = y.sum / y.length) :
    topkLoss y out' attn ≤ topkLoss y out attn ∧ (topkLoss y out attn = topkLoss y out' attn ↔ out = y.sum / y.length) := by
  rw [topkLoss_eq y hy, topkLoss_eq y hy]
  subst hbest
  have : (y.sum / y.length - meanLabel y) ^ 2 = 0 := by simp [meanLabel]
  rw [this]
  refine ⟨by nlinarith [sq_nonneg (out - meanLabel y)], ⟨fun h => ?_, fun h => ?_⟩⟩
  · have : (out - meanLabel y) ^ 2 = 0 := by linarith
    have := pow_eq_zero_iff (two_ne_zero) |>.1 this
    unfold meanLabel at this
    linarith
  · rw [h, this]

/-- C206: the labels of the graphs in the batches do not matter. -/
theorem C206_ignored (sampled : RawGraph d) (nets : List (TopkNet d H)) (batches : List (RawGraph d)) (f : RawGraph d → List ℝ) :
    topkEpoch sampled nets (batches.map (fun b => { b with y := f b })) = topkEpoch sampled nets batches := by
  unfold topkEpoch
  rw [List.zip_map_right, List.map_map]
  rfl

/-- Two nodes with the same first feature, of which the pooling keeps one: the attention loss is below 0. -/
example : attnLoss (softOver (fun _ : Fin 2 => (0 : ℝ))) (softOver ![100, 0]) (keptNodes (softOver ![100, 0])) < 0 := by
  refine (C206_divergence _ _ (by norm_num)).2.2.1 (fun v hv => ?_)
  have he : (101 : ℝ) ≤ Real.exp 100 := by have := Real.add_one_le_exp (100 : ℝ); linarith
  have h0 : softOver (![100, 0] : Fin 2 → ℝ) 0 = Real.exp 100 / (Real.exp 100 + 1) := by simp [softOver]
  have h1 : softOver (![100, 0] : Fin 2 → ℝ) 1 = 1 / (Real.exp 100 + 1) := by simp [softOver]
  have ha : ∀ v, softOver (fun _ : Fin 2 => (0 : ℝ)) v = 1 / 2 := by intro v; norm_num [softOver]
  have hbig : (1 : ℝ) / 2 ≤ softOver (![100, 0] : Fin 2 → ℝ) 0 := by
    rw [h0, le_div_iff₀ (by linarith)]; linarith
  have hk := ((C205_few (![100, 0] : Fin 2 → ℝ)).1 0 (by linarith)).2 v
  rw [ha]
  have h5 := hk.1 hv
  match v with
  | 0 => exact hbig
  | 1 =>
    rw [h1, lt_div_iff₀ (by linarith)] at h5
    linarith

/-- Two nodes with equal features are both kept. -/
example : (keptNodes (softOver (fun _ : Fin 2 => (1 : ℝ)))).length = 2 := (C205_few _).2.2.2 (fun _ _ => rfl)

/-- An edge between kept nodes is renumbered. -/
example : keptEdges [(1 : Fin 4), 3] [(0, 1), (1, 3), (3, 3)] = [(0, 1), (1, 1)] := by decide

/-- The loss for two labels. -/
example : topkLoss [1, 3] 2 0 = 1 := by norm_num [topkLoss]

end NGC
