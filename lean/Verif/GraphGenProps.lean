import Verif.GraphGen
import Verif.GraphProps5
import Verif.PipelineProps2

/-!
C193: the generators of graphs of one builder, under every schedule.
-/

namespace NGC

open Spec

/-- The objects that are known from a world: everything is well numbered, and only the current list has entries. -/
structure GenInv (w : GenWorld) : Prop where
  cur : w.cur < w.lists.length
  rest : ∀ l, l ≠ w.cur → w.lists.getD l [] = []
  objs : ∀ k ∈ w.held, k < w.objs.length

theorem genGetD_set (l : List (List Nat)) (i j : Nat) (x : List Nat) (hi : i < l.length) :
    (l.set i x).getD j [] = if i = j then x else l.getD j [] := by
  rw [List.getD_eq_getElem?_getD, List.getD_eq_getElem?_getD, List.getElem?_set]
  split_ifs with h
  · simp
  · rfl

/-- After the lists were emptied no list has an entry. -/
theorem gen_cleared (w : GenWorld) (h : GenInv w) (l : Nat) : (w.lists.set w.cur [] ++ [[]]).getD l [] = [] := by
  rw [List.getD_eq_getElem?_getD, List.getElem?_append]
  split_ifs with hl
  · rw [List.length_set] at hl
    have := genGetD_set w.lists w.cur l [] h.cur
    rw [List.getD_eq_getElem?_getD] at this
    rw [this]
    split_ifs with he
    · rfl
    · exact h.rest l (fun e => he e.symm)
  · rcases hq : l - (w.lists.set w.cur []).length with _ | n
    · simp
    · simp

theorem gen_advance_none (w : GenWorld) (i lst pos : Nat) (skip : Bool) (h : w.lists.getD lst [] = []) :
    w.advance i lst pos skip = ({ w with gens := w.gens.set i .done }, .raised .stopIteration) := by
  unfold GenWorld.advance
  rw [h]
  simp

/-- Resuming a generator that waits at its `yield`. -/
theorem next_waiting (w : GenWorld) (h : GenInv w) (i lst pos : Nat) (skip : Bool) (hg : w.gens[i]? = some (.waiting lst pos skip)) :
    w.next i = ({ w with lists := w.lists.set w.cur [] ++ [[]], cur := w.lists.length, sub := [], gens := w.gens.set i .done },
      .raised .stopIteration) := by
  unfold GenWorld.next
  rw [hg]
  dsimp only
  rw [gen_advance_none _ _ _ _ _ (gen_cleared w h lst)]

/-- A first `next`, seen from outside. -/
theorem next_fresh (w : GenWorld) (h : GenInv w) (i : Nat) (skip : Bool) (hg : w.gens[i]? = some (.fresh skip)) :
    (∃ e, w.next i = ({ w with gens := w.gens.set i .done }, .raised e)) ∨
    ∃ k g g', w.held.head? = some k ∧ w.objs[k]? = some g ∧ labelGraph w.tables skip g = .ok g' ∧ w.tables.hashToNotes ≠ [] ∧
      w.next i = ({ w with objs := w.objs.set k g', gens := w.gens.set i (.waiting w.cur 1 skip) }, .gave k g') := by
  unfold GenWorld.next
  rw [hg]
  dsimp only
  split_ifs with h1 h2
  · exact .inl ⟨_, rfl⟩
  · exact .inl ⟨_, rfl⟩
  · unfold GenWorld.advance
    have hh : w.lists.getD w.cur [] = w.held := rfl
    rw [hh]
    cases hk : w.held with
    | nil => exact absurd hk h2
    | cons k ks =>
      have hlt := h.objs k (by rw [hk]; simp)
      obtain ⟨g, hg⟩ : ∃ g, w.objs[k]? = some g := ⟨_, List.getElem?_eq_getElem hlt⟩
      rw [List.getElem?_cons_zero]
      dsimp only
      rw [hg]
      dsimp only
      cases hl : labelGraph w.tables skip g with
      | error e => exact .inl ⟨e, rfl⟩
      | ok g' => exact .inr ⟨k, g, g', rfl, hg, hl, h1, rfl⟩

theorem genInv_gens (w : GenWorld) (h : GenInv w) (gs : List GenSt) : GenInv { w with gens := gs } := ⟨h.cur, h.rest, h.objs⟩

theorem genInv_cleared (w : GenWorld) (h : GenInv w) (gs : List GenSt) :
    GenInv { w with lists := w.lists.set w.cur [] ++ [[]], cur := w.lists.length, sub := [], gens := gs } := by
  refine ⟨?_, ?_, ?_⟩
  · simp
  · intro l _; exact gen_cleared w h l
  · intro k hk
    unfold GenWorld.held at hk
    rw [gen_cleared w h] at hk
    cases hk

theorem genInv_step (env : PyEnv) (w w' : GenWorld) (op : GenOp) (o : GenOut) (h : GenInv w) (hs : w.step env op = some (w', o)) : GenInv w' := by
  cases op with
  | build tracks bo p =>
    unfold GenWorld.step at hs
    dsimp only at hs
    cases hb : NGC.build env ⟨w.tables, [], w.sub⟩ tracks bo p with
    | error e => rw [hb] at hs; cases hs
    | ok b =>
      rw [hb] at hs
      cases hs
      refine ⟨?_, ?_, ?_⟩
      · simp only [List.length_set]; exact h.cur
      · intro l hl
        dsimp only at hl ⊢
        rw [genGetD_set _ _ _ _ h.cur, if_neg (fun e => hl e.symm)]
        exact h.rest l hl
      · intro k hk
        unfold GenWorld.held at hk
        dsimp only at hk ⊢
        rw [genGetD_set _ _ _ _ h.cur, if_pos rfl] at hk
        rw [List.length_append]
        rcases List.mem_append.1 hk with hk | hk
        · have := h.objs k hk; omega
        · rw [List.mem_range'_1] at hk; omega
  | start skip => cases hs; exact genInv_gens w h _
  | close i => cases hs; exact genInv_gens w h _
  | next i =>
    have hs' : w.next i = (w', o) := Option.some.inj hs
    cases hg : w.gens[i]? with
    | none =>
      unfold GenWorld.next at hs'
      rw [hg] at hs'
      cases hs'; exact h
    | some st =>
      cases st with
      | done =>
        unfold GenWorld.next at hs'
        rw [hg] at hs'
        cases hs'; exact h
      | waiting lst pos skip =>
        rw [next_waiting w h i lst pos skip hg] at hs'
        cases hs'
        exact genInv_cleared w h _
      | fresh skip =>
        rcases next_fresh w h i skip hg with ⟨e, he⟩ | ⟨k, g, g', _, _, _, _, he⟩
        · rw [he] at hs'; cases hs'; exact genInv_gens w h _
        · rw [he] at hs'; cases hs'
          refine ⟨h.cur, h.rest, ?_⟩
          intro k hk
          have := h.objs k hk
          simpa using this

theorem genInv_new : GenInv GenWorld.new := by
  refine ⟨by decide, ?_, ?_⟩
  · intro l hl
    cases l with
    | zero => exact absurd rfl hl
    | succ l => rfl
  · intro k hk; cases hk

/-- Splitting a history at one of its actions. -/
theorem gen_run_at (env : PyEnv) (ops : List GenOp) : ∀ (w w' : GenWorld) (outs : List GenOut) (p : Nat) (op : GenOp),
    w.run env ops = some (w', outs) → ops[p]? = some op →
    ∃ wp wq o, w.run env (ops.take p) = some (wp, outs.take p) ∧ wp.step env op = some (wq, o) ∧ outs[p]? = some o ∧
      wq.run env (ops.drop (p + 1)) = some (w', outs.drop (p + 1)) := by
  induction ops with
  | nil => intro w w' outs p op _ h; simp at h
  | cons a ops ih =>
    intro w w' outs p op hr hp
    rw [GenWorld.run] at hr
    cases hs : w.step env a with
    | none => rw [hs] at hr; cases hr
    | some r =>
      obtain ⟨w1, o1⟩ := r
      rw [hs] at hr
      dsimp only at hr
      cases hr2 : w1.run env ops with
      | none => rw [hr2] at hr; cases hr
      | some r2 =>
        obtain ⟨w2, os⟩ := r2
        rw [hr2] at hr
        obtain ⟨rfl, rfl⟩ : w2 = w' ∧ o1 :: os = outs := by cases hr; exact ⟨rfl, rfl⟩
        cases p with
        | zero =>
          rw [List.getElem?_cons_zero] at hp
          cases hp
          exact ⟨w, w1, o1, rfl, hs, rfl, hr2⟩
        | succ p =>
          rw [List.getElem?_cons_succ] at hp
          obtain ⟨wp, wq, o, h1, h2, h3, h4⟩ := ih w1 w2 os p op hr2 hp
          refine ⟨wp, wq, o, ?_, h2, h3, h4⟩
          rw [List.take_succ_cons, GenWorld.run, hs]
          dsimp only
          rw [h1]
          rfl

theorem gen_run_append (env : PyEnv) (a b : List GenOp) : ∀ (w w1 w2 : GenWorld) (o1 o2 : List GenOut),
    w.run env a = some (w1, o1) → w1.run env b = some (w2, o2) → w.run env (a ++ b) = some (w2, o1 ++ o2) := by
  induction a with
  | nil => intro w w1 w2 o1 o2 h1 h2; cases h1; exact h2
  | cons x a ih =>
    intro w w1 w2 o1 o2 h1 h2
    rw [GenWorld.run] at h1
    cases hs : w.step env x with
    | none => rw [hs] at h1; cases h1
    | some r =>
      obtain ⟨w', o⟩ := r
      rw [hs] at h1
      dsimp only at h1
      cases hr : w'.run env a with
      | none => rw [hr] at h1; cases h1
      | some r2 =>
        obtain ⟨w'', os⟩ := r2
        rw [hr] at h1
        cases h1
        rw [List.cons_append, GenWorld.run, hs]
        dsimp only
        rw [ih w' w1 w2 os o2 hr h2]
        rfl

/-- An invariant of single actions is one of histories. -/
theorem gen_run_inv (env : PyEnv) (P : GenWorld → Prop) (ops : List GenOp) (hstep : ∀ w w' op o, op ∈ ops → P w → w.step env op = some (w', o) → P w') :
    ∀ (w w' : GenWorld) (outs : List GenOut), P w → w.run env ops = some (w', outs) → P w' := by
  induction ops with
  | nil => intro w w' outs h hr; cases hr; exact h
  | cons a ops ih =>
    intro w w' outs h hr
    rw [GenWorld.run] at hr
    cases hs : w.step env a with
    | none => rw [hs] at hr; cases hr
    | some r =>
      obtain ⟨w1, o1⟩ := r
      rw [hs] at hr
      dsimp only at hr
      cases hr2 : w1.run env ops with
      | none => rw [hr2] at hr; cases hr
      | some r2 =>
        obtain ⟨w2, os⟩ := r2
        rw [hr2] at hr
        obtain ⟨rfl, rfl⟩ : w2 = w' ∧ o1 :: os = outs := by cases hr; exact ⟨rfl, rfl⟩
        exact ih (fun w w' op o hm => hstep w w' op o (List.mem_cons_of_mem _ hm)) w1 w2 os (hstep w w1 a o1 List.mem_cons_self h hs) hr2

theorem genInv_run (env : PyEnv) (ops : List GenOp) (w w' : GenWorld) (outs : List GenOut) (h : GenInv w) (hr : w.run env ops = some (w', outs)) :
    GenInv w' :=
  gen_run_inv env GenInv ops (fun w w' op o _ hi hs => genInv_step env w w' op o hi hs) w w' outs h hr

/-- The generator has been advanced to its `yield` or is finished. -/
def Spent (i : Nat) (w : GenWorld) : Prop := w.gens[i]? = some .done ∨ ∃ l p s, w.gens[i]? = some (.waiting l p s)

theorem gen_spent_set (w : GenWorld) (i j : Nat) (st : GenSt) (hst : ∀ s, st ≠ .fresh s) (gs : List GenSt) (hgs : gs = w.gens.set j st) (w' : GenWorld)
    (hw : w'.gens = gs) (h : Spent i w) : Spent i w' := by
  unfold Spent
  rw [hw, hgs, List.getElem?_set]
  have hi : i < w.gens.length := by
    rcases h with h | ⟨_, _, _, h⟩ <;> exact (List.getElem?_eq_some_iff.1 h).1
  split_ifs with e
  · subst e
    cases st with
    | fresh s => exact absurd rfl (hst s)
    | done => exact .inl rfl
    | waiting l p s => exact .inr ⟨l, p, s, rfl⟩
  · subst e; exact absurd hi ‹_›
  · exact h

theorem spent_step (env : PyEnv) (i : Nat) (w w' : GenWorld) (op : GenOp) (o : GenOut) (hi : GenInv w) (h : Spent i w)
    (hs : w.step env op = some (w', o)) : Spent i w' := by
  cases op with
  | build tracks bo p =>
    unfold GenWorld.step at hs
    dsimp only at hs
    cases hb : NGC.build env ⟨w.tables, [], w.sub⟩ tracks bo p with
    | error e => rw [hb] at hs; cases hs
    | ok b => rw [hb] at hs; cases hs; exact h
  | start skip =>
    cases hs
    unfold Spent
    dsimp only
    have hlt : i < w.gens.length := by
      rcases h with h | ⟨_, _, _, h⟩ <;> exact (List.getElem?_eq_some_iff.1 h).1
    rw [List.getElem?_append_left hlt]
    exact h
  | close j => cases hs; exact gen_spent_set w i j .done (by intro s; simp) _ rfl _ rfl h
  | next j =>
    have hs' : w.next j = (w', o) := Option.some.inj hs
    cases hg : w.gens[j]? with
    | none =>
      unfold GenWorld.next at hs'
      rw [hg] at hs'
      cases hs'; exact h
    | some st =>
      cases st with
      | done =>
        unfold GenWorld.next at hs'
        rw [hg] at hs'
        cases hs'; exact h
      | waiting lst pos skip =>
        rw [next_waiting w hi j lst pos skip hg] at hs'
        cases hs'
        exact gen_spent_set w i j .done (by intro s; simp) _ rfl _ rfl h
      | fresh skip =>
        rcases next_fresh w hi j skip hg with ⟨e, he⟩ | ⟨k, g, g', _, _, _, _, he⟩
        · rw [he] at hs'; cases hs'; exact gen_spent_set w i j .done (by intro s; simp) _ rfl _ rfl h
        · rw [he] at hs'; cases hs'; exact gen_spent_set w i j (.waiting w.cur 1 skip) (by intro s; simp) _ rfl _ rfl h

/-- A graph comes only from a generator that is advanced for the first time; it is the first graph held, and everything held stays. -/
theorem step_gave (env : PyEnv) (w w' : GenWorld) (op : GenOp) (k : Nat) (v : PygData) (hi : GenInv w)
    (hs : w.step env op = some (w', .gave k v)) :
    ∃ i skip g, op = .next i ∧ w.gens[i]? = some (.fresh skip) ∧ w.held.head? = some k ∧ w.objs[k]? = some g ∧
      labelGraph w.tables skip g = .ok v ∧ w'.held = w.held ∧ w'.objs = w.objs.set k v ∧ w'.tables = w.tables ∧ w'.sub = w.sub ∧
      w'.gens[i]? = some (.waiting w.cur 1 skip) := by
  cases op with
  | build tracks bo p =>
    unfold GenWorld.step at hs
    dsimp only at hs
    cases hb : NGC.build env ⟨w.tables, [], w.sub⟩ tracks bo p with
    | error e => rw [hb] at hs; cases hs
    | ok b => rw [hb] at hs; cases hs
  | start skip => cases hs
  | close i => cases hs
  | next i =>
    have hs' : w.next i = (w', .gave k v) := Option.some.inj hs
    cases hg : w.gens[i]? with
    | none =>
      unfold GenWorld.next at hs'
      rw [hg] at hs'
      cases hs'
    | some st =>
      cases st with
      | done =>
        unfold GenWorld.next at hs'
        rw [hg] at hs'
        cases hs'
      | waiting lst pos skip => rw [next_waiting w hi i lst pos skip hg] at hs'; cases hs'
      | fresh skip =>
        rcases next_fresh w hi i skip hg with ⟨e, he⟩ | ⟨k', g, g', h1, h2, h3, _, he⟩
        · rw [he] at hs'; cases hs'
        · rw [he] at hs'; cases hs'
          refine ⟨i, skip, g, rfl, hg, h1, h2, h3, rfl, rfl, rfl, rfl, ?_⟩
          dsimp only
          rw [List.getElem?_set_self (List.getElem?_eq_some_iff.1 hg).1]

theorem next_spent (w : GenWorld) (hi : GenInv w) (i : Nat) (h : Spent i w) : (w.next i).2 = .raised .stopIteration := by
  rcases h with h | ⟨l, p, s, h⟩
  · unfold GenWorld.next; rw [h]
  · rw [next_waiting w hi i l p s h]

/-- **C193, one graph for each generator.** In every history of builds and generators of one builder, once a generator has handed out a graph,
every further `next` on it raises StopIteration, whatever was built in between. -/
theorem C193_at_most_one (env : PyEnv) (ops : List GenOp) (w : GenWorld) (outs : List GenOut) (hr : GenWorld.new.run env ops = some (w, outs))
    (i p q k : Nat) (v : PygData) (hpq : p < q) (hp : ops[p]? = some (.next i)) (hgave : outs[p]? = some (.gave k v))
    (hq : ops[q]? = some (.next i)) : outs[q]? = some (.raised .stopIteration) := by
  obtain ⟨wp, wq, o, h1, h2, h3, h4⟩ := gen_run_at env ops _ _ _ p _ hr hp
  rw [hgave] at h3
  cases h3
  have i1 := genInv_run env _ _ _ _ genInv_new h1
  have i2 := genInv_step env _ _ _ _ i1 h2
  obtain ⟨i', skip, g, e, _, _, _, _, _, _, _, _, hw⟩ := step_gave env wp wq _ k v i1 h2
  cases e
  have hsp : Spent i wq := .inr ⟨_, _, _, hw⟩
  have hq' : (ops.drop (p + 1))[q - (p + 1)]? = some (.next i) := by
    rw [List.getElem?_drop]
    rwa [show p + 1 + (q - (p + 1)) = q by omega]
  obtain ⟨wr, ws, o', g1, g2, g3, g4⟩ := gen_run_at env _ _ _ _ (q - (p + 1)) _ h4 hq'
  have both : GenInv wr ∧ Spent i wr := gen_run_inv env (fun w => GenInv w ∧ Spent i w) _
    (fun w w' op o _ hh hs => ⟨genInv_step env w w' op o hh.1 hs, spent_step env i w w' op o hh.1 hh.2 hs⟩) wq wr _ ⟨i2, hsp⟩ g1
  have hn := next_spent wr both.1 i both.2
  have : wr.next i = (ws, o') := Option.some.inj g2
  rw [this] at hn
  dsimp only at hn
  rw [List.getElem?_drop, show p + 1 + (q - (p + 1)) = q by omega, hn] at g3
  exact g3

/-- **C193, which graph.** Whenever a generator hands out a graph, it is the first of those the builder holds at that time, labelled by the tables of
that time; the builder goes on holding it and all others, and the object held now carries exactly what was handed out. -/
theorem C193_first_held (env : PyEnv) (ops : List GenOp) (op : GenOp) (w w' : GenWorld) (outs : List GenOut)
    (hr : GenWorld.new.run env ops = some (w, outs)) (k : Nat) (v : PygData) (hs : w.step env op = some (w', .gave k v)) :
    w.held.head? = some k ∧ (∃ g skip, w.objs[k]? = some g ∧ labelGraph w.tables skip g = .ok v) ∧ w'.held = w.held ∧ w'.objs[k]? = some v ∧
      ∀ j, j ≠ k → w'.objs[j]? = w.objs[j]? := by
  have hi := genInv_run env _ _ _ _ genInv_new hr
  obtain ⟨i, skip, g, _, _, h1, h2, h3, h4, h5, _, _, _⟩ := step_gave env w w' op k v hi hs
  refine ⟨h1, ⟨g, skip, h2, h3⟩, h4, ?_, ?_⟩
  · rw [h5, List.getElem?_set_self (List.getElem?_eq_some_iff.1 h2).1]
  · intro j hj; rw [h5, List.getElem?_set_ne (fun e => hj e.symm)]

/-- The generator waits at its `yield` as long as nobody advances or closes it. -/
theorem gen_waiting_step (env : PyEnv) (i l p : Nat) (s : Bool) (w w' : GenWorld) (op : GenOp) (o : GenOut) (hi : GenInv w)
    (hn : op ≠ .next i) (hc : op ≠ .close i) (h : w.gens[i]? = some (.waiting l p s)) (hs : w.step env op = some (w', o)) :
    w'.gens[i]? = some (.waiting l p s) := by
  have hlt : i < w.gens.length := (List.getElem?_eq_some_iff.1 h).1
  cases op with
  | build tracks bo p =>
    unfold GenWorld.step at hs
    dsimp only at hs
    cases hb : NGC.build env ⟨w.tables, [], w.sub⟩ tracks bo p with
    | error e => rw [hb] at hs; cases hs
    | ok b => rw [hb] at hs; cases hs; exact h
  | start skip => cases hs; dsimp only; rw [List.getElem?_append_left hlt]; exact h
  | close j =>
    cases hs
    dsimp only
    rw [List.getElem?_set_ne (fun e => hc (by rw [e]))]; exact h
  | next j =>
    have hj : j ≠ i := fun e => hn (by rw [e])
    have hs' : w.next j = (w', o) := Option.some.inj hs
    cases hg : w.gens[j]? with
    | none =>
      unfold GenWorld.next at hs'
      rw [hg] at hs'
      cases hs'; exact h
    | some st =>
      cases st with
      | done =>
        unfold GenWorld.next at hs'
        rw [hg] at hs'
        cases hs'; exact h
      | waiting lst pos skip =>
        rw [next_waiting w hi j lst pos skip hg] at hs'
        cases hs'
        dsimp only
        rw [List.getElem?_set_ne hj]; exact h
      | fresh skip =>
        rcases next_fresh w hi j skip hg with ⟨e, he⟩ | ⟨k, g, g', _, _, _, _, he⟩
        · rw [he] at hs'; cases hs'; dsimp only; rw [List.getElem?_set_ne hj]; exact h
        · rw [he] at hs'; cases hs'; dsimp only; rw [List.getElem?_set_ne hj]; exact h

/-- **C193, what resuming does (defect).** A generator that handed out a graph and is then advanced again, after whatever else was done except closing
or advancing it: StopIteration, and the builder has lost all its graphs and sub graphs, those built since included. -/
theorem C193_resuming_drops (env : PyEnv) (pre mid : List GenOp) (i k : Nat) (v : PygData) (w : GenWorld) (o1 o2 : List GenOut)
    (hlen : o1.length = pre.length) (hr : GenWorld.new.run env (pre ++ .next i :: mid) = some (w, o1 ++ .gave k v :: o2))
    (hmid : ∀ op ∈ mid, op ≠ .next i ∧ op ≠ .close i) :
    ∃ w', w.step env (.next i) = some (w', .raised .stopIteration) ∧ w'.held = [] ∧ w'.sub = [] ∧ w'.tables = w.tables ∧ w'.objs = w.objs := by
  obtain ⟨wp, wq, o, h1, h2, h3, h4⟩ := gen_run_at env _ _ _ _ pre.length (.next i) hr (by simp)
  have ho : o = .gave k v := by
    rw [← hlen] at h3
    simpa using h3.symm
  subst ho
  have i1 := genInv_run env _ _ _ _ genInv_new h1
  have i2 := genInv_step env _ _ _ _ i1 h2
  obtain ⟨i', skip, g, e, _, _, _, _, _, _, _, _, hw⟩ := step_gave env wp wq _ k v i1 h2
  cases e
  have hdrop : (pre ++ GenOp.next i :: mid).drop (pre.length + 1) = mid := by simp
  rw [hdrop] at h4
  have both : GenInv w ∧ w.gens[i]? = some (.waiting wp.cur 1 skip) := gen_run_inv env (fun w => GenInv w ∧ w.gens[i]? = some (.waiting wp.cur 1 skip)) mid
    (fun w w' op o hm hh hs => ⟨genInv_step env w w' op o hh.1 hs, gen_waiting_step env i _ _ _ w w' op o hh.1 (hmid op hm).1 (hmid op hm).2 hh.2 hs⟩)
    wq w _ ⟨i2, hw⟩ h4
  have hn := next_waiting w both.1 i _ _ _ both.2
  refine ⟨_, congrArg some hn, ?_, rfl, rfl, rfl⟩
  exact gen_cleared w both.1 _

/-- Every list entry has been built, in order, and the first list is still the current one. -/
structure Untouched (w : GenWorld) : Prop where
  cur : w.cur = 0
  lists : w.lists = [List.range w.objs.length]

/-- A generator that was never advanced or is closed; only such a state keeps the lists. -/
theorem untouched_step (env : PyEnv) (w w' : GenWorld) (op : GenOp) (o : GenOut) (h : Untouched w)
    (hfresh : ∀ i, op = .next i → ∀ l p s, w.gens[i]? ≠ some (.waiting l p s)) (hs : w.step env op = some (w', o)) : Untouched w' := by
  obtain ⟨hc, hl⟩ := h
  have hheld : w.held = List.range w.objs.length := by unfold GenWorld.held; rw [hc, hl]; rfl
  have hi : GenInv w := by
    refine ⟨by rw [hc, hl]; simp, ?_, ?_⟩
    · intro l hne
      rw [hc] at hne
      rw [hl]
      cases l with
      | zero => exact absurd rfl hne
      | succ l => rfl
    · intro k hk; rw [hheld] at hk; exact List.mem_range.1 hk
  cases op with
  | build tracks bo p =>
    unfold GenWorld.step at hs
    dsimp only at hs
    cases hb : NGC.build env ⟨w.tables, [], w.sub⟩ tracks bo p with
    | error e => rw [hb] at hs; cases hs
    | ok b =>
      rw [hb] at hs; cases hs
      refine ⟨hc, ?_⟩
      dsimp only
      rw [hheld, hc, hl, List.set_cons_zero, List.length_append, List.range_add, List.range'_eq_map_range]
  | start skip => cases hs; exact ⟨hc, hl⟩
  | close j => cases hs; exact ⟨hc, hl⟩
  | next j =>
    have hs' : w.next j = (w', o) := Option.some.inj hs
    cases hg : w.gens[j]? with
    | none =>
      unfold GenWorld.next at hs'
      rw [hg] at hs'
      cases hs'; exact ⟨hc, hl⟩
    | some st =>
      cases st with
      | done =>
        unfold GenWorld.next at hs'
        rw [hg] at hs'
        cases hs'; exact ⟨hc, hl⟩
      | waiting lst pos skip => exact absurd hg (hfresh j rfl lst pos skip)
      | fresh skip =>
        rcases next_fresh w hi j skip hg with ⟨e, he⟩ | ⟨k, g, g', _, _, _, _, he⟩
        · rw [he] at hs'; cases hs'; exact ⟨hc, hl⟩
        · rw [he] at hs'; cases hs'
          refine ⟨hc, ?_⟩
          dsimp only
          rw [List.length_set]; exact hl

namespace Spec

/-- The generators that a history advances, in order. -/
def advances : List GenOp → List Nat
  | [] => []
  | .next i :: ops => i :: advances ops
  | _ :: ops => advances ops

end Spec

theorem untouched_run (env : PyEnv) (ops : List GenOp) : ∀ (w w' : GenWorld) (outs : List GenOut), Untouched w →
    (advances ops).Nodup → (∀ i ∈ advances ops, ∀ l p s, w.gens[i]? ≠ some (.waiting l p s)) → w.run env ops = some (w', outs) →
    Untouched w' ∧ ∀ k v, GenOut.gave k v ∈ outs → k = 0 := by
  induction ops with
  | nil => intro w w' outs h _ _ hr; cases hr; exact ⟨h, by intro k v hm; cases hm⟩
  | cons a ops ih =>
    intro w w' outs h hnd hw hr
    rw [GenWorld.run] at hr
    cases hs : w.step env a with
    | none => rw [hs] at hr; cases hr
    | some r =>
      obtain ⟨w1, o1⟩ := r
      rw [hs] at hr
      dsimp only at hr
      cases hr2 : w1.run env ops with
      | none => rw [hr2] at hr; cases hr
      | some r2 =>
        obtain ⟨w2, os⟩ := r2
        rw [hr2] at hr
        obtain ⟨rfl, rfl⟩ : w2 = w' ∧ o1 :: os = outs := by cases hr; exact ⟨rfl, rfl⟩
        obtain ⟨hc, hl⟩ := h
        have hheld : w.held = List.range w.objs.length := by unfold GenWorld.held; rw [hc, hl]; rfl
        have hi : GenInv w := by
          refine ⟨by rw [hc, hl]; simp, ?_, ?_⟩
          · intro l hne
            rw [hc] at hne
            rw [hl]
            cases l with
            | zero => exact absurd rfl hne
            | succ l => rfl
          · intro k hk; rw [hheld] at hk; exact List.mem_range.1 hk
        have hnd' : (advances ops).Nodup := by
          cases a <;> first | exact hnd | exact (List.nodup_cons.1 hnd).2
        have hsub : ∀ i ∈ advances ops, i ∈ advances (a :: ops) := by
          intro i hm
          cases a <;> first | exact hm | exact List.mem_cons_of_mem _ hm
        have hu := untouched_step env w w1 a o1 ⟨hc, hl⟩ (by
          intro i e l p s
          subst e
          exact hw i (by rw [advances]; exact List.mem_cons_self) l p s) hs
        have hw1 : ∀ i ∈ advances ops, ∀ l p s, w1.gens[i]? ≠ some (.waiting l p s) := by
          intro i hm l p s hwait
          -- the generator was not waiting before and `a` does not advance it
          have hai : a ≠ .next i := by
            rintro rfl
            exact (List.nodup_cons.1 hnd).1 hm
          have hold := hw i (hsub i hm)
          cases a with
          | build tracks bo p =>
            unfold GenWorld.step at hs
            dsimp only at hs
            cases hb : NGC.build env ⟨w.tables, [], w.sub⟩ tracks bo p with
            | error e => rw [hb] at hs; cases hs
            | ok b => rw [hb] at hs; cases hs; exact hold l _ s hwait
          | start skip =>
            cases hs
            dsimp only at hwait
            rw [List.getElem?_append] at hwait
            split_ifs at hwait with hlt
            · exact hold l p s hwait
            · rcases hq : i - w.gens.length with _ | n
              · rw [hq] at hwait; cases hwait
              · rw [hq] at hwait; cases hwait
          | close j =>
            cases hs
            dsimp only at hwait
            rw [List.getElem?_set] at hwait
            split_ifs at hwait
            · cases hwait
            · exact hold l p s hwait
          | next j =>
            have hj : j ≠ i := fun e => hai (by rw [e])
            have hs' : w.next j = (w1, o1) := Option.some.inj hs
            cases hg : w.gens[j]? with
            | none =>
              unfold GenWorld.next at hs'
              rw [hg] at hs'
              cases hs'; exact hold l p s hwait
            | some st =>
              cases st with
              | done =>
                unfold GenWorld.next at hs'
                rw [hg] at hs'
                cases hs'; exact hold l p s hwait
              | waiting lst pos skip => exact hw j (by rw [advances]; exact List.mem_cons_self) lst pos skip hg
              | fresh skip =>
                rcases next_fresh w hi j skip hg with ⟨e, he⟩ | ⟨k, g, g', _, _, _, _, he⟩
                · rw [he] at hs'; cases hs'; dsimp only at hwait; rw [List.getElem?_set_ne hj] at hwait; exact hold l p s hwait
                · rw [he] at hs'; cases hs'; dsimp only at hwait; rw [List.getElem?_set_ne hj] at hwait; exact hold l p s hwait
        obtain ⟨r1, r2⟩ := ih w1 w2 os hu hnd' hw1 hr2
        refine ⟨r1, ?_⟩
        intro k v hm
        rcases List.mem_cons.1 hm with e | hm
        · rw [← e] at hs
          obtain ⟨i, skip, g, _, _, h1, _⟩ := step_gave env w w1 a k v hi hs
          rw [hheld] at h1
          cases hn : w.objs.length with
          | zero => rw [hn] at h1; cases h1
          | succ n =>
            rw [hn, List.range_succ_eq_map] at h1
            cases h1; rfl
        · exact r2 k v hm

/-- **C193, always the same graph (defect).** As long as no generator is advanced twice (`next(builder.graphs())`, loops left by `break`), every graph
ever handed out is the one that was built first, however many were built; and all are still held. -/
theorem C193_same_graph (env : PyEnv) (ops : List GenOp) (w : GenWorld) (outs : List GenOut) (hr : GenWorld.new.run env ops = some (w, outs))
    (hnd : (advances ops).Nodup) : (∀ k v, GenOut.gave k v ∈ outs → k = 0) ∧ w.held = List.range w.objs.length := by
  have h0 : Untouched GenWorld.new := ⟨rfl, rfl⟩
  obtain ⟨⟨hc, hl⟩, h2⟩ := untouched_run env ops _ _ _ h0 hnd (by intro i _ l p s h; cases h) hr
  refine ⟨h2, ?_⟩
  unfold GenWorld.held
  rw [hc, hl]
  rfl

/-- What is known of a graph object with respect to an earlier look at it: only labels were written. -/
def SameGraph (a b : PygData) : Prop := b.nodeHash = a.nodeHash ∧ b.attrs = a.attrs ∧ b.edgeIndex = a.edgeIndex ∧ b.weight = a.weight

theorem labelGraph_ok (t : Tables) (skip : Bool) (g v : PygData) (h : labelGraph t skip g = .ok v) :
    ∃ idx, v = { g with label := if skip then none else some idx, y := some idx } ∧
      List.Forall₂ (fun x i => dget t.hashToIndex x = some i) g.nodeHash idx := by
  have hl : labelGraph t skip g = Except.bind (g.nodeHash.mapM (fun h => match dget t.hashToIndex h with
      | some i => (Except.ok i : Py Nat)
      | none => .error .key)) (fun idx => .ok { g with label := if skip then none else some idx, y := some idx }) := by
    unfold labelGraph
    rfl
  rw [hl] at h
  cases hm : g.nodeHash.mapM (fun h => match dget t.hashToIndex h with
      | some i => (Except.ok i : Py Nat)
      | none => .error .key) with
  | error e => rw [hm] at h; cases h
  | ok idx =>
    rw [hm] at h
    refine ⟨idx, (Except.ok.inj h).symm, ?_⟩
    clear h hl
    generalize g.nodeHash = l at hm ⊢
    induction l generalizing idx with
    | nil => cases hm; exact List.Forall₂.nil
    | cons a l ih =>
      rw [List.mapM_cons] at hm
      cases ha : dget t.hashToIndex a with
      | none => rw [ha] at hm; cases hm
      | some i =>
        rw [ha] at hm
        cases hr : l.mapM (fun h => match dget t.hashToIndex h with
          | some i => (Except.ok i : Py Nat)
          | none => .error .key) with
        | error e => rw [hr] at hm; cases hm
        | ok r =>
          rw [hr] at hm
          cases hm
          exact List.Forall₂.cons ha (ih r hr)

/-- Indices are never taken back by a step. -/
theorem genTables_step (env : PyEnv) (w w' : GenWorld) (op : GenOp) (o : GenOut) (hi : GenInv w) (ht : TInv env w.tables)
    (hs : w.step env op = some (w', o)) :
    TInv env w'.tables ∧ (∀ h i, dget w.tables.hashToIndex h = some i → dget w'.tables.hashToIndex h = some i) ∧
      ∀ (k : Nat) (g : PygData), w.objs[k]? = some g → ∃ g', w'.objs[k]? = some g' ∧ SameGraph g g' := by
  have idle : TInv env w.tables ∧ (∀ h i, dget w.tables.hashToIndex h = some i → dget w.tables.hashToIndex h = some i) ∧
      ∀ (k : Nat) (g : PygData), w.objs[k]? = some g → ∃ g', w.objs[k]? = some g' ∧ SameGraph g g' :=
    ⟨ht, fun _ _ h => h, fun k g h => ⟨g, h, rfl, rfl, rfl, rfl⟩⟩
  cases op with
  | build tracks bo p =>
    unfold GenWorld.step at hs
    dsimp only at hs
    cases hb : NGC.build env ⟨w.tables, [], w.sub⟩ tracks bo p with
    | error e => rw [hb] at hs; cases hs
    | ok b =>
      rw [hb] at hs; cases hs
      have hreg := build_registers env bo p _ b tracks hb
      dsimp only at hreg ⊢
      rw [hreg]
      obtain ⟨a1, a2, _⟩ := tinv_fold env (tracks.flatMap (usedSets env bo)) w.tables ht
      refine ⟨a1, a2, ?_⟩
      intro k g hk
      refine ⟨g, ?_, rfl, rfl, rfl, rfl⟩
      rw [List.getElem?_append_left (List.getElem?_eq_some_iff.1 hk).1]; exact hk
  | start skip => cases hs; exact idle
  | close j => cases hs; exact idle
  | next j =>
    have hs' : w.next j = (w', o) := Option.some.inj hs
    cases hg : w.gens[j]? with
    | none =>
      unfold GenWorld.next at hs'
      rw [hg] at hs'
      cases hs'; exact idle
    | some st =>
      cases st with
      | done =>
        unfold GenWorld.next at hs'
        rw [hg] at hs'
        cases hs'; exact idle
      | waiting lst pos skip => rw [next_waiting w hi j lst pos skip hg] at hs'; cases hs'; exact idle
      | fresh skip =>
        rcases next_fresh w hi j skip hg with ⟨e, he⟩ | ⟨k, g, g', _, hk, hl, _, he⟩
        · rw [he] at hs'; cases hs'; exact idle
        · rw [he] at hs'; cases hs'
          refine ⟨ht, fun _ _ h => h, ?_⟩
          intro k2 g2 hk2
          dsimp only
          by_cases e : k = k2
          · subst e
            rw [hk] at hk2; cases hk2
            obtain ⟨idx, rfl, _⟩ := labelGraph_ok _ _ _ _ hl
            exact ⟨_, List.getElem?_set_self (List.getElem?_eq_some_iff.1 hk).1, rfl, rfl, rfl, rfl⟩
          · exact ⟨g2, by rw [List.getElem?_set_ne e]; exact hk2, rfl, rfl, rfl, rfl⟩

/-- **C193, labels do not depend on the time.** If a graph is handed out twice, by whichever generators and with whatever builds in between, it is the
same graph with the same targets `y`; only `label` may be present or missing. -/
theorem C193_same_labels (env : PyEnv) (ops : List GenOp) (w : GenWorld) (outs : List GenOut) (hr : GenWorld.new.run env ops = some (w, outs))
    (p q k : Nat) (v v' : PygData) (hpq : p < q) (hp : outs[p]? = some (.gave k v)) (hq : outs[q]? = some (.gave k v')) :
    { v' with label := v.label } = v ∧ (v.label = none ∨ v.label = v.y) := by
  have outlen : ∀ (ops : List GenOp) (w w' : GenWorld) (outs : List GenOut), w.run env ops = some (w', outs) → outs.length = ops.length := by
    intro ops
    induction ops with
    | nil => intro w w' outs h; cases h; rfl
    | cons a ops ih =>
      intro w w' outs h
      rw [GenWorld.run] at h
      cases hs : w.step env a with
      | none => rw [hs] at h; cases h
      | some r =>
        rw [hs] at h
        dsimp only at h
        cases hr2 : r.1.run env ops with
        | none => rw [hr2] at h; cases h
        | some r2 =>
          rw [hr2] at h
          cases h
          simp [ih _ _ _ hr2]
  have hlen := outlen ops _ _ _ hr
  have hp' : p < ops.length := by rw [← hlen]; exact (List.getElem?_eq_some_iff.1 hp).1
  have hq' : q < ops.length := by rw [← hlen]; exact (List.getElem?_eq_some_iff.1 hq).1
  obtain ⟨wp, wq, o, h1, h2, h3, h4⟩ := gen_run_at env ops _ _ _ p ops[p] hr (List.getElem?_eq_getElem hp')
  rw [hp] at h3
  cases h3
  have hT : ∀ (w : GenWorld) (ops : List GenOp) (w' : GenWorld) (outs : List GenOut), GenInv w ∧ TInv env w.tables →
      w.run env ops = some (w', outs) → GenInv w' ∧ TInv env w'.tables := by
    intro w ops w' outs h hr
    exact gen_run_inv env (fun w => GenInv w ∧ TInv env w.tables) ops
      (fun w w' op o _ hh hs => ⟨genInv_step env w w' op o hh.1 hs, (genTables_step env w w' op o hh.1 hh.2 hs).1⟩) w w' outs h hr
  obtain ⟨i1, t1⟩ := hT _ _ _ _ ⟨genInv_new, tinv_empty env⟩ h1
  have i2 := genInv_step env _ _ _ _ i1 h2
  obtain ⟨t2, _, _⟩ := genTables_step env _ _ _ _ i1 t1 h2
  obtain ⟨i, skip, g, _, _, _, a2, a3, _, a5, a6, _, _⟩ := step_gave env wp wq _ k v i1 h2
  obtain ⟨idx, hv, hidx⟩ := labelGraph_ok _ _ _ _ a3
  have hwq : wq.objs[k]? = some v := by rw [a5, List.getElem?_set_self (List.getElem?_eq_some_iff.1 a2).1]
  have hd : (ops.drop (p + 1))[q - (p + 1)]? = some ops[q] := by
    rw [List.getElem?_drop, show p + 1 + (q - (p + 1)) = q by omega]; exact List.getElem?_eq_getElem hq'
  obtain ⟨wr, ws, o', g1, g2, g3, g4⟩ := gen_run_at env _ _ _ _ (q - (p + 1)) _ h4 hd
  rw [List.getElem?_drop, show p + 1 + (q - (p + 1)) = q by omega, hq] at g3
  cases g3
  -- what holds until then
  have keep : GenInv wr ∧ TInv env wr.tables ∧ (∀ h i, dget wq.tables.hashToIndex h = some i → dget wr.tables.hashToIndex h = some i) ∧
      ∃ u, wr.objs[k]? = some u ∧ SameGraph v u :=
    gen_run_inv env (fun w => GenInv w ∧ TInv env w.tables ∧ (∀ h i, dget wq.tables.hashToIndex h = some i → dget w.tables.hashToIndex h = some i) ∧
        ∃ u, w.objs[k]? = some u ∧ SameGraph v u) _ (by
      rintro w w' op o _ ⟨c1, c2, c3, u, c4, c5⟩ hs
      obtain ⟨b1, b2, b3⟩ := genTables_step env w w' op o c1 c2 hs
      obtain ⟨u', d1, d2⟩ := b3 k u c4
      refine ⟨genInv_step env w w' op o c1 hs, b1, fun h i hh => b2 h i (c3 h i hh), u', d1, ?_⟩
      obtain ⟨e1, e2, e3, e4⟩ := c5
      obtain ⟨f1, f2, f3, f4⟩ := d2
      exact ⟨f1.trans e1, f2.trans e2, f3.trans e3, f4.trans e4⟩) wq wr _ ⟨i2, t2, fun _ _ h => h, v, hwq, rfl, rfl, rfl, rfl⟩ g1
  obtain ⟨j1, j2, j3, u, j4, j5⟩ := keep
  obtain ⟨i', skip', g', _, _, _, b2, b3, _⟩ := step_gave env wr ws _ k v' j1 g2
  rw [j4] at b2; cases b2
  obtain ⟨idx', hv', hidx'⟩ := labelGraph_ok _ _ _ _ b3
  obtain ⟨e1, e2, e3, e4⟩ := j5
  rw [e1] at hidx'
  have hnh : v.nodeHash = g.nodeHash := by rw [hv]
  rw [hnh] at hidx'
  have heq : idx' = idx := by
    clear hv hv' b3 a3
    revert hidx' hidx
    generalize g.nodeHash = l
    intro hidx hidx'
    induction hidx generalizing idx' with
    | nil => cases hidx'; rfl
    | cons ha _ ih =>
      cases hidx' with
      | cons hb hrest =>
        have := j3 _ _ (by rw [a6]; exact ha)
        rw [this] at hb
        cases hb
        rw [ih _ hrest]
  subst heq
  constructor
  · rw [hv', hv] 
    obtain ⟨gn, ga, ge, gw, gl, gy⟩ := g
    obtain ⟨un, ua, ue, uw, ul, uy⟩ := u
    rw [hv] at e1 e2 e3 e4
    dsimp only at e1 e2 e3 e4 ⊢
    rw [e1, e2, e3, e4]
  · rw [hv]
    cases skip
    · exact .inr rfl
    · exact .inl rfl

/-- All graphs of a world can be labelled. -/
def KnownObjs (w : GenWorld) : Prop := ∀ g ∈ w.objs, ∀ h ∈ g.nodeHash, ∃ i, dget w.tables.hashToIndex h = some i

theorem labelGraph_known (t : Tables) (skip : Bool) (g : PygData) (h : ∀ x ∈ g.nodeHash, ∃ i, dget t.hashToIndex x = some i) :
    ∃ v, labelGraph t skip g = .ok v := by
  have hl : labelGraph t skip g = Except.bind (g.nodeHash.mapM (fun h => match dget t.hashToIndex h with
      | some i => (Except.ok i : Py Nat)
      | none => .error .key)) (fun idx => .ok { g with label := if skip then none else some idx, y := some idx }) := by
    unfold labelGraph
    rfl
  have hm : ∀ l : List Int, (∀ x ∈ l, ∃ i, dget t.hashToIndex x = some i) → ∃ r, l.mapM (fun h => match dget t.hashToIndex h with
      | some i => (Except.ok i : Py Nat)
      | none => .error .key) = .ok r := by
    intro l
    induction l with
    | nil => intro _; exact ⟨[], rfl⟩
    | cons a l ih =>
      intro h
      obtain ⟨i, hi⟩ := h a List.mem_cons_self
      obtain ⟨r, hr⟩ := ih (fun x hx => h x (List.mem_cons_of_mem _ hx))
      refine ⟨i :: r, ?_⟩
      rw [List.mapM_cons, hi, hr]
      rfl
  obtain ⟨r, hr⟩ := hm _ h
  rw [hl, hr]
  exact ⟨_, rfl⟩

theorem next_error (w : GenWorld) (hi : GenInv w) (hk : KnownObjs w) (i : Nat) (e : Err) (h : (w.next i).2 = .raised e) :
    e = .stopIteration ∨ (e = .value ∧ w.tables.hashToNotes = [] ∧ ∃ s, w.gens[i]? = some (.fresh s)) := by
  cases hg : w.gens[i]? with
  | none => unfold GenWorld.next at h; rw [hg] at h; cases h
  | some st =>
    cases st with
    | done => unfold GenWorld.next at h; rw [hg] at h; cases h; exact .inl rfl
    | waiting l p s => rw [next_waiting w hi i l p s hg] at h; cases h; exact .inl rfl
    | fresh skip =>
      unfold GenWorld.next at h
      rw [hg] at h
      dsimp only at h
      split_ifs at h with h1 h2
      · cases h; exact .inr ⟨rfl, h1, skip, rfl⟩
      · cases h; exact .inl rfl
      · unfold GenWorld.advance at h
        have hh : w.lists.getD w.cur [] = w.held := rfl
        rw [hh] at h
        cases hk' : w.held with
        | nil => exact absurd hk' h2
        | cons k ks =>
          have hlt := hi.objs k (by rw [hk']; simp)
          rw [hk', List.getElem?_cons_zero] at h
          dsimp only at h
          rw [List.getElem?_eq_getElem hlt] at h
          dsimp only at h
          obtain ⟨v, hv⟩ := labelGraph_known w.tables skip w.objs[k] (hk _ (List.getElem_mem hlt))
          rw [hv] at h
          cases h

theorem known_step (env : PyEnv) (w w' : GenWorld) (op : GenOp) (o : GenOut) (hi : GenInv w) (ht : Built env w.tables) (hk : KnownObjs w)
    (hop : ∀ tracks bo p, op = .build tracks bo p → p = true) (hs : w.step env op = some (w', o)) : Built env w'.tables ∧ KnownObjs w' := by
  cases op with
  | build tracks bo p =>
    have hp := hop tracks bo p rfl
    subst hp
    obtain ⟨_, hgrow, _⟩ := genTables_step env w w' _ o hi (built_inv env _ ht) hs
    unfold GenWorld.step at hs
    dsimp only at hs
    cases hb : NGC.build env ⟨w.tables, [], w.sub⟩ tracks bo true with
    | error e => rw [hb] at hs; cases hs
    | ok b =>
      rw [hb] at hs; cases hs
      obtain ⟨inv, _⟩ := build_builderInv env bo ⟨w.tables, [], w.sub⟩ b tracks ⟨ht, by simp, by simp⟩ hb
      refine ⟨inv.built, ?_⟩
      intro g hg h hh
      dsimp only at hg hgrow ⊢
      rcases List.mem_append.1 hg with hg | hg
      · obtain ⟨i, hi'⟩ := hk g hg h hh
        exact ⟨i, hgrow h i hi'⟩
      · exact inv.known g hg h hh
  | start skip => cases hs; exact ⟨ht, hk⟩
  | close j => cases hs; exact ⟨ht, hk⟩
  | next j =>
    have hs' : w.next j = (w', o) := Option.some.inj hs
    cases hg : w.gens[j]? with
    | none =>
      unfold GenWorld.next at hs'
      rw [hg] at hs'
      cases hs'; exact ⟨ht, hk⟩
    | some st =>
      cases st with
      | done =>
        unfold GenWorld.next at hs'
        rw [hg] at hs'
        cases hs'; exact ⟨ht, hk⟩
      | waiting lst pos skip => rw [next_waiting w hi j lst pos skip hg] at hs'; cases hs'; exact ⟨ht, hk⟩
      | fresh skip =>
        rcases next_fresh w hi j skip hg with ⟨e, he⟩ | ⟨k, g, g', _, h2, hl, _, he⟩
        · rw [he] at hs'; cases hs'; exact ⟨ht, hk⟩
        · rw [he] at hs'; cases hs'
          refine ⟨ht, ?_⟩
          intro u hu h hh
          dsimp only at hu ⊢
          rcases List.mem_or_eq_of_mem_set hu with hu | rfl
          · exact hk u hu h hh
          · obtain ⟨idx, rfl, _⟩ := labelGraph_ok _ _ _ _ hl
            exact hk g (List.mem_of_getElem? h2) h hh

/-- **C193, exceptions.** With one graph per instrument, `next` raises nothing but StopIteration and, for a generator that is advanced for the first
time while no chord is recorded (not when it is created), ValueError; a KeyError never. -/
theorem C193_exceptions (env : PyEnv) (ops : List GenOp) (op : GenOp) (w w' : GenWorld) (outs : List GenOut) (e : Err)
    (hr : GenWorld.new.run env ops = some (w, outs)) (hops : ∀ tracks bo p, GenOp.build tracks bo p ∈ ops → p = true)
    (hs : w.step env op = some (w', .raised e)) : e = .stopIteration ∨ (e = .value ∧ w.tables.hashToNotes = []) := by
  have key : GenInv w ∧ Built env w.tables ∧ KnownObjs w :=
    gen_run_inv env (fun w => GenInv w ∧ Built env w.tables ∧ KnownObjs w) ops (by
      rintro w w' op o hm ⟨c1, c2, c3⟩ hs
      obtain ⟨d1, d2⟩ := known_step env w w' op o c1 c2 c3 (by rintro tracks bo p rfl; exact hops _ _ _ hm) hs
      exact ⟨genInv_step env w w' op o c1 hs, d1, d2⟩) _ w outs ⟨genInv_new, Built.fresh, by intro g hg; cases hg⟩ hr
  cases op with
  | build tracks bo p =>
    unfold GenWorld.step at hs
    dsimp only at hs
    cases hb : NGC.build env ⟨w.tables, [], w.sub⟩ tracks bo p with
    | error e => rw [hb] at hs; cases hs
    | ok b => rw [hb] at hs; cases hs
  | start skip => cases hs
  | close j => cases hs
  | next j =>
    have hs' : w.next j = (w', .raised e) := Option.some.inj hs
    rcases next_error w key.1 key.2.2 j e (by rw [hs']) with h | ⟨h1, h2, _⟩
    · exact .inl h
    · exact .inr ⟨h1, h2⟩

/-- `build` does not look at the graphs that were built before: the assumption made in `GenWorld.step`. -/
theorem buildTrack_blind (env : PyEnv) (o : BuildOpts) (p : Bool) (old : List PygData) (b : Builder) (large : Option MGraph) (s : MSeq) :
    buildTrack env o p ({ b with pyg := old ++ b.pyg }, large) s =
      (buildTrack env o p (b, large) s).map (fun r => ({ r.1 with pyg := old ++ r.1.pyg }, r.2)) := by
  unfold buildTrack
  dsimp only
  split_ifs with h1 h2
  · rfl
  · rfl
  · cases hb : buildSequence env b.tables s o none with
    | error e => rfl
    | ok tg =>
      simp only [bind, Except.bind]
      split_ifs
      · rfl
      · rfl
      · cases hf : fromNetworkx tg.2 with
        | error e => rfl
        | ok d => simp [Except.map]
  · cases hb : buildSequence env b.tables s o large with
    | error e => rfl
    | ok tg =>
      simp only [bind, Except.bind]
      split_ifs <;> rfl

theorem gen_foldlM_blind (env : PyEnv) (o : BuildOpts) (p : Bool) (old : List PygData) (tracks : List MSeq) : ∀ (b : Builder) (large : Option MGraph),
    tracks.foldlM (buildTrack env o p) ({ b with pyg := old ++ b.pyg }, large) =
      (tracks.foldlM (buildTrack env o p) (b, large)).map (fun r => ({ r.1 with pyg := old ++ r.1.pyg }, r.2)) := by
  induction tracks with
  | nil => intro b large; rfl
  | cons s tracks ih =>
    intro b large
    rw [List.foldlM_cons, List.foldlM_cons, buildTrack_blind]
    cases h : buildTrack env o p (b, large) s with
    | error e => rfl
    | ok r =>
      obtain ⟨b', l'⟩ := r
      exact ih b' l'

/-- **C193, building is blind to what was built.** Builds append; nothing else about them depends on the graphs that the builder holds. -/
theorem C193_build_appends (env : PyEnv) (t : Tables) (old : List PygData) (sub : List MGraph) (tracks : List MSeq) (o : BuildOpts) (p : Bool) :
    NGC.build env ⟨t, old, sub⟩ tracks o p = (NGC.build env ⟨t, [], sub⟩ tracks o p).map (fun b => { b with pyg := old ++ b.pyg }) := by
  have h := gen_foldlM_blind env o p old tracks ⟨t, [], sub⟩ none
  simp only [List.append_nil] at h
  unfold NGC.build
  rw [h]
  cases hf : tracks.foldlM (buildTrack env o p) (⟨t, [], sub⟩, none) with
  | error e => rfl
  | ok r =>
    obtain ⟨b, l⟩ := r
    cases l with
    | none => rfl
    | some g =>
      simp only [Except.map, bind, Except.bind]
      cases p with
      | true => rfl
      | false =>
        cases hn : fromNetworkx g with
        | error e => rfl
        | ok d => simp

namespace Spec

/-- The builder as `graphs` of `Graph.lean` sees it: the graphs it holds, by value. -/
def asBuilder (w : GenWorld) : Builder := ⟨w.tables, w.held.filterMap (fun k => w.objs[k]?), w.sub⟩

/-- What a `for` loop over a new generator sees, for loops that hand out at most one graph. -/
def loopSees : List PygData × Builder → List GenOut → Prop
  | (ys, _), outs => ∃ ks : List Nat, ks.length = ys.length ∧ outs = (ks.zip ys).map (fun p => .gave p.1 p.2) ++ [.raised .stopIteration]

end Spec

/-- **C193, the loop.** A `for` loop over `builder.graphs()` that runs to its end sees exactly what C53 says: the generator model agrees with the model of
the whole loop, in what is handed out, in what the builder holds afterwards, and in what is raised. -/
theorem C193_loop (env : PyEnv) (ops : List GenOp) (w : GenWorld) (outs : List GenOut) (hr : GenWorld.new.run env ops = some (w, outs)) (skip : Bool) :
    (∀ e, graphs (asBuilder w) skip = .error e →
      ∃ w', w.run env [.start skip, .next w.gens.length] = some (w', [.quiet, .raised e]) ∧ asBuilder w' = asBuilder w) ∧
    (∀ r, graphs (asBuilder w) skip = .ok r →
      ∃ w' os, w.run env (.start skip :: List.replicate (r.1.length + 1) (.next w.gens.length)) = some (w', .quiet :: os) ∧ loopSees r os ∧
        asBuilder w' = r.2) := by
  have hi := genInv_run env _ _ _ _ genInv_new hr
  have hstart : w.step env (.start skip) = some ({ w with gens := w.gens ++ [.fresh skip] }, .quiet) := rfl
  set w1 : GenWorld := { w with gens := w.gens ++ [.fresh skip] } with hw1
  have hi1 : GenInv w1 := genInv_gens w hi _
  have hg : w1.gens[w.gens.length]? = some (.fresh skip) := by simp [hw1]
  have hT : (asBuilder w).tables = w.tables := rfl
  unfold graphs
  rw [hT]
  by_cases h1 : w.tables.hashToNotes = []
  · rw [if_pos h1]
    refine ⟨?_, by intro r h; cases h⟩
    intro e he
    cases he
    have hn : w1.next w.gens.length = ({ w1 with gens := w1.gens.set w.gens.length .done }, .raised .value) := by
      unfold GenWorld.next
      rw [hg]
      dsimp only
      rw [if_pos (show w1.tables.hashToNotes = [] from h1)]
    refine ⟨{ w1 with gens := w1.gens.set w.gens.length .done }, ?_, ?_⟩
    · rw [GenWorld.run, hstart]
      dsimp only
      rw [GenWorld.run, GenWorld.step, hn]
      rfl
    · rfl
  rw [if_neg h1]
  by_cases h2 : w.held = []
  · have hpyg : (asBuilder w).pyg = [] := by unfold asBuilder; rw [h2]; rfl
    rw [hpyg]
    refine ⟨?_, ?_⟩
    · intro e h
      cases h
    intro r h
    cases h
    have hn : w1.next w.gens.length = ({ w1 with gens := w1.gens.set w.gens.length .done }, .raised .stopIteration) := by
      unfold GenWorld.next
      rw [hg]
      dsimp only
      rw [if_neg (show ¬ w1.tables.hashToNotes = [] from h1), if_pos (show w1.held = [] from h2)]
    refine ⟨{ w1 with gens := w1.gens.set w.gens.length .done }, [.raised .stopIteration], ?_, ⟨[], rfl, rfl⟩, ?_⟩
    · rw [GenWorld.run, hstart]
      dsimp only
      rw [List.length_nil, List.replicate_one, GenWorld.run, GenWorld.step, hn]
      rfl
    · show asBuilder w = _
      unfold asBuilder
      rw [h2]
      rfl
  · obtain ⟨k, ks, hk⟩ := List.exists_cons_of_ne_nil h2
    have hlt := hi.objs k (by rw [hk]; simp)
    have hkg : w.objs[k]? = some w.objs[k] := List.getElem?_eq_getElem hlt
    have hpyg : (asBuilder w).pyg = w.objs[k] :: ks.filterMap (fun k => w.objs[k]?) := by
      unfold asBuilder
      dsimp only
      rw [hk, List.filterMap_cons, hkg]
    rw [hpyg]
    have hadv : w1.next w.gens.length = w1.advance w.gens.length w1.cur 0 skip := by
      unfold GenWorld.next
      rw [hg]
      dsimp only
      rw [if_neg (show ¬ w1.tables.hashToNotes = [] from h1), if_neg (show ¬ w1.held = [] from h2)]
    have hh : w1.lists.getD w1.cur [] = k :: ks := hk
    simp only [graphsLoop, List.length_cons, List.getElem?_cons_zero, bind, Except.bind]
    have hempty : ∀ fuel, graphsLoop w.tables skip fuel (0 + 1) [] = .ok ([], []) := by
      intro fuel; cases fuel <;> rfl
    cases hl : labelGraph w.tables skip w.objs[k] with
    | error e =>
      have hn : w1.next w.gens.length = ({ w1 with gens := w1.gens.set w.gens.length .done }, .raised e) := by
        rw [hadv]
        unfold GenWorld.advance
        rw [hh, List.getElem?_cons_zero]
        dsimp only
        rw [hkg]
        dsimp only
        rw [hl]
      refine ⟨?_, by intro r h; cases h⟩
      intro e' he
      cases he
      refine ⟨{ w1 with gens := w1.gens.set w.gens.length .done }, ?_, ?_⟩
      · rw [GenWorld.run, hstart]
        dsimp only
        rw [GenWorld.run, GenWorld.step, hn]
        rfl
      · rfl
    | ok v =>
      have hn : w1.next w.gens.length =
          ({ w1 with objs := w1.objs.set k v, gens := w1.gens.set w.gens.length (.waiting w1.cur 1 skip) }, .gave k v) := by
        rw [hadv]
        unfold GenWorld.advance
        rw [hh, List.getElem?_cons_zero]
        dsimp only
        rw [hkg]
        dsimp only
        rw [hl]
      set w2 : GenWorld := { w1 with objs := w1.objs.set k v, gens := w1.gens.set w.gens.length (.waiting w1.cur 1 skip) } with hw2
      have hi2 : GenInv w2 := genInv_step env w1 w2 (.next w.gens.length) (.gave k v) hi1 (congrArg some hn)
      have hg2 : w2.gens[w.gens.length]? = some (.waiting w1.cur 1 skip) := by
        rw [hw2]
        dsimp only
        rw [List.getElem?_set_self]
        simp [hw1]
      have hn2 := next_waiting w2 hi2 _ _ _ _ hg2
      refine ⟨?_, ?_⟩
      · intro e he
        dsimp only at he
        rw [hempty] at he
        cases he
      · intro r h
        dsimp only at h
        rw [hempty] at h
        cases h
        refine ⟨{ w2 with lists := w2.lists.set w2.cur [] ++ [[]], cur := w2.lists.length, sub := [], gens := w2.gens.set w.gens.length .done },
          [.gave k v, .raised .stopIteration], ?_, ⟨[k], rfl, rfl⟩, ?_⟩
        · rw [GenWorld.run, hstart]
          dsimp only
          rw [List.length_singleton, show List.replicate (1 + 1) (GenOp.next w.gens.length) = [.next w.gens.length, .next w.gens.length] from rfl,
            GenWorld.run, GenWorld.step, hn]
          dsimp only
          rw [GenWorld.run, GenWorld.step, hn2]
          rfl
        · unfold asBuilder GenWorld.held
          dsimp only
          rw [gen_cleared w2 hi2]
          simp [hw2, hw1]

/-! ## A concrete history -/

/-- Two tracks are built, a first generator hands out the first graph, one more track is built, a second generator (without labels) hands out the same
graph object, the first one is resumed. -/
def exGenOps : List GenOp :=
  [.build [exWhole, exMelody] {} true, .start false, .next 0, .build [exMelody] {} true, .start true, .next 1, .next 0, .next 1]

/-- What is seen: object 0 with a label, the same object without one, then the iterations are over and the three graphs are gone; the labels `y` of object
0 are still there. -/
example : (GenWorld.new.run exEnv exGenOps).map (fun r => r.2.map (fun o => match o with
      | .quiet => (none, false) | .gave k v => (some k, v.label.isSome) | .raised e => (none, decide (e = .stopIteration)))) =
    some [(none, false), (none, false), (some 0, true), (none, false), (none, false), (some 0, false), (none, true), (none, true)] := by decide +kernel

example : (GenWorld.new.run exEnv exGenOps).map (fun r => (r.1.objs.length, r.1.held)) = some (3, []) := by decide +kernel

example : (GenWorld.new.run exEnv exGenOps).map (fun r => r.1.objs.map (fun g => (g.label.isSome, g.y))) =
    some [(false, some [1, 2, 3]), (false, none), (false, none)] := by decide +kernel

/-- Before the first generator was resumed the builder held all three. -/
example : (GenWorld.new.run exEnv (exGenOps.take 6)).map (fun r => r.1.held) = some [0, 1, 2] := by decide +kernel

/-- Closing the generator instead (a `break` in the loop) keeps everything, and the next generator starts with the same graph again. -/
example : (GenWorld.new.run exEnv [.build [exWhole, exMelody] {} true, .start false, .next 0, .close 0, .start false, .next 1]).map (fun r =>
    (r.1.held, r.2.map (fun o => match o with | .gave k _ => some k | _ => none))) =
    some ([0, 1], [none, none, some 0, none, none, some 0]) := by decide +kernel

/-- A generator of an empty builder raises ValueError when it is first advanced, and StopIteration afterwards. -/
example : (GenWorld.new.run exEnv [.start false, .next 0, .next 0]).map (·.2) = some [.quiet, .raised .value, .raised .stopIteration] := by
  decide +kernel

end NGC
