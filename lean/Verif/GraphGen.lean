import Verif.Graph

/-!
`MidiGraphBuilder.graphs()` (and `__iter__`) as what it is, a generator: any number of generators of one builder, advanced, left and closed in any
order, with builds in between. List objects and graph objects have an identity, because the generator iterates over the list object that
`_pyg_data` named when it was first advanced, empties whatever list `_pyg_data` names later, and writes labels into the graph objects.

Left out: `is_sanity_check=True`; builds that raise (a history ends there).
-/

namespace NGC

/-- A generator: created but not advanced; waiting at `yield` (line 1161) in the loop over list `lst`, `pos` the next position; finished. -/
inductive GenSt where
  | fresh (skip : Bool)
  | waiting (lst pos : Nat) (skip : Bool)
  | done
  deriving DecidableEq

/-- A builder, the objects it created, and the generators made from it. `lists` are the list objects that `_pyg_data` named at some time, `cur` the
one it names now; entries of a list are numbers of graph objects. -/
structure GenWorld where
  tables : Tables
  objs : List PygData
  lists : List (List Nat)
  cur : Nat
  sub : List MGraph
  gens : List GenSt

/-- A new builder (midi_graph_builder.py 138-143). -/
def GenWorld.new : GenWorld := ⟨Tables.empty, [], [[]], 0, [], []⟩

/-- The graphs of `pyg_data` (midi_graph_builder.py 203-208), by number. -/
def GenWorld.held (w : GenWorld) : List Nat := w.lists.getD w.cur []

/-- What the user can do: build, create a generator with `graphs(skip_label)`, advance generator number `i`, drop or close it (leaving a `for` loop
by `break` does). -/
inductive GenOp where
  | build (tracks : List MSeq) (o : BuildOpts) (perInstr : Bool)
  | start (skip : Bool)
  | next (i : Nat)
  | close (i : Nat)

/-- What is seen: nothing, a graph (its number and its contents at this time), an exception. -/
inductive GenOut where
  | quiet
  | gave (obj : Nat) (val : PygData)
  | raised (e : Err)
  deriving DecidableEq

/-- From the head of the `for` loop to `yield` (midi_graph_builder.py 1132-1161): the iteration is over if the list has no entry at the position.
The labels are written into the graph object. -/
def GenWorld.advance (w : GenWorld) (i lst pos : Nat) (skip : Bool) : GenWorld × GenOut :=
  match (w.lists.getD lst [])[pos]? with
  | none => ({ w with gens := w.gens.set i .done }, .raised .stopIteration)
  | some k =>
    match w.objs[k]? with
    | none => ({ w with gens := w.gens.set i .done }, .raised .stopIteration)
    | some g =>
      match labelGraph w.tables skip g with
      | .error e => ({ w with gens := w.gens.set i .done }, .raised e)
      | .ok g' => ({ w with objs := w.objs.set k g', gens := w.gens.set i (.waiting lst (pos + 1) skip) }, .gave k g')

/-- `next` on a generator. First time (midi_graph_builder.py 1124-1132): ValueError without chords; `self._pyg_data or []` is a new empty list when
there is no graph. Later (midi_graph_builder.py 1162-1166): the list that `_pyg_data` names now is emptied and a new one put in its place, likewise the
sub graphs, then the loop goes on over the old list. -/
def GenWorld.next (w : GenWorld) (i : Nat) : GenWorld × GenOut :=
  match w.gens[i]? with
  | none => (w, .quiet)
  | some .done => (w, .raised .stopIteration)
  | some (.fresh skip) =>
    if w.tables.hashToNotes = [] then ({ w with gens := w.gens.set i .done }, .raised .value)
    else if w.held = [] then ({ w with gens := w.gens.set i .done }, .raised .stopIteration)
    else w.advance i w.cur 0 skip
  | some (.waiting lst pos skip) =>
    ({ w with lists := w.lists.set w.cur [] ++ [[]], cur := w.lists.length, sub := [] } : GenWorld).advance i lst pos skip

/-- One action. `build` (midi_graph_builder.py 470-577) does not look at the graphs it already has and appends the new ones to the list that
`_pyg_data` names. -/
def GenWorld.step (env : PyEnv) (w : GenWorld) : GenOp → Option (GenWorld × GenOut)
  | .build tracks o p =>
    match NGC.build env ⟨w.tables, [], w.sub⟩ tracks o p with
    | .error _ => none
    | .ok b => some ({ w with tables := b.tables
                              objs := w.objs ++ b.pyg
                              lists := w.lists.set w.cur (w.held ++ List.range' w.objs.length b.pyg.length)
                              sub := b.sub }, .quiet)
  | .start skip => some ({ w with gens := w.gens ++ [.fresh skip] }, .quiet)
  | .next i => some (w.next i)
  | .close i => some ({ w with gens := w.gens.set i .done }, .quiet)

/-- A history: the state at the end and what was seen at each action; `none` if a build raised. -/
def GenWorld.run (env : PyEnv) : GenWorld → List GenOp → Option (GenWorld × List GenOut)
  | w, [] => some (w, [])
  | w, op :: ops =>
    match w.step env op with
    | none => none
    | some (w', o) =>
      match GenWorld.run env w' ops with
      | none => none
      | some (w'', os) => some (w'', o :: os)

end NGC
