import Verif.FromFile

/-!
Model of ngc_plot_sample.py as far as it does not draw: `create_graph_from_file` (48-64), the names of the nodes (79-82, 113-117) and
`main` (181-201).
-/

namespace NGC

/-- A call with keyword arguments of a function with these parameters: a TypeError before the body runs if a keyword is
not a parameter. -/
def callWith {α : Type} (params keywords : List String) (body : Py α) : Py α :=
  if keywords.all (fun k => decide (k ∈ params)) then body else .error .type

/-- `try: … except Exception as e: raise ValueError(…)`. -/
def asValueError {α : Type} : Py α → Py α
  | .ok a => .ok a
  | .error _ => .error .value

/-- `graph_builder.sub_graphs[0]`. -/
def firstSub (b : Builder) : Py MGraph :=
  match b.sub with
  | [] => .error .index
  | g :: _ => .ok g

/-- `create_graph_from_file(file_path)` (ngc_plot_sample.py 48-64): `MidiGraphBuilder.from_file` (midi_graph_builder.py 145-148) is called
with the keywords `file_path` and `per_instrument`. -/
def createGraphFromFile (env : PyEnv) (srt : List Note → List Note) (isFile : List Char → Bool) (read : List Char → Py (Tracks MSeq))
    (path : List Char) : Py MGraph :=
  if !isFile path then .error .value
  else asValueError (do
    let gb ← callWith ["file_path", "feature_size", "is_include_velocity"] ["file_path", "per_instrument"]
      (GBuilder.fromFile srt isFile read path)
    let gb ← gb.build env none {} false
    firstSub gb.state)

/-- `list(note_set)[0]` for the `label` of a node (ngc_plot_sample.py 79-80, 113-115): a hash is not iterable; `order` is the
iteration order of a set of names. -/
def firstName (order : Finset String → List String) : Label → Py String
  | .hash _ => .error .type
  | .names s => match order s with
    | [] => .error .index
    | x :: _ => .ok x

/-- The names of the nodes (ngc_plot_sample.py 79-80, 113-117): nodes without `label` are left out. -/
def noteNamesOf (order : Finset String → List String) (g : MGraph) : Py (List (Int × String)) :=
  (g.nodes.filterMap (fun p => p.2.label.map (fun l => (p.1, l)))).mapM (fun p => do
    let x ← firstName order p.2
    .ok (p.1, x))

/-- `main()` (ngc_plot_sample.py 181-201) up to the first drawing: the checks and the graph. -/
def plotMain (env : PyEnv) (srt : List Note → List Note) (isFile exists_ : List Char → Bool) (read : List Char → Py (Tracks MSeq))
    (order : Finset String → List String) (path : List Char) : Py (List (Int × String)) :=
  if ¬ (nameSuffix (pureName path) = ".mid".toList ∨ nameSuffix (pureName path) = ".midi".toList) then .error .value
  else if !exists_ path then .error .value
  else do
    let g ← createGraphFromFile env srt isFile read path
    noteNamesOf order g

end NGC
