import Verif.GraphProps2
import Verif.Float64Lemmas
import Verif.FloatOps

/-!
`compute_data` of the graph builder with Python's floats and CPython's hash of a float, as `build_sequence` calls it (automatic
tolerance). The tolerance is the number that `compute_tolerance` returned, any number; starts are floats.
-/

namespace NGC

/-- The time of a note before hashing (midi_graph_builder.py 727-730, the branch of the automatic tolerance) with float arithmetic:
`tolerance` comes from `np.percentile`, so `start / tolerance` and the product are numpy floats: `round(start / tolerance)` is an int,
`* tolerance` converts it to a float, and `round(x, 2)` of a numpy float is `np.around`, `rint(x * 100) / 100`. -/
def adjTimeF (tol t : ℚ) : ℚ :=
  if tol = 0 then t
  else around2F (b64 (b64 (roundHE (b64 (t / tol)) : ℚ) * tol))

/-- One round of the loop of `compute_data` (midi_graph_builder.py 720-743) with floats; the key is the hash of the adjusted time. -/
def groupStepF (tol : ℚ) (st : List (Int × List Note) × Nat) (n : Note) : Py (List (Int × List Note) × Nat) :=
  if eligible n then
    if n.start < 0 then .error .assertion
    else if adjTimeF tol n.start < 0 then .error .assertion
    else
      let k := pyHashFloat (adjTimeF tol n.start)
      let old := (dget st.1 k).getD []
      .ok (dset st.1 k (old ++ [n]), max st.2 (old.length + 1))
  else .ok st

/-- `compute_data` (midi_graph_builder.py 696-749) with floats, `tolerance_auto` set and `filter_single_notes` off. -/
def computeDataF (tol : ℚ) (s : MSeq) : Py (List (Int × List Note) × Nat) :=
  s.notes.foldlM (groupStepF tol) ([], 0)

/-- `build_sequence` (midi_graph_builder.py 847-1077) without a given graph, on the groups of `computeDataF`; with the single note filter
of lines 745-747. -/
def buildSequenceF (env : PyEnv) (tol : ℚ) (t : Tables) (s : MSeq) (o : BuildOpts) : Py (Tables × MGraph) :=
  if !o.ok then .error .value
  else do
    let r ← computeDataF tol s
    let data := if o.filterSingle then r.1.filter (fun p => decide (1 < p.2.length)) else r.1
    if data = [] then .ok (t, DiGraph.empty)
    else
      let st ← buildLoop env o (orderedGroups data) ⟨t, DiGraph.empty, none⟩
      .ok (st.tables, st.graph)

/-- The adjusted time in hundredths of a second. -/
def Spec.centi (tol t : ℚ) : ℕ := (roundHE (b64 (b64 (b64 (roundHE (b64 (t / tol)) : ℚ) * tol) * 100))).toNat

/-- The hundredths after the full second at which a group of notes is placed. -/
def Spec.hundredths (tol : ℚ) (g : List Note) : ℕ :=
  match g with
  | [] => 0
  | n :: _ => Spec.centi tol n.start % 100

/-- The chords in the order in which they enter the graph, each with the hundredths of its time. -/
def Spec.chordsVisited (env : PyEnv) (tol : ℚ) (size : Nat) (data : List (Int × List Note)) : List (ℕ × Int) :=
  (orderedGroups data).flatMap (fun g => (subGroups env size g).map (fun c => (Spec.hundredths tol g, env.hashSet c)))

end NGC
