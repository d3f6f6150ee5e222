import Verif.GraphExtra

/-!
`MidiGraphBuilder.from_file` (midi_graph_builder.py 145-168). Paths are lists of characters; `pathlib.PurePosixPath.name` and `.suffix` are modelled from their source (Python 3.8 to 3.13).
-/

namespace NGC

/-- The parts of a path between slashes. -/
def pathSplit : List Char → List (List Char)
  | [] => [[]]
  | '/' :: r => [] :: pathSplit r
  | c :: r =>
    match pathSplit r with
    | [] => [[c]]
    | p :: ps => (c :: p) :: ps

/-- `Path(p).name` (midi_graph_builder.py 157, 161): the last part that is neither empty nor a dot. -/
def pureName (p : List Char) : List Char := ((pathSplit p).filter (fun c => decide (c ≠ [] ∧ c ≠ ['.']))).getLastD []

/-- `name.rfind('.')`. -/
def rfindDot (name : List Char) : Option Nat :=
  if '.' ∈ name then some (name.length - 1 - name.reverse.findIdx (fun c => decide (c = '.'))) else none

/-- `Path(p).suffix` (midi_graph_builder.py 161). -/
def nameSuffix (name : List Char) : List Char :=
  match rfindDot name with
  | some i => if 0 < i ∧ i < name.length - 1 then name.drop i else []
  | none => []

/-- `MidiGraphBuilder.from_file(file_path, feature_size, is_include_velocity)` (midi_graph_builder.py 145-168); `isFile` says which paths are files, `read` is `MidiReader.read`. The last
argument becomes `is_instrument_graph`. -/
def GBuilder.fromFile (srt : List Note → List Note) (isFile : List Char → Bool) (read : List Char → Py (Tracks MSeq)) (path : List Char) (size : Option Int := some 12) (vel : Bool := false) :
    Py GBuilder :=
  if !isFile path then .error .value
  else if ¬ (nameSuffix (pureName path) = ".mid".toList ∨ nameSuffix (pureName path) = ".midi".toList) then .error .value
  else do
    let t ← read path
    GBuilder.new srt (.seqs t) { size := size, perInstr := vel }

end NGC
