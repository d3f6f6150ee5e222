import Verif.Py
import Mathlib.Data.List.Basic

/-!
Model of how a `MidiDataset` finds, copies and names its raw files, and of the number of the graph last taken from it
(midi_dataset.py, transforms.py), with the parts of PyTorch Geometric's `Dataset` they rely on (`_download`, `raw_paths`,
`__getitem__`).

Paths are lists of names from the root; `..`, `~` and links are left out. No directory inside the raw directory has the name of a
given file.
-/

namespace NGC

/-- A path from the root. -/
abbrev FPath := List String

/-- A path as the user writes it: from the root, or from the current directory. -/
inductive Given where
  | abs (p : FPath)
  | rel (p : FPath)
  deriving DecidableEq

/-- The disk: contents of regular files, and which paths are directories. -/
structure Disk (C : Type) where
  file : FPath → Option C
  dir : FPath → Bool

variable {C : Type}

/-- `Path.exists` -/
def Disk.has (d : Disk C) (p : FPath) : Bool := (d.file p).isSome || d.dir p

/-- A write of a whole file. -/
def Disk.put (d : Disk C) (p : FPath) (c : C) : Disk C := { d with file := fun q => if q = p then some c else d.file q }

/-- `Path(raw_file).expanduser().resolve()` (midi_dataset.py 429) -/
def Given.resolve (cwd : FPath) : Given → FPath
  | .abs p => p
  | .rel p => cwd ++ p

/-- `raw_paths` of PyTorch Geometric: `os.path.join(raw_dir, f)`, which is `f` itself if `f` starts at the root. -/
def Given.rawPath (raw : FPath) : Given → FPath
  | .abs p => p
  | .rel p => raw ++ p

/-- `Path.name` -/
def pathName (p : FPath) : String := p.getLastD ""

/-- `raw_file_names` (midi_dataset.py 337-352): the list given, if it is not empty, else the names in the default directory of
regular files that end in `.mid`. `names` is `os.listdir`; `mid` tells which of them end so. -/
def rawFileNames (files : List Given) (d : Disk C) (loc : FPath) (names : List String) (mid : String → Bool) : List Given :=
  if files ≠ [] then files
  else (names.filter (fun f => (d.file (loc ++ [f])).isSome && mid f)).map (fun f => .rel [f])

/-- `str.endswith('.mid')` (midi_dataset.py 351). -/
def endsMid (f : String) : Bool := ['.', 'm', 'i', 'd'].isSuffixOf f.toList

/-- `shutil.copy` of a regular file (midi_dataset.py 437-441): copying a file onto itself raises SameFileError, which is swallowed. -/
def copyFile (d : Disk C) (src dst : FPath) : Disk C :=
  if src = dst then d
  else match d.file src with
    | some c => d.put dst c
    | none => d

/-- `download` for a list of files (midi_dataset.py 427-441): the disk, the list - which is the caller's own - and the exception, if any.
The loop runs over the live list and changes only the entry it has just read. -/
def downloadList (cwd raw : FPath) : Disk C → List Given → Disk C × List Given × Option Err
  | d, [] => (d, [], none)
  | d, g :: gs =>
    let p := g.resolve cwd
    if d.has p = false then (d, g :: gs, some .runtime)
    else if (d.file p).isSome then
      let r := downloadList cwd raw (copyFile d p (raw ++ [pathName p])) gs
      (r.1, .rel [pathName p] :: r.2.1, r.2.2)
    else
      let r := downloadList cwd raw d gs
      (r.1, g :: r.2.1, r.2.2)

/-- `download` from the web server (midi_dataset.py 442-446), by `download_url` of PyTorch Geometric: a file that is there already is
not fetched again. `fetch` is the server. Archives are left out. -/
def downloadWeb (raw : FPath) (fetch : String → Py C) : Disk C → List Given → Disk C × Option Err
  | d, [] => (d, none)
  | d, g :: gs =>
    let f := pathName (g.rawPath raw)
    if d.has (raw ++ [f]) then downloadWeb raw fetch d gs
    else match fetch f with
      | .ok c => downloadWeb raw fetch (d.put (raw ++ [f]) c) gs
      | .error e => (d, some e)

/-- What construction does before processing: `_download` of PyTorch Geometric, which calls `download` (midi_dataset.py 420-446) unless there
are raw paths and all exist. `files` is `none` if no list was given. The last component is the list of raw paths used from then on. -/
structure Prepared (C : Type) where
  disk : Disk C
  files : List Given
  err : Option Err

/-- See `Prepared` (midi_dataset.py 207-213, 247, 420-446). -/
def prepare (cwd raw loc : FPath) (names : List String) (fetch : String → Py C) (d : Disk C) (files : List Given) : Prepared C :=
  let l := rawFileNames files d loc names endsMid
  if l ≠ [] ∧ l.all (fun g => d.has (g.rawPath raw)) then ⟨d, files, none⟩
  else if files ≠ [] then
    let r := downloadList cwd raw d files
    ⟨r.1, r.2.1, r.2.2⟩
  else
    let r := downloadWeb raw fetch d l
    ⟨r.1, files, r.2⟩

/-! ## The number of the graph last taken -/

/-- An argument of `dataset[...]`: a number, a slice - any way to choose from a list -, or a list of numbers. -/
inductive DIndex where
  | int (i : Int)
  | slice (f : List Nat → List Nat)
  | list (l : List Int)

/-- What `torch.tensor(graph_id, dtype=torch.long)` (transforms.py 69) gives: a number or a vector. -/
inductive GraphId where
  | one (i : Int)
  | many (l : List Int)
  deriving DecidableEq

/-- A dataset object: which graphs it shows (`_indices` of PyTorch Geometric) and `_current_index`. -/
structure DSet where
  shown : List Nat
  cur : DIndex

/-- Python's `l[i]`. -/
def pyAt (l : List Nat) (i : Int) : Py Nat :=
  if 0 ≤ i then (match l[i.toNat]? with | some x => .ok x | none => .error .index)
  else if -i ≤ l.length then (match l[(l.length + i).toNat]? with | some x => .ok x | none => .error .index)
  else .error .index

/-- `GraphIDTransform.__call__` (transforms.py 67-70): the number comes from the dataset given to the constructor. A slice is refused; the exact class
of the exception is not modelled. -/
def graphIdOf (owner : DSet) : Py GraphId :=
  match owner.cur with
  | .int i => .ok (.one i)
  | .list l => .ok (.many l)
  | .slice _ => .error .type

/-- The objects of a program: the dataset the transform was made for (number 0), and the subsets made of it and of each other. -/
abbrev DWorld := List DSet

/-- What one access gives: a graph with its `graph_id`, or a new subset. -/
inductive Access where
  | graph (index : Nat) (id : GraphId)
  | subset (obj : Nat)
  deriving DecidableEq

/-- `obj[idx]` (midi_dataset.py 700-702 with `Dataset.__getitem__` of PyTorch Geometric): the index is noted first; a number gives the graph with the transform applied,
anything else a shallow copy of the object that shows only part. The transform of a copy is that of the original, made for object 0. -/
def DWorld.get (w : DWorld) (obj : Nat) (idx : DIndex) : DWorld × Py Access :=
  match w[obj]? with
  | none => (w, .error .name)
  | some s =>
    let w' := w.set obj { s with cur := idx }
    match idx with
    | .int i =>
      match pyAt s.shown i with
      | .error e => (w', .error e)
      | .ok g =>
        match w'[0]? with
        | none => (w', .error .name)
        | some owner =>
          match graphIdOf owner with
          | .ok id => (w', .ok (.graph g id))
          | .error e => (w', .error e)
    | .slice f => (w' ++ [⟨f s.shown, idx⟩], .ok (.subset w.length))
    | .list l =>
      match l.mapM (pyAt s.shown) with
      | .error e => (w', .error e)
      | .ok l' => (w' ++ [⟨l', idx⟩], .ok (.subset w.length))

/-- A new dataset of `n` graphs (midi_dataset.py 223; `indices()` of PyTorch Geometric). -/
def DWorld.new (n : Nat) : DWorld := [⟨List.range n, .int 0⟩]

/-- A history of accesses, failed ones included. -/
def DWorld.run (w : DWorld) : List (Nat × DIndex) → DWorld
  | [] => w
  | a :: as => (w.get a.1 a.2).1.run as

end NGC
