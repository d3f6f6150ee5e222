import Verif.PyDict
import Verif.PyStr

/-!
Model of `midi_dataset.py`: the hash/index mapper, the checks of the constructor, the train /
validation / test masks, and the processing of raw files into the two processed files, with the
points at which it can be interrupted.

Left out: printing and logging, downloading and copying of raw files, `compute_statistics` (see `DataCheck.lean`),
`has_edge_weights`, `split` (it uses attributes that are never set), the sanity checker (never
called). PyTorch Geometric's `Dataset.__init__` calls `process` exactly when one of the processed
files is missing; that condition is the one of `processed_file_exists`.
-/

namespace NGC

/-! ### NodeHashIndexMapper -/

/-- `NodeHashIndexMapper` (midi_dataset.py 20-24). -/
structure Mapper (K : Type) where
  toIndex : List (K × Nat)
  toHash : List (Nat × K)
  current : Nat

/-- `__init__` (midi_dataset.py 21-24). -/
def Mapper.empty {K : Type} : Mapper K := ⟨[], [], 0⟩

section
variable {K : Type} [DecidableEq K]

/-- `add_node_hash` (midi_dataset.py 30-34). -/
def Mapper.add (m : Mapper K) (h : K) : Mapper K :=
  if dhas m.toIndex h then m
  else ⟨dset m.toIndex h m.current, dset m.toHash m.current h, m.current + 1⟩

/-- `merge_with` (midi_dataset.py 26-28): the keys of the other mapper in insertion order. -/
def Mapper.merge (m other : Mapper K) : Mapper K := (dkeys other.toIndex).foldl Mapper.add m

/-- `get_index` (midi_dataset.py 36-37). -/
def Mapper.getIndex (m : Mapper K) (h : K) : Py Nat :=
  match dget m.toIndex h with
  | some i => .ok i
  | none => .error .key

/-- `get_node_hash` (midi_dataset.py 39-40). -/
def Mapper.getHash (m : Mapper K) (i : Nat) : Py K :=
  match dget m.toHash i with
  | some h => .ok h
  | none => .error .key

end

/-! ### Constructor checks -/

/-- The numeric arguments of `MidiDataset.__init__` (midi_dataset.py 50-70). -/
structure DataArgs where
  train : ℚ := 7/10
  val : ℚ := 15/100
  featureSize : Option Int := some 12
  buckets : Option Int := some 8

/-- The range checks (midi_dataset.py 168-184), in their order. Type checks are left out. -/
def DataArgs.check (a : DataArgs) : Py Unit :=
  if ¬ (0 ≤ a.train ∧ a.train ≤ 1) then .error .value
  else if ¬ (0 ≤ a.val ∧ a.val ≤ 1) then .error .value
  else if a.train + a.val > 1 then .error .value
  else if (match a.featureSize with | some f => decide (f < 1 ∨ f > 128) | none => false) then .error .value
  else if (match a.buckets with | some b => decide (b < 1) | none => false) then .error .value
  else .ok ()

/-! ### Masks -/

/-- `mask = zeros(n); mask[idx] = True` (midi_dataset.py 497-505). -/
def maskOf (n : Nat) (idx : List Nat) : List Bool := (List.range n).map (fun j => decide (j ∈ idx))

/-- Train, validation and test mask for a permutation of the nodes (midi_dataset.py 489-505 and
651-667). The products of ratio and number of nodes are exact rationals here; Python rounds them to
floats first. -/
def splitMasks (train val : ℚ) (n : Nat) (perm : List Nat) : List Bool × List Bool × List Bool :=
  let a := (pyInt (train * n)).toNat
  let b := (pyInt (val * n)).toNat
  (maskOf n (perm.take a), maskOf n ((perm.drop a).take b), maskOf n (perm.drop (a + b)))

/-! ### Processing -/

/-- What reading and building one raw file does: the graphs handed out one by one, and the exception
that ends it, if any. -/
structure Produced (G : Type) where
  graphs : List G
  stop : Option Err

/-- `_mask_per_instrument` without the masks (midi_dataset.py 451-513): graphs handed out before a
KeyError are kept and the next file is read; other exceptions end the run. `keep` is `pre_filter`,
`f` the masks and `pre_transform`. -/
def passInst {G : Type} (keep : G → Bool) (f : G → G) : List (Produced G) → Py (List G)
  | [] => .ok []
  | p :: ps =>
    match p.stop with
    | none | some .key => do
      let more ← passInst keep f ps
      .ok ((p.graphs.filter keep).map f ++ more)
    | some e => .error e

/-- `_mask_entire_graph` (midi_dataset.py 610-670): only the first graph of a file is used;
`next` of an exhausted generator raises StopIteration; KeyError and FileNotFoundError skip the
file. -/
def passWhole {G : Type} (keep : G → Bool) (f : G → G) : List (Produced G) → Py (List G)
  | [] => .ok []
  | p :: ps =>
    match p.graphs, p.stop with
    | g :: _, _ => do
      let more ← passWhole keep f ps
      .ok ((if keep g then [f g] else []) ++ more)
    | [], none => .error .stopIteration
    | [], some .key => passWhole keep f ps
    | [], some .fileNotFound => passWhole keep f ps
    | [], some e => .error e

/-! ### Processed files -/

/-- The settings that appear in the names of the processed files. `tol` is `str(tolerance)`. -/
structure FileKey where
  vel : Bool
  size : Option Nat
  tol : List Char

/-- The common tail of both names (midi_dataset.py 376-387). -/
def FileKey.tail (k : FileKey) : List Char :=
  "vel_".toList ++ (if k.vel then "True".toList else "False".toList) ++ "_feature_size_".toList ++
    (match k.size with | some n => decStr n | none => "None".toList) ++ "_tolerance_".toList ++
    k.tol ++ ".pt".toList

/-- `processed_file_names[0]` (midi_dataset.py 380-383). -/
def FileKey.inst (k : FileKey) : List Char := "per_instrument_".toList ++ k.tail

/-- `processed_file_names[1]` (midi_dataset.py 384-387). -/
def FileKey.whole (k : FileKey) : List Char := "data_".toList ++ k.tail

/-- What a processed file holds: the collated graphs and the tables, or the beginning of such a
file, left by a `torch.save` that did not finish. -/
inductive Content (G T : Type) where
  | torn
  | full (data : List G) (tables : T)

/-- The processed directory: file name to content. -/
def Dir (G T : Type) := List Char → Option (Content G T)

/-- An empty processed directory. -/
def Dir.empty {G T : Type} : Dir G T := fun _ => none

/-- One effect on the directory. -/
def Dir.put {G T : Type} (d : Dir G T) (name : List Char) (c : Content G T) : Dir G T :=
  fun n => if n = name then some c else d n

/-- Everything a call of the constructor depends on besides the directory: the settings in the file
names, `per_instrument_graph`, what each raw file produces in the two passes, the filter, the
masks/transform of each graph and the builder's tables at the two times they are read. Ratios, raw
files and buckets appear only through `inst`, `whole` and `f`. -/
structure Run (G T : Type) where
  key : FileKey
  perInst : Bool
  inst : List (Produced G)
  whole : List (Produced G)
  keep : G → Bool
  f : G → G
  tables1 : T
  tables2 : T

/-- One write to the directory: `torch.save` creates the file (first step) and completes it (second
step). -/
structure Write (G T : Type) where
  name : List Char
  content : Content G T

/-- The writes of `process` in order, and the exception that ends it, if any (midi_dataset.py
540-608). `collate` of an empty list raises IndexError. The second file is written with the `_data`
and `_slices` of the first pass. -/
def Run.plan {G T : Type} (r : Run G T) : List (Write G T) × Option Err :=
  match passInst r.keep r.f r.inst with
  | .error e => ([], some e)
  | .ok [] => ([], some .index)
  | .ok (g :: gs) =>
    let first := [⟨r.key.inst, .torn⟩, ⟨r.key.inst, .full (g :: gs) r.tables1⟩]
    match passWhole r.keep r.f r.whole with
    | .error e => (first, some e)
    | .ok _ => (first ++ [⟨r.key.whole, .torn⟩, ⟨r.key.whole, .full (g :: gs) r.tables2⟩], none)

/-- The directory after some writes. -/
def Dir.apply {G T : Type} (d : Dir G T) (ws : List (Write G T)) : Dir G T :=
  ws.foldl (fun d w => d.put w.name w.content) d

/-- `processed_file_exists` (midi_dataset.py 354-374), also the test PyTorch Geometric makes before
calling `process`: both files are there. -/
def Dir.ready {G T : Type} (d : Dir G T) (k : FileKey) : Bool :=
  (d k.inst).isSome && (d k.whole).isSome

/-- `load_processed` (midi_dataset.py 291-327): the file is chosen by `per_instrument_graph`. A file
that is only begun makes `torch.load` raise; the exact class is not modelled. -/
def Run.load {G T : Type} (r : Run G T) (d : Dir G T) : Py (List G × T) :=
  match d (if r.perInst then r.key.inst else r.key.whole) with
  | none => .error .fileNotFound
  | some .torn => .error .runtime
  | some (.full data t) => .ok (data, t)

/-- The whole constructor after its checks (midi_dataset.py 243-262): process when a file is
missing, then load. The directory afterwards and the result. -/
def Run.construct {G T : Type} (r : Run G T) (d : Dir G T) : Dir G T × Py (List G × T) :=
  if d.ready r.key then (d, r.load d)
  else
    let d' := d.apply r.plan.1
    match r.plan.2 with
    | some e => (d', .error e)
    | none => (d', r.load d')

/-- The directory left when the process dies after `n` of its writes. -/
def Run.crash {G T : Type} (r : Run G T) (n : Nat) (d : Dir G T) : Dir G T :=
  if d.ready r.key then d else d.apply (r.plan.1.take n)

/-- Directories that a history of finished and interrupted constructor calls can leave, starting from
an empty one. -/
inductive Reachable {G T : Type} : Dir G T → Prop
  | empty : Reachable Dir.empty
  | finish (r : Run G T) {d : Dir G T} : Reachable d → Reachable (r.construct d).1
  | crash (r : Run G T) (n : Nat) {d : Dir G T} : Reachable d → Reachable (r.crash n d)

end NGC
