import Verif.GraphExtra
import Verif.Pipeline

/-!
`MidiDataset(do_sanity_check=True)`: the processing of the raw files with the self-check of `graphs` in the first pass.
-/

namespace NGC

/-- One raw file of `_mask_per_instrument` with the self-check (midi_dataset.py 460-513; midi_graph_builder.py 1124-1166). The loop over the graphs ends
after one graph (C53); what would be done with it is as without the check. -/
def instFileChecked (env : PyEnv) (o : DataOpts) (keep : PygData → Bool) (rnd : Nat → Nat → List Nat) (st : Builder × List MaskedData) :
    Py (List MSeq) → Py (Builder × List MaskedData)
  | .error .key => .ok st
  | .error e => .error e
  | .ok tracks => do
    let b ← build env st.1 tracks o.build true
    match ← graphsChecked b with
    | none => .ok (b, st.2)
    | some g => .ok ({ b with pyg := [], sub := [] }, addMasked o keep rnd st.2 (if o.skipLabel then { g with label := none } else g))

/-- `process` of a dataset with `do_sanity_check=True` (midi_dataset.py 540-608). The second pass has no check. -/
def processChecked (env : PyEnv) (o : DataOpts) (keep : PygData → Bool) (rnd rnd2 : Nat → Nat → List Nat) (files : List (Py (List MSeq))) :
    Py (SavedSet × SavedSet) := do
  let r1 ← files.foldlM (instFileChecked env o keep rnd) (⟨Tables.empty, [], []⟩, [])
  if r1.2 = [] then .error .index
  else do
    let r2 ← wholePass env o keep rnd2 files (r1.1, [])
    .ok (⟨r1.2, r1.1.tables⟩, ⟨r1.2, r2.1.tables⟩)

end NGC
