# Formal model of spyroot/neural-graph-composer in Lean 4

The Python source in `/repo` is read as text. Every model definition carries a
comment with the file and the lines it models. Modules live in `lean/Verif/`:
for each area `X` there is `X.lean` (the model; no theorems about properties),
where needed `XLemmas.lean`, and `XProps*.lean` (property theorems
`Cnn_*`, each followed by an `example` that shows its hypotheses are met by a
concrete non-trivial case). The vocabulary of the statements that is not Python
is in small `Spec` namespaces next to the theorems; `Spec` definitions do not
use the model's helpers except accessors.

## Conventions

* Python floats are modelled by exact rationals `ℚ` (frequencies and network values by `ℝ` or a
  field). A second set of models redoes the code with every operation rounded to binary64
  (`Float64.lean`): quantizing, split masks and the tick/second conversion (C153-C155), saving (C156),
  the step grid (C158), loading (C160), shifting (C161), velocities (C162), bad files (C165), the
  order of chords (C166), tempo and meter tolerance (C192); these say what rounding changes. All other
  theorems about times are about exact arithmetic. Overflow, NaN and infinities of IEEE doubles are
  not modelled. `round` is half-to-even on exact values, `int()` truncates.
* Exceptions are values: `Py α = Except Err α`; `Err` names the Python exception
  class. A method that mutates `self` returns the new state. When it raises
  after partial mutation the model returns the partially mutated state as well,
  if the property speaks about it.
* Python `int` is `Int` (or `Nat` where the code guarantees non-negativity).
* `bisect` is modelled by its actual binary-search loop, so it is faithful on
  unsorted lists too. `sorted`/`list.sort` with a numeric key is a stable sort
  (`sortByKey`). A sort with a tolerance-based `__lt__` or a comparison function
  is a parameter with a contract: it permutes, and it sorts lists on which the
  comparison is a strict weak order (`IsPySort`, `IsCmpSort`); C144 adds that it is stable
  (`IsTrackSort`, which insertion sort meets).
* Python dicts are association lists in insertion order (`PyDict`); sets are
  duplicate-free lists, and where the code iterates over a set the iteration
  order is a universally quantified input.
* Random numbers, masks, permutations, hash values and the contents of raw files are universally
  quantified inputs.
* Loops without an evident bound run on fuel; the theorems give an `N` such
  that every fuel ≥ `N` gives the same result, or prove non-termination.
  Python's recursion limit appears as a parameter where it matters (`FloatTree`).
* Object identity: `Seq.lean`, `Sequences.lean` and the rest treat notes as
  values. `Heap.lean` models the objects of `MidiNoteSequence` by reference and
  C119 proves when the value view is right. The sharing of event lists between
  instruments while a file is loaded is modelled by references in `PrettyMidi.lean`.
* Where the code does not do what its documentation promises, the property
  states what really holds and a theorem refutes the naive expectation (for all
  inputs where possible, otherwise by a concrete reachable witness).

## Trusted base

* Lean 4.33.0 kernel. `AXIOMS.txt` lists, for every property theorem, the axioms
  it depends on, as printed by `#print axioms` (`tools/axioms.sh` regenerates
  it). Only `propext`, `Quot.sound` and `Classical.choice` occur. No own axioms,
  no `native_decide`, no `bv_decide`.
* The reading of the Python code into the model (this is not machine-checked).
  The mutation log `seeded/LOG.jsonl` tests the theorems, not this reading.
* The behaviour of Python built-ins and library calls as written in
  `Verif/Py.lean`, `Verif/PyDict.lean`, `Verif/PyStr.lean` and in the comments
  of the definitions: `bisect`, `sorted`, `dict`, `round`, `numpy`
  (`interp`, `unique`, `searchsorted`, `diff`, `argmin`, `isclose`,
  `percentile`), `networkx` graphs as weighted edge maps, `torch`
  tensors as lists, `mido` messages as a sum type, and the parts of the
  `pretty_midi` package that `custom_pretty_midi.py` imports.

## What is modelled

| source | model | what |
|--------|-------|------|
| `midi/midi_note.py` | `Note`, `Freq` | constructor, setters, order, overlap, quantization, shift/stretch, copy, dict form, frequency, durations |
| `midi/midi_time_signature.py`, `midi_key_signature.py` | `Signature` | time, key and tempo signatures: validation, conversions, order |
| `midi/midi_instruments.py` (instrument info) | `Instrument` | tables, validation, order, dict form |
| `midi/midi_pitch_bend.py`, `midi_control_change.py` | `Events` | all of it |
| `midi/midi_sequence.py` | `Seq`, `Heap` | all methods except plotting and string output; `Heap` by reference |
| `midi/midi_sequences.py` | `Sequences` | track table, index map, signature tables and lookups, import, trim, truncate |
| `midi/sorted_dict.py`, `sorted_interval_dict.py`, `Interval.py` | `SortedDict` | all of it |
| `interval/*.py` | `FloatTree` | interval, node (AVL), tree |
| `midi_graph_builder.py` | `Graph`, `HashOrder`, `EdgeCheck`, `FromFile`, `GraphGen` | grouping, tolerance, velocities, chord graph, index maps, features, merging, generator, conversion |
| `custom_pretty_midi.py` | `PrettyMidi`, `Times`, `Beats`, `Adjust` | loading, tick tables, tempo map, serialization, time warping, beats, downbeats, tempo estimation |
| `midi_reader.py` | `Reader`, `Writer` | reading a file into sequences; writing |
| `midi_dataset.py` | `Dataset`, `DataCheck`, `RawFiles`, `SelfCheck` | parameters, file names, processing as effects with crash points, masks, hash mapper, sanity checks |
| `ngc_shared.py`, examples | `Shared`, `GaeRuns`, `EndToEnd`, `Pipeline` | checkpoints, metrics, training runs with crashes, whole pipelines |
| `minimum_example_node_classification.py`, `ngc_example02..05` | `Gcn`, `Gin`, `GcnNets`, `GatLstm`, `Trainers` | graph networks, attention, LSTM models, caching, scores, best results of a run |
| `transforms.py` | `Transforms` | node/edge drop, degree |
| `midi/midi_scales.py` | `Scales` | scales, intervals, chord names, pitch names |
| `midi/midi_utils.py`, `utils.py` | `Utils`, `OneHot` | tempo/step/frame conversion, grid quantizers, one-hot, piano roll |

## What is not modelled

* Of the neural networks: initial
  weights, loss, gradients and training mode normalization; plotting, logging, wandb,
  audio synthesis (`fluidsynth`, `synthesize` of
  `custom_pretty_midi.py`), argument parsers and command line drivers.
* The bytes of MIDI files (`mido`) and of `torch.save`; a file is its list of
  tracks of messages, resp. an opaque value that is absent, partial or complete.
* IEEE rounding outside the modules `Float*` and `HashOrder` (which model it for
  tick/time conversion, loading, saving, shifting, velocities, the step grid and the
  order of chords); overflow, NaN, integer overflow of numpy arrays, memory limits.
* Concurrency: the code starts no threads. Interleavings of several generators over one
  builder are modelled (C193), crash points for dataset
  processing (C65, C103), checkpoints (C66, C107) and training runs (C183, C184).

