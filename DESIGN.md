# Formal model of spyroot/neural-graph-composer in Lean 4

The Python source in `/repo` is read as text. Every model definition carries a
comment with the file and the lines it models. Modules live in `lean/Verif/`:
for each area `X` there is `X.lean` (the model; no theorems about properties),
where needed `XLemmas.lean`, and `XProps*.lean` (property theorems
`Cnn_*`, each followed by an `example` that shows its hypotheses are met by a
concrete non-trivial case). The vocabulary of the statements that is not Python
is in small `Spec` namespaces next to the theorems; `Spec` definitions do not
use the model's helpers except accessors.

## Conventions

* Python floats are modelled by exact rationals `ℚ` (frequencies and network values by `ℝ` or a
  field). A second set of models redoes the code with every operation rounded to binary64
  (`Float64.lean`): quantizing, split masks and the tick/second conversion (C153-C155), saving (C156),
  the step grid (C158), loading (C160), shifting (C161), velocities (C162), bad files (C165), the
  order of chords (C166), tempo and meter tolerance (C192); these say what rounding changes. All other
  theorems about times are about exact arithmetic. Overflow, NaN and infinities of IEEE doubles are
  not modelled. `round` is half-to-even on exact values, `int()` truncates.
* Exceptions are values: `Py α = Except Err α`; `Err` names the Python exception
  class. A method that mutates `self` returns the new state. When it raises
  after partial mutation the model returns the partially mutated state as well,
  if the property speaks about it.
* Python `int` is `Int` (or `Nat` where the code guarantees non-negativity).
* `bisect` is modelled by its actual binary-search loop, so it is faithful on
  unsorted lists too. `sorted`/`list.sort` with a numeric key is a stable sort
  (`sortByKey`). A sort with a tolerance-based `__lt__` or a comparison function
  is a parameter with a contract: it permutes, and it sorts lists on which the
  comparison is a strict weak order (`IsPySort`, `IsCmpSort`); C144 adds that it is stable
  (`IsTrackSort`, which insertion sort meets).
* Python dicts are association lists in insertion order (`PyDict`); sets are
  duplicate-free lists, and where the code iterates over a set the iteration
  order is a universally quantified input.
* Random numbers, masks, permutations, hash values and the contents of raw files are universally
  quantified inputs.
* Loops without an evident bound run on fuel; the theorems give an `N` such
  that every fuel ≥ `N` gives the same result, or prove non-termination.
  Python's recursion limit appears as a parameter where it matters (`FloatTree`).
* Object identity: `Seq.lean`, `Sequences.lean` and the rest treat notes as
  values. `Heap.lean` models the objects of `MidiNoteSequence` by reference and
  C119 proves when the value view is right. The sharing of event lists between
  instruments while a file is loaded is modelled by references in `PrettyMidi.lean`.
* Where the code does not do what its documentation promises, the property
  states what really holds and a theorem refutes the naive expectation (for all
  inputs where possible, otherwise by a concrete reachable witness).

## Trusted base

* Lean 4.33.0 kernel. `AXIOMS.txt` lists, for every property theorem, the axioms
  it depends on, as printed by `#print axioms` (`tools/axioms.sh` regenerates
  it). Only `propext`, `Quot.sound` and `Classical.choice` occur. No own axioms,
  no `native_decide`, no `bv_decide`.
* The reading of the Python code into the model (this is not machine-checked).
  The mutation log `seeded/LOG.jsonl` tests the theorems, not this reading.
* The behaviour of Python built-ins and library calls as written in
  `Verif/Py.lean`, `Verif/PyDict.lean`, `Verif/PyStr.lean` and in the comments
  of the definitions: `bisect`, `sorted`, `dict`, `round`, `numpy`
  (`interp`, `unique`, `searchsorted`, `diff`, `argmin`, `isclose`,
  `percentile`), `networkx` graphs as weighted edge maps, `torch`
  tensors as lists, `mido` messages as a sum type, and the parts of the
  `pretty_midi` package that `custom_pretty_midi.py` imports.

## What is modelled

| source | model | what |
|--------|-------|------|
| `midi/midi_note.py` | `Note`, `Freq` | constructor, setters, order, overlap, quantization, shift/stretch, copy, dict form, frequency, durations |
| `midi/midi_time_signature.py`, `midi_key_signature.py` | `Signature` | time, key and tempo signatures: validation, conversions, order |
| `midi/midi_instruments.py` (instrument info) | `Instrument` | tables, validation, order, dict form |
| `midi/midi_pitch_bend.py`, `midi_control_change.py` | `Events` | all of it |
| `midi/midi_sequence.py` | `Seq`, `Heap` | all methods except plotting and string output; `Heap` by reference |
| `midi/midi_sequences.py` | `Sequences` | track table, index map, signature tables and lookups, import, trim, truncate |
| `midi/sorted_dict.py`, `sorted_interval_dict.py`, `Interval.py` | `SortedDict` | all of it |
| `interval/*.py` | `FloatTree` | interval, node (AVL), tree |
| `midi_graph_builder.py` | `Graph`, `HashOrder`, `EdgeCheck`, `FromFile`, `GraphGen` | grouping, tolerance, velocities, chord graph, index maps, features, merging, generator, conversion |
| `custom_pretty_midi.py` | `PrettyMidi`, `Times`, `Beats`, `Adjust` | loading, tick tables, tempo map, serialization, time warping, beats, downbeats, tempo estimation |
| `midi_reader.py` | `Reader`, `Writer` | reading a file into sequences; writing |
| `midi_dataset.py` | `Dataset`, `DataCheck`, `RawFiles`, `SelfCheck` | parameters, file names, processing as effects with crash points, masks, hash mapper, sanity checks |
| `ngc_shared.py`, examples | `Shared`, `GaeRuns`, `EndToEnd`, `Pipeline` | checkpoints, metrics, training runs with crashes, whole pipelines |
| `minimum_example_node_classification.py`, `ngc_example02..05` | `Gcn`, `Gin`, `GcnNets`, `GatLstm`, `Trainers` | graph networks, attention, LSTM models, caching, scores, best results of a run |
| `transforms.py` | `Transforms` | node/edge drop, degree |
| `midi/midi_scales.py` | `Scales` | scales, intervals, chord names, pitch names |
| `midi/midi_utils.py`, `utils.py` | `Utils`, `OneHot` | tempo/step/frame conversion, grid quantizers, one-hot, piano roll |

## What is not modelled

* Of the neural networks: initial
  weights, loss, gradients and training mode normalization; plotting, logging, wandb,
  audio synthesis (`fluidsynth`, `synthesize` of
  `custom_pretty_midi.py`), argument parsers and command line drivers.
* The bytes of MIDI files (`mido`) and of `torch.save`; a file is its list of
  tracks of messages, resp. an opaque value that is absent, partial or complete.
* IEEE rounding outside the modules `Float*` and `HashOrder` (which model it for
  tick/time conversion, loading, saving, shifting, velocities, the step grid and the
  order of chords); overflow, NaN, integer overflow of numpy arrays, memory limits.
* Concurrency: the code starts no threads. Interleavings of several generators over one
  builder are modelled (C193), crash points for dataset
  processing (C65, C103), checkpoints (C66, C107) and training runs (C183, C184).

## Property by property

| id | property | model | theorems in | how it is proved |
|---|---|---|---|---|
| C01 | Constructed notes are in range | Note, Freq | NoteProps | case analysis on branches, linear arithmetic on ℚ, induction over setter histories; false parts by counterexample |
| C02 | Checked setters never break a note | Note, Freq | NoteProps, NoteExtraProps | case analysis on branches, linear arithmetic on ℚ, induction over setter histories; false parts by counterexample |
| C03 | Copying a note reproduces it | Note, Freq | NoteProps | case analysis on branches, linear arithmetic on ℚ, induction over setter histories; false parts by counterexample |
| C04 | Note equality is a reflexive and symmetric tolerance relation | Note, Freq | NoteProps | case analysis on branches, linear arithmetic on ℚ, induction over setter histories; false parts by counterexample |
| C05 | Notes can be ordered | Note, Freq | NoteProps | case analysis on branches, linear arithmetic on ℚ, induction over setter histories; false parts by counterexample |
| C06 | overlaps is exactly time overlap | Note, Freq | NoteProps | case analysis on branches, linear arithmetic on ℚ, induction over setter histories; false parts by counterexample |
| C07 | Step rounding stays within one step and is monotone | Note, Freq | NoteProps | case analysis on branches, linear arithmetic on ℚ, induction over setter histories; false parts by counterexample |
| C08 | Quantizing a fresh note always succeeds and leaves a valid quantized note | Note, Freq | NoteProps | case analysis on branches, linear arithmetic on ℚ, induction over setter histories; false parts by counterexample |
| C09 | Quantization is idempotent on the grid | Note, Freq | NoteProps | case analysis on branches, linear arithmetic on ℚ, induction over setter histories; false parts by counterexample |
| C10 | Shifting and stretching act linearly | Note, Freq | NoteProps | case analysis on branches, linear arithmetic on ℚ, induction over setter histories; false parts by counterexample |
| C11 | Pitch frequency is equal-tempered around A4 = 440 | Note, Freq | Freq | case analysis on branches, linear arithmetic on ℚ, induction over setter histories; false parts by counterexample |
| C12 | A note survives its dictionary form | Note, Freq | NoteProps | case analysis on branches, linear arithmetic on ℚ, induction over setter histories; false parts by counterexample |
| C13 | Tempo conversions are mutually inverse and positive | Signature | SignatureProps | algebra on ℚ, case analysis of the checks |
| C14 | Time signatures are validated and measure length is right | Signature | SignatureProps | algebra on ℚ, case analysis of the checks |
| C15 | Instrument info is validated, ordered and round-trips | Instrument | InstrumentProps | evaluation of the whole finite table, lifted to all numbers |
| C16 | Pitch bends are validated | Events | EventsProps | case analysis; induction over setter histories |
| C17 | Control changes are clamped and copyable | Events | EventsProps | case analysis; induction over setter histories |
| C18 | Control changes can be quantized | Events | EventsProps | case analysis; induction over setter histories |
| C19 | total_time bounds every note after any history | Seq | SeqProps | induction over operation histories, list lemmas (permutations, filters, folds) |
| C20 | add_note adds exactly the note | Seq | SeqProps | induction over operation histories, list lemmas (permutations, filters, folds) |
| C21 | merge is a sorted multiset union | Seq | SeqProps | induction over operation histories, list lemmas (permutations, filters, folds) |
| C22 | insert keeps a sorted sequence sorted | Seq | SeqProps | induction over operation histories, list lemmas (permutations, filters, folds) |
| C23 | truncate keeps exactly the notes ending by the bound | Seq | SeqProps | induction over operation histories, list lemmas (permutations, filters, folds) |
| C24 | slice returns the notes of a window clipped to it | Seq | SeqProps | induction over operation histories, list lemmas (permutations, filters, folds) |
| C25 | shift_times shifts everything | Seq | SeqProps | induction over operation histories, list lemmas (permutations, filters, folds) |
| C26 | extract partitions notes into windows | Seq | SeqProps2 | induction over operation histories, list lemmas (permutations, filters, folds) |
| C27 | clone is a faithful deep copy | Seq | SeqProps2 | induction over operation histories, list lemmas (permutations, filters, folds) |
| C28 | Sequences of one instrument can be added | Seq | SeqProps2 | induction over operation histories, list lemmas (permutations, filters, folds) |
| C29 | Quantizing a sequence quantizes every note | Seq | SeqProps2 | induction over operation histories, list lemmas (permutations, filters, folds) |
| C30 | Split interval boundaries are increasing | Seq | SeqProps2 | induction over operation histories, list lemmas (permutations, filters, folds) |
| C31 | calculate_min_step is the least gap | Seq | SeqProps2 | induction over operation histories, list lemmas (permutations, filters, folds) |
| C32 | Track access is stable | Sequences | SequencesProps, BadFileProps | invariants over histories of track operations |
| C33 | Iteration over tracks is in strictly increasing index order | Sequences | SequencesProps | invariants over histories of track operations |
| C34 | Signature lists stay sorted by time | Sequences | SigTableProps | invariant of the bisect insertion, loop invariant of the lookup |
| C35 | Signature lookup returns the signature in force | Sequences | SigTableProps | invariant of the bisect insertion, loop invariant of the lookup |
| C36 | Importing sequences keeps every note | Sequences | SequencesProps | induction over the imported list / the tracks |
| C37 | is_quantized, trim and truncate act on the tracks | Sequences | SequencesProps | induction over the imported list / the tracks |
| C38 | SortedDict is a map with sorted iteration | SortedDict | SortedDictProps | refinement to a finite map |
| C39 | SortedIntervalDict slice lookup returns overlapping intervals | SortedDict | SortedDictProps | refinement to a finite map |
| C40 | Closed-interval algebra | SortedDict | SortedDictProps | set semantics on ℤ |
| C41 | Interval tree set semantics | FloatTree | FloatTreeProps | representation invariant of set, boundary table and AVL tree, induction over histories and trees |
| C42 | The search tree holds exactly the stored intervals | FloatTree | FloatTreeProps | representation invariant of set, boundary table and AVL tree, induction over histories and trees |
| C43 | Removing a stored interval succeeds | FloatTree | FloatTreeProps | representation invariant of set, boundary table and AVL tree, induction over histories and trees |
| C44 | Point and range queries are correct | FloatTree | FloatTreeProps | representation invariant of set, boundary table and AVL tree, induction over histories and trees |
| C45 | Grouping notes by time loses nothing | Graph | GraphProps2 | folds with invariants, dictionary lemmas |
| C46 | Velocity rescaling stays in range and is monotone | Graph | GraphProps2 | folds with invariants, dictionary lemmas |
| C47 | Edge weights count transitions | Graph | GraphProps | folds with invariants, dictionary lemmas |
| C48 | Edges follow playing order | Graph | GraphProps, GraphProps2 | folds with invariants, dictionary lemmas |
| C49 | Chord index maps are mutually inverse | Graph | GraphProps3 | folds with invariants, dictionary lemmas |
| C50 | Every node of a built graph is complete | Graph | GraphProps3 | folds with invariants, dictionary lemmas |
| C51 | Feature vectors have the requested size | Graph | GraphProps2 | folds with invariants, dictionary lemmas |
| C52 | merge_nodes preserves connectivity | Graph | GraphProps4 | folds with invariants, dictionary lemmas |
| C53 | graphs() yields every built graph | Graph | GraphProps3 | folds with invariants, dictionary lemmas |
| C54 | Wide chords are split without loss | Graph | GraphProps2 | folds with invariants, dictionary lemmas |
| C55 | Delta and absolute ticks round-trip | PrettyMidi | PrettyMidiProps, PrettyMidiProps3 | induction on the track |
| C56 | The tick table is strictly increasing and piecewise linear | PrettyMidi | PrettyMidiProps, PrettyMidiProps4 | tick table = closed form; binary search invariant |
| C57 | time_to_tick inverts tick_to_time | PrettyMidi | PrettyMidiProps | tick table = closed form; binary search invariant |
| C58 | Notes of a loaded file are determined exactly, one per note-on that is closed | PrettyMidi | PrettyMidiProps2, PrettyMidiProps7 | simulation of the loading loop by a declarative pairing of note-ons and note-offs |
| C59 | Serialized events are ordered | PrettyMidi | PrettyMidiProps3 | comparator is a strict weak order on classes; fold invariant |
| C60 | Tempo map loading | PrettyMidi | PrettyMidiProps | comparator is a strict weak order on classes; fold invariant |
| C61 | Which notes of a file are read | Reader | ReaderProps3 | induction over instruments and events; finite table |
| C62 | Key signatures round-trip through reader and writer | Reader | ReaderProps3 | induction over instruments and events; finite table |
| C63 | Hash-index mapper is a bijection under any history | Dataset | DatasetProps | invariants of add/merge trees; list lemmas |
| C64 | Train/val/test masks partition the nodes | Dataset | DatasetProps | invariants of add/merge trees; list lemmas |
| C65 | Interrupted processing and the contents of the processed files | Dataset | DatasetProps2 | state machine with a crash after any prefix of the effects |
| C66 | Resuming continues after the newest checkpoint | Shared | SharedProps | histories of saves and loads; decimal text round trip |
| C67 | What removing nodes does to a graph | Transforms | TransformsProps | list lemmas on edge lists |
| C68 | Scale notes are transposition-consistent | Scales | ScalesProps | finite tables lifted by lemma; modular arithmetic |
| C69 | Compound intervals reduce and rebuild | Scales | ScalesProps | finite tables lifted by lemma; modular arithmetic |
| C70 | Pitch names round-trip | Scales | ScalesProps | finite tables lifted by lemma; modular arithmetic |
| C71 | Chord naming is consistent with the chord table | Scales | ScalesProps | finite tables lifted by lemma; modular arithmetic |
| C72 | Tempo and step conversions | Utils | UtilsProps | ℚ arithmetic, floor/round lemmas |
| C73 | Grid quantization returns the nearest grid line | Utils | UtilsProps | ℚ arithmetic, floor/round lemmas |
| C74 | Frame conversion covers the note | Utils | UtilsProps | ℚ arithmetic, floor/round lemmas |
| C75 | One-hot encodings have one hot entry | OneHot | OneHotProps | list lemmas |
| C76 | Random edge drop only removes edges | Transforms | TransformsProps | sublist lemmas |
| C77 | PPQ to QPM follows the tempo | Signature | SignatureProps | algebra; order axioms |
| C78 | Signatures are ordered by time | Signature | SignatureProps | algebra; order axioms |
| C79 | Every controller number has a name | Events | EventsProps | whole finite table |
| C80 | cut keeps a prefix of the notes | Seq | SeqProps | list lemmas |
| C81 | SortedDict can be built from a mapping and cleared | SortedDict | SortedDictProps | refinement to a finite map |
| C82 | Signatures added at the same time keep the order received | Sequences | SigTableProps | invariants over histories |
| C83 | An assigned track is read back | Sequences | SequencesProps | invariants over histories |
| C84 | The tolerance argument controls grouping | Graph | GraphProps2 | folds with invariants; refutations for all inputs |
| C85 | Connectivity queries follow playing direction | Graph | GraphProps3 | folds with invariants; refutations for all inputs |
| C86 | Every valid chord can be one-hot encoded | Graph | GraphProps2 | folds with invariants; refutations for all inputs |
| C87 | Relative velocity scaling | Graph | GraphProps2 | folds with invariants; refutations for all inputs |
| C88 | The automatic tolerance lies within the observed gaps | Graph | GraphProps2, FeatureProps | folds with invariants; refutations for all inputs |
| C89 | Conversion to the learning format keeps the graph | Graph | GraphProps3 | folds with invariants; refutations for all inputs |
| C90 | Every melodic track is represented in the built graphs | Graph | GraphProps3 | folds with invariants; refutations for all inputs |
| C91 | Interval tree stays balanced | FloatTree | FloatTreeProps2 | AVL height invariant; order lemmas; set algebra |
| C92 | Intervals are strictly totally ordered | FloatTree | FloatTreeProps3 | AVL height invariant; order lemmas; set algebra |
| C93 | Interval relations | FloatTree | FloatTreeProps3 | AVL height invariant; order lemmas; set algebra |
| C94 | Bulk tree operations | FloatTree | FloatTreeProps3 | AVL height invariant; order lemmas; set algebra |
| C95 | The tempo map survives writing and reading | PrettyMidi | PrettyMidiProps4, PrettyMidiProps6 | composition of serialize and load: each stage has an exact description, then permutations of events |
| C96 | Notes survive writing and reading | PrettyMidi | PrettyMidiProps5 | composition of serialize and load: each stage has an exact description, then permutations of events |
| C97 | Signatures and lyrics survive writing and reading | PrettyMidi | PrettyMidiProps5 | composition of serialize and load: each stage has an exact description, then permutations of events |
| C98 | Which loaded instruments hold a control change or pitch bend | PrettyMidi | PrettyMidiProps6, PrettyMidiProps8 | composition of serialize and load: each stage has an exact description, then permutations of events |
| C99 | Tempo changes in seconds and quarter notes per minute | PrettyMidi, Reader | ReaderProps2 | exact lists; end to end composition of C56, C58, C60, C61 |
| C100 | Which pitch bends and control changes are read | PrettyMidi, Reader | ReaderProps3 | exact lists; end to end composition of C56, C58, C60, C61 |
| C101 | Tempo and time signatures of a file are read | PrettyMidi, Reader | ReaderProps3 | exact lists; end to end composition of C56, C58, C60, C61 |
| C102 | Reading a whole file yields exactly its notes | PrettyMidi, Reader | ReaderProps4 | exact lists; end to end composition of C56, C58, C60, C61 |
| C103 | Accepted dataset parameters | Dataset | DatasetProps | case analysis; injectivity of file names; induction over raw files |
| C104 | Processed file names identify the settings | Dataset | DatasetProps2 | case analysis; injectivity of file names; induction over raw files |
| C105 | Existing processed files win over arguments | Dataset | DatasetProps2 | case analysis; injectivity of file names; induction over raw files |
| C106 | Which graphs a dataset holds | Dataset | DatasetProps2 | case analysis; injectivity of file names; induction over raw files |
| C107 | Broken checkpoint files stop resuming | Shared | SharedProps | histories with interrupted saves |
| C108 | What metrics files hold | Shared | SharedProps | histories with interrupted saves |
| C109 | Degree feature | Transforms | TransformsProps | counting lemma |
| C110 | Constructing and extending a sequence | Seq, Note, Events, Sequences, Dataset, Graph | ExtraProps | case analysis and list lemmas |
| C111 | Note durations | Seq, Note, Events, Sequences, Dataset, Graph | ExtraProps | case analysis and list lemmas |
| C112 | Order and shift of events | Seq, Note, Events, Sequences, Dataset, Graph | ExtraProps | case analysis and list lemmas |
| C113 | What signature lookups report | Seq, Note, Events, Sequences, Dataset, Graph | ExtraProps | case analysis and list lemmas |
| C114 | Track container checks and counts | Seq, Note, Events, Sequences, Dataset, Graph | ExtraProps | case analysis and list lemmas |
| C115 | Sizes of dataset splits | Seq, Note, Events, Sequences, Dataset, Graph | ExtraProps | case analysis and list lemmas |
| C116 | Argument checks of graph building | Seq, Note, Events, Sequences, Dataset, Graph | ExtraProps | case analysis and list lemmas |
| C117 | A clone or truncated copy is isolated | Heap | HeapProps, HeapProps2 | frame lemmas for every heap operation, induction over arbitrary client programs, refinement to Seq |
| C118 | What sequences share | Heap | HeapProps2 | frame lemmas for every heap operation, induction over arbitrary client programs, refinement to Seq |
| C119 | Treating notes as values is right while no note is shared | Heap | HeapProps3 | frame lemmas for every heap operation, induction over arbitrary client programs, refinement to Seq |
| C120 | Time warping keeps notes in order | Times | TimesProps | monotonicity of interpolation; induction on the event lists |
| C121 | Time warping keeps what is in force | Times | TimesProps | monotonicity of interpolation; induction on the event lists |
| C122 | Tempo estimates and end time | Times | TimesProps2 | monotonicity of interpolation; induction on the event lists |
| C123 | Beats follow tempo and metre | Beats | BeatsProps2 | loop invariant of the beat walk; termination bound; exact strides |
| C124 | Downbeats are the first beats of bars | Beats | DownbeatsProps | loop invariant of the beat walk; termination bound; exact strides |
| C125 | Time warping keeps notes on their ticks | Adjust, Times | AdjustProps2 | induction over the zones: the new tempi describe the moved tick lengths, then induction over the scale loop |
| C126 | Time warping keeps the metre | Adjust, Times | AdjustProps2 | induction over the zones: the new tempi describe the moved tick lengths, then induction over the scale loop |
| C127 | When a song can be written | Writer, Reader, Adjust | WriterProps | inversion of the run (each step of a successful run must succeed); the track loop by induction with the invariant that every indexed track is empty |
| C128 | What notes and events are written | Writer, Times, Adjust | WriterProps2 | inversion of the run, then C120 on the two-point map; stable sorting commutes with filtering for the events |
| C129 | The tempo map that is written | Writer, Adjust | WriterProps3, WriterProps4 | induction over the tempo list: the time table is always [0], so only the last entry counts |
| C130 | Songs with a constant tempo can be written | Writer, Adjust, Beats | WriterProps4, WriterProps5 | termination of the beat walk (C123, C124) and totality of every step, then C128; stable sorting and `in force` lemmas for the signatures |
| C131 | Reading a file and writing it again | Reader, Writer | WriterProps6 | composition of C61, C62, C100, C101 with C128 and C130 |
| C132 | Interval tree: set algebra in place | FloatTree, FloatTree2 | FloatTreeProps4 | induction over histories with the tree invariant (C41–C44): which intervals are stored and whether nodes are left |
| C133 | Interval tree: searching, cutting, self-check and joining | FloatTree, FloatTree2 | FloatTreeProps4 | induction over histories with the tree invariant (C41–C44): which intervals are stored and whether nodes are left |
| C134 | Traversal of a graph, nearest node first | Traverse | TraverseProps | loop invariant of the queue (visited nodes closed, queue holds walk lengths), induction over walks |
| C135 | Piano roll, chroma and pitch classes of a piece | Analysis | AnalysisProps | finite sums, induction over the list of instruments and over suffixes of a melody |
| C136 | Graph builder: neighbours of a chord, connecting instruments | Graph, GraphExtra | GraphProps5 | invariants of the build loop (C45–C54), induction over histories of builds |
| C137 | Graph builder: settings given to the constructor | Graph, GraphExtra | GraphProps5 | invariants of the build loop (C45–C54), induction over histories of builds |
| C138 | Graph builder: self-check while iterating | Graph, GraphExtra | GraphProps5 | invariants of the build loop (C45–C54), induction over histories of builds |
| C139 | Which trainers can be constructed | Trainers | TrainersProps | case analysis; counting over classes; induction over the epochs |
| C140 | Scores of an evaluated batch | Trainers | TrainersProps | case analysis; counting over classes; induction over the epochs |
| C141 | Result of a training run | Trainers | TrainersProps | case analysis; counting over classes; induction over the epochs |
| C142 | Beats, steps and eighth notes | NoteExtra | NoteExtraProps | arithmetic of floor and logarithm-free frequency bounds; structural induction over documents |
| C143 | Decoding notes from JSON | NoteExtra | NoteExtraProps | arithmetic of floor and logarithm-free frequency bounds; structural induction over documents |
| C144 | Instruments survive writing and reading | PrettyMidi | PrettyMidiProps10 | simulation of the reader over the merged written track: each voice of an instrument is a subsequence of the file |
| C145 | Saving a sequence and reading it back | Save | SaveProps | C144 composed with C61 and C102: a written file satisfies the reader's conditions, its notes end in order |
| C146 | Tempo, end, resolution and order of a sequence | SeqExtra | SeqExtraProps | memo tables: a remembered entry is kept by every later step; track tables: the invariant of C32 kept by set_sequence too |
| C147 | Replacing a track, listing instruments, opening a file | SeqExtra | SeqExtraProps | memo tables: a remembered entry is kept by every later step; track tables: the invariant of C32 kept by set_sequence too |
| C148 | A dataset from its raw files | Pipeline | PipelineProps3 | the log of all chords met: an invariant of the loop over files ties the builder's tables to the order of first appearance in the log; labels of earlier graphs stay right because the log only grows at its end |
| C149 | When processing succeeds and what the two files hold | Pipeline | PipelineProps3, OptionFreeProps | the log of all chords met: an invariant of the loop over files ties the builder's tables to the order of first appearance in the log; labels of earlier graphs stay right because the log only grows at its end |
| C150 | Raw files of a dataset: which, and copying them | RawFiles | RawFilesProps | induction over the list of files with the disk generalised; for C152 the state of object 0 after any history is computed by a fold over the accesses to it |
| C151 | Constructing a dataset again | RawFiles | RawFilesProps | induction over the list of files with the disk generalised; for C152 the state of object 0 after any history is computed by a fold over the accesses to it |
| C152 | Numbers of graphs taken from a dataset and its subsets | RawFiles | RawFilesProps | induction over the list of files with the disk generalised; for C152 the state of object 0 after any history is computed by a fold over the accesses to it |
| C153 | Quantizing with floating-point rounding | Float64, FloatOps, FloatClockProps | FloatOpsProps | a rounding function on the rationals with its error bound, monotonicity and fixed points; relative errors counted in roundings; for the tick table induction over the tempo map with the float time of its start generalised |
| C154 | Split masks with floating-point rounding | Float64, FloatOps, FloatClockProps | FloatOpsProps | a rounding function on the rationals with its error bound, monotonicity and fixed points; relative errors counted in roundings; for the tick table induction over the tempo map with the float time of its start generalised |
| C155 | Ticks and seconds with floating-point rounding | Float64, FloatOps, FloatClockProps | FloatClockProps, FloatClockProps2 | a rounding function on the rationals with its error bound, monotonicity and fixed points; relative errors counted in roundings; for the tick table induction over the tempo map with the float time of its start generalised |
| C156 | Loading and saving changes a tempo by at most a microsecond | FloatSave, FloatSaveProps | FloatSaveProps | error of the four roundings between reading and writing a tempo below one microsecond; induction over the tempo map and over the rounds; the sum of the tempi as measure for the end of the drift; closed runs for the defects |
| C157 | estimate_beat_start returns the best of the first onsets | BeatStart, BeatStartProps | BeatStartProps | the dot product of the two signals as a sum over notes, windows as intervals of milliseconds, induction over candidates for the largest score |
| C158 | Notes on the grid stay there in floats, at some rates | FloatGrid, FloatGridProps | FloatGridProps | Kahan's theorem on division by a sum of two powers of two, by scaling to 53 bits and counting multiples of the last place; closed runs for the defect |
| C159 | Score of the interval tree | TreeScore, TreeScoreProps | TreeScoreProps | count of nodes and of intervals in nodes along a history, by induction on the history; closed runs for the defects |
| C160 | Load and save in floats keep every event on its tick | FloatFile, FloatFileProps, FloatFileProps2, FloatFileProps3 | FloatFileProps3 | naturality of loading and writing in the times (both objects are images of one object in ticks), then the round trip of C155 on every tick of the table |
| C161 | Shifting and stretching with floating-point rounding | FloatShift, FloatShiftProps | FloatShiftProps | error of one rounding (b64_err), monotonicity of rounding, exactness on a grid; induction on the number of shifts; closed runs for the defects |
| C162 | Scaling velocities with floating-point rounding | FloatVelocity, FloatVelocityProps | FloatVelocityProps | the exact result is further from the next whole number (or half) than all rounding errors together; closed run for the defect |
| C163 | Comparing control changes, controllers and pitch bends | EventOrder, EventOrderProps | EventOrderProps | case analysis over closeness of times; strict weak order on lists of distinguishable times; the whole controller table by computation in the kernel |
| C164 | The interval dictionary as a mutable mapping | IntervalDict, IntervalDictProps | IntervalDictProps | invariant of the sorted dictionary kept by every call; simulation of the map that sees only assignments, by induction on the history |
| C165 | Which malformed files are refused, and how | BadFileProps, BadFileFloatProps | BadFileProps, BadFileFloatProps | induction over the tempo events, the deltas and the signatures |
| C166 | The order in which chords enter a graph, with Python's floats and hashes | HashOrder, HashOrderProps | HashOrderProps | the hash of a float whose binary places end before the 61st is its integer part plus its places; the places of s + c/100 depend on c and on the number of digits of s only; a table over 100 x 32 cases excludes collisions; visiting order from sorting, the bound 99 by induction over a sorted list |
| C167 | The graph convolution computes its formula | Gcn, GcnProps | GcnProps | functions on finite types over an ordered field; sums over the edge list; equivariance, batches and isolated nodes from one lemma on embeddings that keep the incoming edges, by induction over the layers; locality by induction over layers and walks; caching by induction over the calls |
| C168 | The node classifier sees the graph only through its structure | Gcn, GcnProps | GcnProps | functions on finite types over an ordered field; sums over the edge list; equivariance, batches and isolated nodes from one lemma on embeddings that keep the incoming edges, by induction over the layers; locality by induction over layers and walks; caching by induction over the calls |
| C169 | A cached layer keeps the edges of its first call | Gcn, GcnProps | GcnProps | functions on finite types over an ordered field; sums over the edge list; equivariance, batches and isolated nodes from one lemma on embeddings that keep the incoming edges, by induction over the layers; locality by induction over layers and walks; caching by induction over the calls |
| C170 | The graph classifier and its use as a node classifier | Gin, GinProps | GinProps | the same lemma on embeddings; the scatter loop by induction |
| C171 | From raw MIDI files to the graphs of a dataset | EndToEnd, EndToEndProps | EndToEndProps | composition of the loading, reading and processing theorems: notes of each part by the invariants of the loader in both directions; chords of a part from the partition and splitting theorems; the list of graphs by induction over the files |
| C172 | The loop over the tracks of a song | SongLoop, SongLoopProps | SongLoopProps | termination by a measure (unknown numbers plus numbers still ahead); the visits by invariants of the table for each kind of history, one round at a time |
| C173 | as_note_seq lists the pitches in order of time | FeatureProps | FeatureProps | stability of the sort by filtering on equal keys; the invariant of the builder loop combined with the partition, splitting and rescaling theorems |
| C174 | Velocities in the feature vectors of a graph | FeatureProps | FeatureProps | stability of the sort by filtering on equal keys; the invariant of the builder loop combined with the partition, splitting and rescaling theorems |
| C175 | The graph convolution networks of the examples | GcnNets, GcnNetsProps | GcnNetsProps | closed formula of a layer, then congruence of the formula along embeddings, neighbourhoods and twins; monotonicity of the sigmoid; 1+t ≤ exp t |
| C176 | Predicting a link | GcnNets, GcnNetsProps | GcnNetsProps | closed formula of a layer, then congruence of the formula along embeddings, neighbourhoods and twins; monotonicity of the sigmoid; 1+t ≤ exp t |
| C177 | Accuracy and loss of the autoencoder | GcnNets, GcnNetsProps | GcnNetsProps | closed formula of a layer, then congruence of the formula along embeddings, neighbourhoods and twins; monotonicity of the sigmoid; 1+t ≤ exp t |
| C178 | The attention networks of the examples | GatLstm, GatProps | GatProps | closed formula of an attention layer as a weighted mean; congruence as for C175 |
| C179 | The sequence model reads from left to right | GatLstm, LstmProps | LstmProps | induction over the sequence and over the layers; the state after k rounds is the state after reading the input k times |
| C180 | Generating new rows | GatLstm, LstmProps | LstmProps | induction over the sequence and over the layers; the state after k rounds is the state after reading the input k times |
| C181 | Which rows the decoder takes | GatLstm, LstmProps | LstmProps | induction over the sequence and over the layers; the state after k rounds is the state after reading the input k times |
| C182 | Counts and scores of training | GatLstm, TallyProps | TallyProps | fold invariant for the tallies; counting by disjoint predicates |
| C183 | A training of the autoencoder that runs to its end | GaeRuns, GaeRunsProps | GaeRunsProps | fold of the epochs as a run over (weights, directory); the newest checkpoint as invariant over histories |
| C184 | Training with checkpoints, killed and started again | GaeRuns, GaeRunsProps | GaeRunsProps | fold of the epochs as a run over (weights, directory); the newest checkpoint as invariant over histories |
| C185 | The order of intervals with arbitrary data | IvOrder, IvOrderProps | IvOrderProps | case analysis on the kinds of data; the comparison as a lexicographic order on (begin, end, class, value) |
| C186 | Names of notes | NoteNames, NoteNamesProps | NoteNamesProps | grammar of names as a separate relation; the tokenizer accepts exactly its texts |
| C187 | The second reader of tempo events | TempoTwo, TempoTwoProps | TempoTwoProps | closed form of the comprehension as a filter of the tempo events; last elements of filters |
| C188 | The checks of a batch | EdgeCheck, EdgeCheckProps | EdgeCheckProps | closed form of the chain of assertions; counting over three masks |
| C189 | A graph builder made from a file | FromFile, FromFileProps | FromFileProps | last dot and last slash of a list of characters; composition with the constructor of C137 |
| C190 | A node of a dataset leads back to its pitches | DataCheck, DataCheckProps | DataCheckProps | sorted lists are equal exactly for permutations; tables only grow under builds (C49); cardinality of unions |
| C191 | Statistics of a dataset | DataCheck, DataCheckProps | DataCheckProps | sorted lists are equal exactly for permutations; tables only grow under builds (C49); cardinality of unions |
| C192 | The automatic tolerance in floats | FloatTol, FloatTolProps | FloatTolProps | monotone rounding keeps the interpolation between its ends; the exact interpolation is Lipschitz; error propagation |
| C193 | Generators of graphs under every schedule | GraphGen, GraphGenProps | GraphGenProps | invariants of single actions over lists of actions; the builder's tables only grow |
| C194 | Datasets with the sanity check | SelfCheck, SelfCheckProps | SelfCheckProps | induction over the raw files; the state after skipped files is the initial one; first build by the invariants of C138 and C148 |
| C195 | Chord numbers do not depend on options | OptionFreeProps | OptionFreeProps | the dictionaries are a fold over the chords met; assigning a list of entries twice is assigning it once; simulation of two builders step by step |
| C196 | Rescaling velocities to a range | VelScale, VelScaleProps | VelScaleProps | bounds of min and max by induction; relative error of each float operation, the quotient of two small integers stays 1/127 away from the next whole number; monotone rounding |
| C197 | Scaling velocities by a factor | VelScale, VelScaleProps | VelScaleProps | bounds of min and max by induction; relative error of each float operation, the quotient of two small integers stays 1/127 away from the next whole number; monotone rounding |
| C198 | Labels of the nodes of a graph | PlotScript, PlotScriptProps | PlotScriptProps | invariant of the graph while chords are linked: hash label, first node and not entered go together; loop of the first node; both kinds of builds by induction over the tracks |
| C199 | The plot script | PlotScript, PlotScriptProps | PlotScriptProps | invariant of the graph while chords are linked: hash label, first node and not entered go together; loop of the first node; both kinds of builds by induction over the tracks |
| C200 | The quantizers of midi_utils in floats | FloatUtils, FloatUtilsProps | FloatUtilsProps | monotone rounding (whole numbers up to 2^53 are fixed points); relative error of each operation; scaling by powers of two commutes with rounding; division and multiplication by 2^i + 2^j |
| C201 | Scores of an epoch of the first example | Example01, Example01Props | Example01Props | invariant of the accumulators over batches and splits (the masked nodes so far); F1 of a label is 1 iff its counts agree; no branch of the inner loop returns; induction over epochs and over calls |
| C202 | The first example never gets past an evaluation | Example01, Example01Props | Example01Props | invariant of the accumulators over batches and splits (the masked nodes so far); F1 of a label is 1 iff its counts agree; no branch of the inner loop returns; induction over epochs and over calls |
| C203 | What the second example reports | Example02, Example02Props | Example02Props | the loop is a sum over the batches; induction over the epochs with the best epoch so far as ghost variable |
| C204 | The attention script | Example02, Example02Props | Example02Props | the loop is a sum over the batches; induction over the epochs with the best epoch so far as ghost variable |
| C205 | What the pooling experiment keeps of a graph | TopkPool, TopkPoolProps | TopkPoolProps | reals; the threshold is compared with the greatest score; the attention loss is bounded by log x ≤ x - 1; the loss by the decomposition of squares around the mean |
| C206 | What the loss of the pooling experiment measures | TopkPool, TopkPoolProps | TopkPoolProps | reals; the threshold is compared with the greatest score; the attention loss is bounded by log x ≤ x - 1; the loss by the decomposition of squares around the mean |
| C207 | What the plot of the metrics shows | MetricPlot, MetricPlotProps | MetricPlotProps | the drawing is put in closed form; an invariant over the history says that the validation lists have one length |
| C208 | Creating sequences by counter | NewSeqs, NewSeqsProps | NewSeqsProps | lookups after an assignment in the sorted dictionary; induction over the calls; the average tempo by cases |
| C209 | The average tempo | NewSeqs, NewSeqsProps | NewSeqsProps | lookups after an assignment in the sorted dictionary; induction over the calls; the average tempo by cases |

Nothing in the list is judged inexpressible; the parts that are runtime only
(float rounding, torch, file bytes) are excluded in the statements.
