{
 "C01": [
  "proved",
  "Exact success condition and result of the constructor; clamping of every field."
 ],
 "C02": [
  "proved",
  "Over every finite history of checked setters. C02_step_order_not_checked records that the order of the two quantized steps is not part of the checked ranges."
 ],
 "C03": [
  "proved",
  "Exact condition for the copy (C03_copy), overriding (C03_copy_override), and the refutation for denominators above 128 (C03_copy_fails)."
 ],
 "C04": [
  "proved",
  "Exact characterisation of ==; also not transitive (C04_eq_not_transitive)."
 ],
 "C05": [
  "proved",
  "All parts proved, including the cycle that shows the separation hypothesis cannot be dropped."
 ],
 "C06": [
  "proved",
  "Overlap iff a common instant in the half-open spans, with the derived laws."
 ],
 "C07": [
  "proved",
  "Raise condition, monotonicity, distance bounds for all rationals."
 ],
 "C08": [
  "proved",
  "Total on all fresh non-negative notes, 0 < amount <= 1."
 ],
 "C09": [
  "proved",
  "Fixed points proved for all grid notes at amount 1 and rates dividing 100; the expectation at the default amount refuted for all grid notes (C09_default_amount_grows) and at rate 3 (C09_rate_three)."
 ],
 "C10": [
  "proved",
  "Shift/stretch laws; C10_stretch_nonpos covers non-positive factors."
 ],
 "C11": [
  "proved",
  "Proved over the reals (float rounding not modelled)."
 ],
 "C12": [
  "proved",
  "Round trip and the outcome for every missing key proved."
 ],
 "C13": [
  "proved",
  "All parts proved, including the unchecked setter."
 ],
 "C14": [
  "proved",
  "Exact construction condition and exact value; documented number refuted for 6/8 and 2/2."
 ],
 "C15": [
  "proved",
  "Table facts by evaluation of the whole finite table, lifted to all numbers."
 ],
 "C16": [
  "proved",
  "Constructor condition and all setter histories."
 ],
 "C17": [
  "proved",
  "Clamping and the exact condition for the copy to be equal proved."
 ],
 "C18": [
  "proved",
  "Proved for all control changes, rates and amounts."
 ],
 "C19": [
  "proved",
  "Over every finite history of the listed operations; exact value after assignment/construct (C19_total_time_exact)."
 ],
 "C20": [
  "proved",
  "Raise condition exact, both outcomes proved."
 ],
 "C21": [
  "proved",
  "Proved for any sort function that meets the contract of list.sort on comparators that are strict weak orders."
 ],
 "C22": [
  "proved",
  "All three parts proved."
 ],
 "C23": [
  "proved",
  "Notes, total, instrument, composition and the reset resolution proved."
 ],
 "C24": [
  "proved",
  "Exact raise condition, exact notes; clipping refuted for every note that starts in the window and ends after it."
 ],
 "C25": [
  "proved",
  "Exact outcome, inverse and the counterexample proved."
 ],
 "C26": [
  "proved",
  "Complete case analysis of the outcome."
 ],
 "C27": [
  "proved",
  "Proved, including the loss of all notes for drum sequences."
 ],
 "C28": [
  "proved",
  "Exact condition proved."
 ],
 "C29": [
  "proved",
  "All parts proved."
 ],
 "C30": [
  "proved",
  "Sortedness, membership, exact multiplicity and the behaviour of split proved."
 ],
 "C31": [
  "proved",
  "Exact minimum over consecutive disjoint notes in start order."
 ],
 "C77": [
  "proved",
  "Exact value proved for all non-zero arguments."
 ],
 "C78": [
  "proved",
  "All parts proved."
 ],
 "C79": [
  "proved",
  "Exact table proved for all integers."
 ],
 "C80": [
  "proved",
  "Notes and total times proved exactly; the insufficient total of cut shown."
 ],
 "C32": [
  "proved",
  "Both homogeneous histories proved for all lengths; mixing refuted by concrete histories (C32_bracket_destroys)."
 ],
 "C33": [
  "proved",
  "Every history of track assignments: keys strictly increasing, each once, len counts them."
 ],
 "C34": [
  "proved",
  "Proved for all such histories; both boundaries shown to be necessary."
 ],
 "C35": [
  "proved",
  "Exact outcome of the lookup for all non-negative times; so 'returns the last signature with midi_time <= t' is refuted at start times."
 ],
 "C36": [
  "proved",
  "Multiset of notes and instrument grouping after importing any list of sequences."
 ],
 "C37": [
  "proved",
  "Each method's outcome proved for all track sets."
 ],
 "C38": [
  "proved",
  "Refinement to a finite map over every history of assignments and deletions."
 ],
 "C39": [
  "proved",
  "Slice returns exactly the overlapping entries."
 ],
 "C40": [
  "proved",
  "Set semantics and lexicographic order for all integer intervals."
 ],
 "C81": [
  "proved",
  "Proved for every dictionary and collection."
 ],
 "C82": [
  "proved",
  "Proved for all such histories; the general expectation is refuted."
 ],
 "C83": [
  "proved",
  "Proved for every history (get_track) and every valid index ([])."
 ],
 "C45": [
  "proved",
  "Partition, first-occurrence order, group sizes; C45_raises gives the exact failure."
 ],
 "C46": [
  "proved",
  "Length, range and monotonicity for all lists; extremes reach the ends."
 ],
 "C47": [
  "proved",
  "Weights count transitions, total = number of steps."
 ],
 "C48": [
  "proved",
  "Edges exact for every sequence; playing order under the monotonicity hypothesis; refutation without it."
 ],
 "C49": [
  "proved",
  "Proved for every build history; expectation 0..n-1 refuted."
 ],
 "C50": [
  "proved",
  "Nodes are the distinct chords, all attributes present."
 ],
 "C51": [
  "proved",
  "Exact vector; too many velocities raise."
 ],
 "C52": [
  "proved",
  "Complete description of the result; in-edge redirection refuted for every graph."
 ],
 "C53": [
  "proved",
  "Proved for every builder state; 'yields each built graph once' is refuted."
 ],
 "C54": [
  "proved",
  "Chunks of at most feature_vec_size pitches whose union is the chord."
 ],
 "C84": [
  "proved",
  "Proved for every sequence, table state and options."
 ],
 "C85": [
  "proved",
  "Proved for all graphs and all builds; the expected direction is refuted."
 ],
 "C86": [
  "proved",
  "Exact condition proved; the expectation for the full MIDI range refuted."
 ],
 "C87": [
  "proved",
  "Exact values; a zero mean returns None (outside the theorem)."
 ],
 "C88": [
  "proved",
  "For every percentile in 0..100."
 ],
 "C89": [
  "proved",
  "For every graph the builder produces; tensors' packing itself is not modelled."
 ],
 "C90": [
  "proved",
  "Both halves proved for all track lists."
 ],
 "C41": [
  "proved",
  "For every history of add/discard/remove/clear; never raises for intervals that are not point-like, given recursion limit above four times the history length."
 ],
 "C42": [
  "proved",
  "Proved for all histories within the stated recursion limit."
 ],
 "C43": [
  "proved",
  "Proved; the expectation that a stored interval can be removed is refuted for all such histories."
 ],
 "C44": [
  "proved",
  "Proved for all histories; the expected query semantics is refuted."
 ],
 "C55": [
  "proved",
  "Both directions, sums, order; C55_serialized_deltas: every serialized file has non-negative deltas, for any sort meeting IsCmpSort."
 ],
 "C56": [
  "proved",
  "Also for any history of queries and, at file level, every event tick is in the table."
 ],
 "C57": [
  "proved",
  "Nearest tick for every time, inverse below 10^9."
 ],
 "C58": [
  "proved",
  "C58_exact: exact multiset of notes for every file with ticks in order (stacked note-ons included). C58_overlap_truncates, C58_stacked_note_lost, C58_no_end_drops refute the naive pairing."
 ],
 "C59": [
  "proved",
  "Proved for any sort meeting the contract of functools.cmp_to_key sorting on consistent comparators."
 ],
 "C60": [
  "proved",
  "For non-negative ordered ticks and non-zero tempos."
 ],
 "C95": [
  "proved",
  "Whole tempos exactly; other tempos: C95_written_tempo gives the rounding."
 ],
 "C96": [
  "proved",
  "Under the stated provisos, for unnamed instruments, files below 10^9 ticks."
 ],
 "C97": [
  "proved",
  "Same hypotheses as C96 with tick times."
 ],
 "C98": [
  "proved",
  "C98_owners is the exact rule for every file; C98_own_events_kept and C98_single_owner are consequences; C98_shared_control and C98_silent_channel_lost refute the naive single-owner claim."
 ],
 "C61": [
  "proved",
  "C61_notes_read exact for every readable object; C61_all_notes_kept, C61_note_kept_iff and C61_note_lost are the consequences. Objects outside Spec.Readable (out-of-range data) are covered only by C62_bad_key_raises."
 ],
 "C62": [
  "proved",
  "C62_key_round_trip per number, C62_bad_key_raises, C62_keys_round_trip for the list."
 ],
 "C99": [
  "proved",
  "Exact list for every object with a correct clock."
 ],
 "C100": [
  "proved",
  "Exact filter; C100_events_lost and C100_lowest_bend_raises show the consequences on concrete objects."
 ],
 "C101": [
  "proved",
  "Tempo and time signature lists; examples with a change at time 2 / 4."
 ],
 "C102": [
  "proved",
  "End to end from messages to song notes; uses C56, C58, C60 and readSong_eq. Example file with tempo change, drum note and pitch bend."
 ],
 "C63": [
  "proved",
  "History = any tree of add/merge starting from empty mappers."
 ],
 "C64": [
  "proved",
  "Ratio times number of nodes is exact; Python rounds the product to a float before int()."
 ],
 "C65": [
  "proved",
  "torch.save is two effects: the file exists but is incomplete, then it is complete. Crash points are between effects. The statement says what really holds, including the two defects."
 ],
 "C103": [
  "proved",
  "Type checks are not modelled."
 ],
 "C104": [
  "proved",
  "The tolerance is its text str(tolerance)."
 ],
 "C105": [
  "proved",
  "Settings that are not part of the file names only enter through what the passes produce."
 ],
 "C106": [
  "proved",
  "What a raw file produces is an arbitrary list of graphs and an optional exception."
 ],
 "C66": [
  "proved",
  "A save is atomic here except for the explicit interrupted saves. int() of a name suffix accepts decimal digits only."
 ],
 "C67": [
  "proved",
  "Edge endpoints are natural numbers (negative tensor indices are not modelled). The statement says what really holds, including the defects."
 ],
 "C76": [
  "proved",
  "The mask is any boolean list of the right length."
 ],
 "C107": [
  "proved",
  "See C66."
 ],
 "C108": [
  "proved",
  "Paths are texts; os.path.join of a relative name."
 ],
 "C109": [
  "proved",
  "Features are exact rationals."
 ],
 "C68": [
  "proved",
  "Every root, scale and set iteration order. Refutations included: lower-case and numeric roots are refused, the triad types of four scales are wrong, the extended chord list ignores the scale."
 ],
 "C69": [
  "proved",
  "Includes the refutation of inversion."
 ],
 "C70": [
  "proved",
  "All integers."
 ],
 "C71": [
  "proved",
  "Exceptions are stated exactly: aug7/M7, the five names on which the tables differ, text intervals."
 ],
 "C72": [
  "proved",
  "Includes the refutation of the round trip with default arguments."
 ],
 "C73": [
  "proved",
  "Each quantizer characterised exactly, with the conditions under which it is a nearest-step quantizer and counterexamples otherwise."
 ],
 "C74": [
  "proved",
  "With and without occupancy; defects stated as theorems."
 ],
 "C75": [
  "proved",
  "np_onehot and the piano roll, all inputs. midi_labels is a demo without result and event_one_hot.py is an abstract interface; neither has behaviour to model."
 ],
 "C91": [
  "proved",
  "Recursion limit modelled as a fuel parameter compared with the depth of the Python call chain."
 ],
 "C92": [
  "proved",
  "Python sort order of intervals, for any strict total order on data."
 ],
 "C93": [
  "proved",
  "Includes the refutations of the expected meaning of overlaps, distance_to and le; isclose with its default relative tolerance on exact rationals."
 ],
 "C94": [
  "proved",
  "merge_overlaps / split_overlaps are proved to raise, as the code does."
 ],
 "C110": [
  "proved",
  "Constructor, bulk append, from_notes."
 ],
 "C111": [
  "proved",
  "Contains the refutation of the documented meaning of is_four_quarter_note."
 ],
 "C112": [
  "proved",
  "Includes the self-comparison defect of same_start_time."
 ],
 "C113": [
  "proved",
  "Includes the swapped default tuple."
 ],
 "C114": [
  "proved",
  "The unchecked create_track index is shown."
 ],
 "C115": [
  "proved",
  "Sizes only; the random permutation is torch."
 ],
 "C116": [
  "proved",
  "Argument validation of build_sequence and the conversion."
 ],
 "C117": [
  "proved",
  "Heap model of all methods of MidiNoteSequence; clients are arbitrary programs. C117_reachable: the hypothesis (no dangling references) holds in every reachable state. A clone of a drum sequence shows no notes (C117_copy_equal)."
 ],
 "C118": [
  "proved",
  "Exact effect of stretch on every other sequence; the C19 bound is broken through a shared cut (C118_cut_breaks_total)."
 ],
 "C119": [
  "proved",
  "Refinement of the heap model to Seq.lean; merge is excluded from histories (C118_merge_shares says what it does); refuted for repeated references."
 ],
 "C120": [
  "proved",
  "Exact rationals; np.interp, np.unique and np.maximum.accumulate modelled. Arrays of equal length."
 ],
 "C121": [
  "proved",
  "Any event type with a time. The last clause of the property (several controllers) is C121_controllers_lost."
 ],
 "C122": [
  "proved",
  "np.argsort's order on ties is a parameter. C122_least_updated states the clustering defect."
 ],
 "C123": [
  "proved",
  "Exact rationals; np.isclose and pretty_midi's qpm_to_bpm modelled as documented. The loop runs on fuel; the theorem gives N with the same result for every fuel >= N. C123_early_tempo and C123_double_beat are the two defects; C123_unique shows the specification determines the list."
 ],
 "C124": [
  "proved",
  "Same model as C123. C124_last_signature is the defect for a time signature at the end time."
 ],
 "C125": [
  "proved",
  "Exact rationals. C125_tempo_map also covers original times between ticks (moved by the interpolation of the nearest ticks). Two points of the map on the same tick are not covered. C125_cut_out is the defect."
 ],
 "C126": [
  "proved",
  "The downbeats are those of C124."
 ],
 "C127": [
  "proved",
  "Exact rationals; the library's `PrettyMIDI.write` is not modelled."
 ],
 "C128": [
  "proved",
  "Exact rationals. Bends and control changes for a warped song are C121."
 ],
 "C129": [
  "proved",
  "Exact rationals."
 ],
 "C130": [
  "proved",
  "Exact rationals; the library's final `write` is not modelled."
 ],
 "C131": [
  "proved",
  "Exact rationals; the library's final `write` is not modelled."
 ],
 "C132": [
  "proved",
  "Interval bounds are exact rationals; the recursion limit is an argument of the model."
 ],
 "C133": [
  "proved",
  "Interval bounds are exact rationals; the recursion limit is an argument of the model."
 ],
 "C134": [
  "proved",
  "heapq is modelled by its contract (the least entry is popped); edge_attr is one number per edge. Rounds are bounded by a number that the theorem shows sufficient."
 ],
 "C135": [
  "proved",
  "Times and weights are exact rationals; per-instrument results are those of the library by its source, with normalize=False for transitions."
 ],
 "C136": [
  "proved",
  "Freshly built graphs, from an empty graph; hashing of frozensets is an arbitrary function with the assumptions of PyEnv."
 ],
 "C137": [
  "proved",
  "Files and printing are left out; sorting of notes is an argument."
 ],
 "C138": [
  "proved",
  "Histories of per-instrument builds by one builder."
 ],
 "C139": [
  "proved",
  "Values are classified by what the constructor asks of them."
 ],
 "C140": [
  "proved",
  "Exact rationals; scikit-learn scores by their definition for average='micro'."
 ],
 "C141": [
  "proved",
  "Exact rationals; the predictions of every epoch are arbitrary."
 ],
 "C142": [
  "proved",
  "Exact rationals and reals."
 ],
 "C143": [
  "proved",
  "Parsed documents; the text level of JSON is not modelled."
 ],
 "C144": [
  "proved",
  "Python's sort is any stable sort of the track's messages by the project's comparison (IsTrackSort, met by insertion sort)."
 ],
 "C145": [
  "proved",
  "The library's PrettyMIDI.write is taken to be the project's copy of it, CustomPrettyMIDI.serialize; Python's sort as in C144; files shorter than 999999999 ticks."
 ],
 "C146": [
  "proved",
  "Object identity is a number; times are rationals as in C19."
 ],
 "C147": [
  "proved",
  "The reader of from_file is a parameter; MidiReader returns a MidiNoteSequences (C61)."
 ],
 "C148": [
  "proved",
  "pre_transform is left out; reading a file is a parameter (C61, C62, C99-C102 say what it gives)."
 ],
 "C149": [
  "proved",
  "Success is proved for tensor features; other feature types are covered by C84-C90."
 ],
 "C150": [
  "proved",
  "Paths are lists of names; '..', '~' and links are left out, and so are directories inside the raw directory named like a given file."
 ],
 "C151": [
  "proved",
  "_download and raw_paths of PyTorch Geometric are modelled from their documentation; archives are left out."
 ],
 "C152": [
  "proved",
  "Dataset.__getitem__ of PyTorch Geometric is modelled: numbers give a graph, anything else a shallow copy."
 ],
 "C153": [
  "proved",
  "Rounding is to nearest, ties to even; overflow, numbers below 2^-1022, infinities and NaN are left out. quantize_in_place is modelled in floats for a note that is not quantized yet and without min_step."
 ],
 "C154": [
  "proved",
  "Same float model as C153."
 ],
 "C155": [
  "proved",
  "Same float model as C153. mido delivers tempi of three bytes (below 2^24)."
 ],
 "C156": [
  "proved",
  "Float model as in C153; the time in the last claim is the exact time of the written tempi."
 ],
 "C157": [
  "proved",
  "The claim of the largest score is for exact arithmetic (notes, beats and windows); C157_float_raises is with the windows in floats. beats are those of C123."
 ],
 "C158": [
  "proved",
  "Float model as in C153."
 ],
 "C159": [
  "proved",
  "floor(log(m, 2)) is taken without float error (exact for the m for which math.log is accurate)."
 ],
 "C160": [
  "proved",
  "Float model as in C155 and C156. The exact program (C55-C60, C95-C98, C144) is the same generic code with exact arithmetic (serialize_exact). Without the bound on tempi ticks can collide: C155_round_trip_fails."
 ],
 "C161": [
  "proved",
  "Rounding is that of IEEE 754 without overflow and subnormal numbers; times are floats given as exact rationals."
 ],
 "C162": [
  "proved",
  "The mean is modelled as one rounded division of the exact sum, which is what numpy computes as long as partial sums stay below 2^53. A zero mean (nan) is left out."
 ],
 "C163": [
  "proved",
  "Python's choice of the answering method for mixed comparisons is modelled from the language rules (the subclass is asked first, NotImplemented passes on). isclose is read exactly."
 ],
 "C164": [
  "proved",
  "The methods inherited from collections.abc.MutableMapping are modelled from their definition in the standard library. items, values and the view objects are those of C38."
 ],
 "C165": [
  "proved",
  "Files are lists of messages as mido delivers them; parsing of bytes is mido's and not modelled."
 ],
 "C166": [
  "proved",
  "The tolerance is any positive number (what compute_tolerance returned is an argument); floats are binary64 with rounding to nearest even, the hash is CPython's on 64 bit platforms. Hash collisions are excluded by a structural lemma (seconds plus binary places cut at a position given by the digits of the seconds) and a complete table over hundredths and digits."
 ],
 "C167": [
  "proved",
  "Exact arithmetic in every ordered field (reals for the logarithm) instead of float32; propagate, Linear and addmm as the libraries document them. NeuralGraphComposer uses the library's GCN2Conv, of which NgcGCN2Conv is a copy."
 ],
 "C168": [
  "proved",
  "Exact arithmetic; dropout as arbitrary factors for the renaming claim, evaluation mode for the others. The network passes no edge weights on."
 ],
 "C169": [
  "proved",
  "The normalization of the library is an arbitrary function; edges as tensor (not SparseTensor, whose cache works alike)."
 ],
 "C170": [
  "proved",
  "Exact arithmetic, evaluation mode; GINConv, MLP and global_add_pool as the library documents them. The trainer of this example cannot be constructed as the file stands (C139)."
 ],
 "C171": [
  "proved",
  "Times are exact (the rounding of the chain is bounded in C160 and C166). A file is its list of messages; the library parser below is not modelled. Which part of the file (the first usable track of the song) is given by C148."
 ],
 "C172": [
  "proved",
  "The loop is modelled with a position in the live list and fuel that is proved to suffice. Songs read from files are covered by C171. Histories that mix the kinds of access are covered only by C172_loop_ends."
 ],
 "C173": [
  "proved",
  "Times are exact rationals (every float is one)."
 ],
 "C174": [
  "proved",
  "Exact arithmetic; the float version of the rescaling is C162."
 ],
 "C175": [
  "proved",
  "Real numbers instead of float32; the library layers are taken to compute their documented formulas (listed in the module head)."
 ],
 "C176": [
  "proved",
  "Real numbers instead of float32; the library layers are taken to compute their documented formulas (listed in the module head)."
 ],
 "C177": [
  "proved",
  "Real numbers instead of float32; the library layers are taken to compute their documented formulas (listed in the module head). The scores computed by scikit-learn are not modelled."
 ],
 "C178": [
  "proved",
  "Real numbers instead of float32; the library layers are taken to compute their documented formulas (listed in the module head). The 1e-16 the library adds to the softmax denominator is left out."
 ],
 "C179": [
  "proved",
  "Real numbers instead of float32; the library layers are taken to compute their documented formulas (listed in the module head)."
 ],
 "C180": [
  "proved",
  "Real numbers instead of float32; the library layers are taken to compute their documented formulas (listed in the module head)."
 ],
 "C181": [
  "proved",
  "Any ordered field; the width test and the choice of maps are modelled as written."
 ],
 "C182": [
  "proved",
  "Counts and scores in exact arithmetic; the predictions of each epoch are arbitrary, so the optimizer is not modelled. These methods belong to trainers whose constructor fails (C139)."
 ],
 "C183": [
  "proved",
  "What an epoch computes and the batches it reports are arbitrary; the optimizer is not modelled. The saved files are those of C66 and C107."
 ],
 "C184": [
  "proved",
  "A save that is cut short leaves a file that cannot be loaded; the loader is that of C66 and C107."
 ],
 "C185": [
  "proved",
  "Ends and floats are rational numbers, without nan. Lists and tuples as data are not modelled."
 ],
 "C186": [
  "proved",
  "note_to_midi and midi_to_note of librosa are modelled from their documented behaviour, with ASCII digits and exact hundredths."
 ],
 "C187": [
  "proved",
  "The method is not called by the constructor; exact arithmetic as in C60."
 ],
 "C188": [
  "proved",
  "Tensors are lists; printing is left out."
 ],
 "C189": [
  "proved",
  "Which paths are files and what the reader returns is arbitrary; name and suffix of a path are those of pathlib for POSIX, Python 3.8 to 3.13."
 ],
 "C190": [
  "proved",
  "Pitches and zeros are compared as rationals (whole numbers, exact in float32). Printed text is left out."
 ],
 "C191": [
  "proved",
  "Iteration uses __getitem__ until IndexError, as Python does for a class without __iter__; num_nodes is the number of rows."
 ],
 "C192": [
  "proved",
  "np.percentile is numpy 1.22 or later, method linear, modelled operation by operation; round of a np.float64 is np.around. The width of a group assumes adjusted times below 2^31 seconds, where the hash of C166 separates hundredths."
 ],
 "C193": [
  "proved",
  "List and graph objects have an identity. is_sanity_check=True and builds that raise are left out (a history ends there). C193_exceptions is for per-instrument builds."
 ],
 "C194": [
  "proved",
  "The label list holds Python integers, whose .item does not exist; that is the only fact about torch used. A dataset whose processed files are there already is loaded without the check."
 ],
 "C195": [
  "proved",
  "The tolerance argument of build has no say because build_sequence computes its own. The lookup defect is stated for graphs per instrument, the first of a fresh builder."
 ],
 "C196": [
  "proved",
  "The sum of integers inside is taken to be exact, as in numpy; nan to int is left open."
 ],
 "C197": [
  "proved",
  "The sum of velocities is taken to be exact, as in numpy below 2^53; nan to int is left open. An average that is not 0 is assumed in the main theorems: some velocity is positive."
 ],
 "C198": [
  "proved",
  "Stated with the edges of the finished graph. Iterating over a set of pitches yields each member once (PyEnv.IterOk)."
 ],
 "C199": [
  "proved",
  "The drawing itself (matplotlib, plotly) is not modelled; the order in which a set of names is iterated is arbitrary."
 ],
 "C200": [
  "proved",
  "C73 and C74 say the same of exact arithmetic. The frame occupancy other than 0 is only covered exactly (C74)."
 ],
 "C201": [
  "proved",
  "About the methods: the constructor raises (C139). An epoch without any masked node (numpy: NaN) is left out."
 ],
 "C202": [
  "proved",
  "About the methods: the constructor raises (C139), and the module this file imports Experiments from does not exist in the repository. Loading of checkpoints is C108."
 ],
 "C203": [
  "proved",
  "A batch without test nodes (NaN in torch) is excluded. About the methods: the constructor raises (C139)."
 ],
 "C204": [
  "proved",
  "The network itself is C178; training only decides what is predicted."
 ],
 "C205": [
  "proved",
  "Reals for floats; the convolutions are arbitrary functions; one graph per batch, as the loader has it."
 ],
 "C206": [
  "proved",
  "As C205; a sampled graph without labels (mean of nothing, NaN) is excluded."
 ],
 "C207": [
  "proved",
  "That plt.plot and range raise ValueError on different lengths and step 0 is taken from the library."
 ],
 "C208": [
  "proved",
  "A call that raises leaves the collection as it was. Nothing in the repository calls the method."
 ],
 "C209": [
  "proved",
  "That a list has no hash and that the signatures have no attribute tempo_ticks is read off the code and the language."
 ]
}