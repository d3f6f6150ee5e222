{"id": "C01", "title": "Constructed notes are in range", "statement": "MidiNote(...) succeeds exactly when end_time > start_time, numerator >= 1 and denominator is a positive power of two; the resulting note has pitch and velocity in 0..127, program in 0..255, instrument in 0..127, numerator and denominator in 1..255 and start < end, and every argument that was already in range is kept unchanged.", "quantifier": "every tuple of constructor arguments", "why_tests_cant": "The argument space is unbounded in eight independent dimensions; a test samples a few out-of-range values.", "anchors": ["neural_graph_composer/midi/midi_note.py:MidiNote.__init__"]}
{"id": "C02", "title": "Checked setters never break a note", "statement": "After any sequence of assignments to start_time, end_time, pitch, program, quantized_start_step, quantized_end_step on a constructed note, start < end and all ranges still hold; an assignment that raises leaves the note exactly as it was, and one that succeeds stores exactly the assigned value. A refused time or step raises ValueError, a refused pitch or program AssertionError.", "quantifier": "every note and every finite history of setter calls, failing ones included", "why_tests_cant": "Histories are unbounded; a unit test fixes one order of assignments.", "anchors": ["neural_graph_composer/midi/midi_note.py:start_time.setter", "neural_graph_composer/midi/midi_note.py:end_time.setter", "neural_graph_composer/midi/midi_note.py:pitch.setter", "neural_graph_composer/midi/midi_note.py:program.setter", "neural_graph_composer/midi/midi_note.py:quantized_start_step.setter"]}
{"id": "C03", "title": "Copying a note reproduces it", "statement": "make_copy() of a freshly constructed note succeeds iff the denominator requested at construction was at most 128, and then yields a note equal in every field (explicitly overridden quantized steps, and only they, differ); for a larger requested denominator (stored clamped to 255) the copy raises AssertionError. So 'every constructed note can be copied' is false.", "quantifier": "every constructed note", "why_tests_cant": "The failing notes (denominator clamped from >= 256 to 255) are outside the values a test writer picks.", "anchors": ["neural_graph_composer/midi/midi_note.py:MidiNote.make_copy"]}
{"id": "C04", "title": "Note equality is a reflexive and symmetric tolerance relation", "statement": "a == a for every note; a == b iff b == a; equal notes agree exactly on pitch, velocity, program, instrument, steps, voice, signature and drum flag and their times differ by at most the 1e-9 tolerance.", "quantifier": "all pairs of notes", "why_tests_cant": "Quantifies over all pairs of real-valued times.", "anchors": ["neural_graph_composer/midi/midi_note.py:MidiNote.__eq__"]}
{"id": "C05", "title": "Notes can be ordered", "statement": "`<` on notes is irreflexive and asymmetric for all notes; for notes whose start and end times are equal or more than 1e-6 apart it is exactly the lexicographic order of (start, end, pitch) and a strict weak order; for closer times it is not transitive (three valid notes form a cycle). `<=` is total.", "quantifier": "all triples of notes", "why_tests_cant": "Order laws are universally quantified over triples; the tolerance breaks transitivity only on adversarial triples.", "anchors": ["neural_graph_composer/midi/midi_note.py:MidiNote.__lt__", "neural_graph_composer/midi/midi_note.py:MidiNote.__le__"]}
{"id": "C06", "title": "overlaps is exactly time overlap", "statement": "For valid notes a.overlaps(b) holds iff some instant lies in both half-open spans [start,end); hence it is symmetric, reflexive, and invariant under shifting both notes.", "quantifier": "all pairs of notes with start < end", "why_tests_cant": "Every relative position of two real intervals.", "anchors": ["neural_graph_composer/midi/midi_note.py:MidiNote.overlaps"]}
{"id": "C07", "title": "Step rounding stays within one step and is monotone", "statement": "quantize_to_nearest_step(t, sps, amount) raises iff sps <= 0 or amount <= 0; otherwise it is a non-negative step, monotone in t, and for t >= 0 and amount 0.5 the floor form is within half a step of t*sps while the ceil form overshoots by between 1/2 and 3/2 steps.", "quantifier": "all times, rates and amounts", "why_tests_cant": "Rounding laws over the reals.", "anchors": ["neural_graph_composer/midi/midi_note.py:MidiNote.quantize_to_nearest_step"]}
{"id": "C08", "title": "Quantizing a fresh note always succeeds and leaves a valid quantized note", "statement": "For every unquantized note with 0 <= start, every sps >= 1, 0 < amount <= 1 and no min_step, quantize_in_place does not raise; afterwards the note is quantized with 0 <= quantized_start < quantized_end, 0 <= start < end, all other fields are unchanged, and the quantized steps are the floor and ceil steps of the old times.", "quantifier": "all such notes, rates and amounts", "why_tests_cant": "Totality over all reals: one bad rounding combination suffices to raise.", "anchors": ["neural_graph_composer/midi/midi_note.py:MidiNote.quantize_in_place"]}
{"id": "C09", "title": "Quantization is idempotent on the grid", "statement": "With amount 1 and a rate that divides 100, quantizing a note on the grid keeps its times, and so does quantizing it again; with the default amount 1/2 every such note becomes exactly one step longer, and at rate 3 a grid note is moved off the grid: quantization is not idempotent in general.", "quantifier": "all notes and rates", "why_tests_cant": "Needs all grid positions and rates.", "anchors": ["neural_graph_composer/midi/midi_note.py:MidiNote.quantize_in_place", "neural_graph_composer/midi/midi_note.py:MidiNote.quantize"]}
{"id": "C10", "title": "Shifting and stretching act linearly", "statement": "shift_time(d) preserves duration and validity and composes additively, shift_time(-d) undoes it; stretch(k) multiplies the duration by k, composes multiplicatively and keeps start < end for k > 0.", "quantifier": "all notes, offsets and factors", "why_tests_cant": "Algebraic laws over all rationals.", "anchors": ["neural_graph_composer/midi/midi_note.py:MidiNote.shift_time", "neural_graph_composer/midi/midi_note.py:MidiNote.stretch", "neural_graph_composer/midi/midi_note.py:MidiNote.duration"]}
{"id": "C11", "title": "Pitch frequency is equal-tempered around A4 = 440", "statement": "note_to_freq(69) = 440, raising the note by 12 doubles the frequency, a semitone is a constant ratio whose 12th power is 2, the frequency is positive and strictly increasing; pitch_to_freq(name, octave) doubles per octave but is exactly nine semitones sharp of the named pitch at every name and octave (documented A4 = 440 is false, C4 gives 440).", "quantifier": "every note number, every octave and every pitch name", "why_tests_cant": "Unbounded note numbers and octaves; exact real equality cannot be tested in floats.", "anchors": ["neural_graph_composer/midi/midi_note.py:MidiNote.note_to_freq", "neural_graph_composer/midi/midi_note.py:MidiNote.pitch_to_freq", "neural_graph_composer/midi/midi_spec.py"]}
{"id": "C12", "title": "A note survives its dictionary form", "statement": "from_json of the dictionary holding all fields of a valid note (power-of-two denominator) rebuilds exactly that note; the voice, the drum flag and (for an unquantized start) the end step may be missing; a dictionary without the start step raises TypeError, without numerator or denominator AssertionError, without a required key KeyError.", "quantifier": "every constructed note and every subset of optional fields", "why_tests_cant": "All field combinations.", "anchors": ["neural_graph_composer/midi/midi_note.py:MidiNote.from_json"]}
{"id": "C13", "title": "Tempo conversions are mutually inverse and positive", "statement": "A tempo signature is constructible iff the given qpm and resolution are positive (AssertionError otherwise); for such a signature seconds per quarter, seconds per tick and the microsecond tempo are positive and mutually consistent, setting bpm and reading it back returns it; tempo_to_qpm is an order-reversing involution of the positive numbers. The bpm setter does not validate: a non-positive value is accepted.", "quantifier": "all tempos and resolutions", "why_tests_cant": "Algebraic identities over rationals.", "anchors": ["neural_graph_composer/midi/midi_time_signature.py:MidiTempoSignature"]}
{"id": "C14", "title": "Time signatures are validated and measure length is right", "statement": "A MidiTimeSignature is constructible exactly with numerator >= 1 and a power-of-two denominator (ValueError otherwise); beats_per_measure never raises and returns the numerator for denominator 1 and numerator*denominator/4 otherwise, so the documented value is right exactly for denominators 1 and 4 (6/8 gives 12).", "quantifier": "all numerators and denominators", "why_tests_cant": "Unbounded set of signatures.", "anchors": ["neural_graph_composer/midi/midi_time_signature.py:MidiTimeSignature"]}
{"id": "C15", "title": "Instrument info is validated, ordered and round-trips", "statement": "MidiInstrumentInfo accepts exactly 0..255, names every General MIDI program 1..128 by exactly one family of eight, round-trips through to_dict/from_dict, its equality is an equivalence compatible with hash, and < is a strict weak order.", "quantifier": "all instrument numbers, names and flags", "why_tests_cant": "Whole table and all strings.", "anchors": ["neural_graph_composer/midi/midi_instruments.py:MidiInstrumentInfo"]}
{"id": "C16", "title": "Pitch bends are validated", "statement": "A MidiPitchBend is constructible exactly when amount is in -8191..8191, time is >= 0 (or None, meaning 0) and program/instrument are in 0..127, and stores exactly its arguments.", "quantifier": "all argument tuples", "why_tests_cant": "Unbounded ranges.", "anchors": ["neural_graph_composer/midi/midi_pitch_bend.py:MidiPitchBend"]}
{"id": "C17", "title": "Control changes are clamped and copyable", "statement": "Constructing a control change never fails, clamps number/value/program/instrument to 0..255, time to >= 0 and the step to 1..32, and stores in-range values unchanged; a copy agrees in every field except that the drum flag and a non-default quantization step are dropped, so it equals the original iff neither is set.", "quantifier": "all argument tuples", "why_tests_cant": "Unbounded ranges.", "anchors": ["neural_graph_composer/midi/midi_control_change.py:MidiControlChange.__init__", "neural_graph_composer/midi/midi_control_change.py:MidiControlChange.make_copy"]}
{"id": "C18", "title": "Control changes can be quantized", "statement": "quantize and quantize_in_place of a control change raise ValueError for every control change, rate and amount; the step setters keep start < end; the step that would be stored at amount 1/2 is within half a step of time*sps. (The expectation that a control change can be quantized is false.)", "quantifier": "all control changes, rates", "why_tests_cant": "One needs every time and rate; the unit tests never quantize one.", "anchors": ["neural_graph_composer/midi/midi_control_change.py:MidiControlChange.quantize", "neural_graph_composer/midi/midi_control_change.py:MidiControlChange.quantize_in_place"]}
{"id": "C19", "title": "total_time bounds every note after any history", "statement": "Starting from a constructed sequence and applying any finite sequence of append, extend, add_note, insert, merge, notes assignment, stretch by a positive factor, cut_in_place and quantize, total_time is at least the end time of every visible note.", "quantifier": "every finite history of operations and arguments", "why_tests_cant": "Histories are unbounded.", "anchors": ["neural_graph_composer/midi/midi_sequence.py:MidiNoteSequence.total_time", "neural_graph_composer/midi/midi_sequence.py:append", "neural_graph_composer/midi/midi_sequence.py:extend", "neural_graph_composer/midi/midi_sequence.py:add_note", "neural_graph_composer/midi/midi_sequence.py:insert", "neural_graph_composer/midi/midi_sequence.py:merge", "neural_graph_composer/midi/midi_sequence.py:stretch", "neural_graph_composer/midi/midi_sequence.py:cut_in_place"]}
{"id": "C20", "title": "add_note adds exactly the note", "statement": "add_note(n) raises ValueError iff n.instrument differs from the sequence instrument; otherwise, if the drum flags of n and the sequence agree, n is appended at the end, len grows by one and total_time becomes the maximum with its end; if the drum flags differ the note is not visible and only total_time changes.", "quantifier": "every sequence and note", "why_tests_cant": "All sequences.", "anchors": ["neural_graph_composer/midi/midi_sequence.py:MidiNoteSequence.add_note"]}
{"id": "C21", "title": "merge is a sorted multiset union", "statement": "merge(other) raises ValueError iff instruments or resolutions differ or some note carries another instrument number; otherwise the notes are a permutation of the two note lists together, total_time is the maximum end, and when all times are equal or more than 1e-6 apart the result is sorted by (start, end, pitch). (For closer times sortedness can fail, see C22.)", "quantifier": "every pair of sequences", "why_tests_cant": "All lists and all interleavings of times.", "anchors": ["neural_graph_composer/midi/midi_sequence.py:MidiNoteSequence.merge"]}
{"id": "C22", "title": "insert keeps a sorted sequence sorted", "statement": "insert(n) always yields a permutation of the notes plus n; it keeps a sorted sequence sorted when all times are equal or more than 1e-6 apart; for nearly simultaneous valid notes a sorted sequence can become unsorted.", "quantifier": "every sorted sequence and every note", "why_tests_cant": "All lists and positions.", "anchors": ["neural_graph_composer/midi/midi_sequence.py:MidiNoteSequence.insert"]}
{"id": "C23", "title": "truncate keeps exactly the notes ending by the bound", "statement": "truncate(t) returns a sequence holding, in order, exactly the notes with end <= t, with total_time = max(0, min(total, t)) and the same instrument; truncating twice equals truncating at the minimum and the total time still covers the notes; the resolution of the result is always the default 220, not the receiver's.", "quantifier": "every sequence and bound", "why_tests_cant": "All lists and bounds.", "anchors": ["neural_graph_composer/midi/midi_sequence.py:MidiNoteSequence.truncate"]}
{"id": "C24", "title": "slice returns the notes of a window clipped to it", "statement": "On a sequence of notes with 0 <= start < end and the sequence's drum flag, slice(a,b) raises ValueError iff a note starting in the window carries another instrument number; otherwise it returns, in order, exactly the notes with a <= start < b, with unchanged ends (not clipped to b, so the total time can be smaller than an end).", "quantifier": "every sequence and window", "why_tests_cant": "All lists and windows.", "anchors": ["neural_graph_composer/midi/midi_sequence.py:MidiNoteSequence.slice"]}
{"id": "C25", "title": "shift_times shifts everything", "statement": "shift_times(d) raises ValueError iff all notes are quantized (in particular on an empty sequence); otherwise it moves every note by d and total_time to max(0, total+d); shift_times(-d) restores the sequence when total+d >= 0, and need not restore total_time otherwise.", "quantifier": "every sequence and offset", "why_tests_cant": "All lists and offsets.", "anchors": ["neural_graph_composer/midi/midi_sequence.py:MidiNoteSequence.shift_times"]}
{"id": "C26", "title": "extract partitions notes into windows", "statement": "extract(splits) raises on a quantized sequence (ValueError), fewer than two split points (TypeError), unsorted split points (AssertionError) and split points at or after the total time (TypeError); otherwise it raises ValueError whenever a note starts in the covered range, and returns n empty sub-sequences when none does. (The expectation that it partitions notes into windows is false.)", "quantifier": "every unquantized sequence and sorted list of split times", "why_tests_cant": "All lists and all split lists.", "anchors": ["neural_graph_composer/midi/midi_sequence.py:MidiNoteSequence.extract"]}
{"id": "C27", "title": "clone is a faithful deep copy", "statement": "clone() of a melodic sequence has the same visible notes, instrument, resolution, total_time, total steps, control changes and pitch bends; the clone of a drum sequence has no notes; clone_empty keeps instrument, resolution and total time and drops all events.", "quantifier": "every sequence, melodic or drum", "why_tests_cant": "All sequences.", "anchors": ["neural_graph_composer/midi/midi_sequence.py:MidiNoteSequence.clone", "neural_graph_composer/midi/midi_sequence.py:MidiNoteSequence.clone_empty"]}
{"id": "C28", "title": "Sequences of one instrument can be added", "statement": "a + b succeeds iff the instruments are equal and both sequences have no notes; in every other case it raises ValueError. (The expectation that sequences of one instrument can be concatenated is false.)", "quantifier": "every pair of sequences", "why_tests_cant": "All pairs.", "anchors": ["neural_graph_composer/midi/midi_sequence.py:MidiNoteSequence.__add__"]}
{"id": "C29", "title": "Quantizing a sequence quantizes every note", "statement": "quantize(sps, amount) with sps >= 1 and 0 < amount <= 1 on a sequence without control changes of valid notes that do not start before 0 succeeds, preserves number and order, quantizes every note individually, makes is_quantized() true and covers the notes; total_quantized_steps stays unchanged on fresh notes (stale); any control change makes it raise.", "quantifier": "every sequence, rate and amount", "why_tests_cant": "All lists and rates.", "anchors": ["neural_graph_composer/midi/midi_sequence.py:MidiNoteSequence.quantize", "neural_graph_composer/midi/midi_sequence.py:MidiNoteSequence._quantize"]}
{"id": "C30", "title": "Split interval boundaries are increasing", "statement": "compute_intervals returns a list starting at 0 that contains only requested split points and is sorted when they are sorted and non-negative; each strictly increasing split point occurs once per note that starts before it and not before the previous one (so duplicates occur, and a point without notes before it is missing); split never returns a piece and raises AttributeError on every sequence of positive total time.", "quantifier": "all note lists and split lists", "why_tests_cant": "All lists.", "anchors": ["neural_graph_composer/midi/midi_sequence.py:MidiNoteSequence.compute_intervals", "neural_graph_composer/midi/midi_sequence.py:MidiNoteSequence.split"]}
{"id": "C31", "title": "calculate_min_step is the least gap", "statement": "calculate_min_step is 0 when no two consecutive notes are disjoint, and otherwise the least start-to-start distance of consecutive disjoint notes; it is never negative.", "quantifier": "every sequence", "why_tests_cant": "All lists.", "anchors": ["neural_graph_composer/midi/midi_sequence.py:MidiNoteSequence.calculate_min_step"]}
{"id": "C32", "title": "Track access is stable", "statement": "In a set accessed by [] alone, or by create_track / get_track alone (valid indices), every later access to an index hands out the track created first for it, and no access destroys or replaces another track. When [] and create_track/get_track are mixed this is false: a [] access can replace another index's track or make get_track raise KeyError.", "quantifier": "every history of [], []=, create_track, get_track", "why_tests_cant": "Unbounded histories; the internal index is len(tracks).", "anchors": ["neural_graph_composer/midi/midi_sequences.py:MidiNoteSequences.__getitem__", "neural_graph_composer/midi/midi_sequences.py:__setitem__", "neural_graph_composer/midi/midi_sequences.py:create_track", "neural_graph_composer/midi/midi_sequences.py:get_track"]}
{"id": "C33", "title": "Iteration over tracks is in strictly increasing index order", "statement": "Iterating over a MidiNoteSequences yields each track index once in ascending order, len counts them.", "quantifier": "every history", "why_tests_cant": "Unbounded histories.", "anchors": ["neural_graph_composer/midi/midi_sequences.py:MidiNoteSequences.__iter__", "neural_graph_composer/midi/sorted_dict.py:SortedDict"]}
{"id": "C34", "title": "Signature lists stay sorted by time", "statement": "After any history of additions at non-negative times that are pairwise equal or clearly apart (1e-6 absolute, 1e-9 relative), no addition raises, the list is sorted by time, its first entry is at time 0 and is the last one added there (or the default), and the others are exactly the signatures added at other times, none lost or twice. For closer times a signature can be lost (drift of the replacement window), and an empty list makes every addition raise IndexError.", "quantifier": "every finite history of additions", "why_tests_cant": "Unbounded histories.", "anchors": ["neural_graph_composer/midi/midi_sequences.py:add_time_signatures", "neural_graph_composer/midi/midi_sequences.py:add_key_signatures", "neural_graph_composer/midi/midi_sequences.py:add_tempo_signature"]}
{"id": "C35", "title": "Signature lookup returns the signature in force", "statement": "After any history as in C34: a lookup at a positive time at which no signature starts returns the signature in force; at the start time of an added signature it returns an earlier one (never one that starts there); at time 0 it returns the default if nothing was added at 0 and otherwise the LAST signature of the list. Memoised lookups are never stale with respect to additions, except initial_tempo, whose memo is never cleared.", "quantifier": "every signature list, every t >= 0, every interleaving of additions and lookups", "why_tests_cant": "All interleavings with the cache.", "anchors": ["neural_graph_composer/midi/midi_sequences.py:time_signature", "neural_graph_composer/midi/midi_sequences.py:key_signature", "neural_graph_composer/midi/midi_sequences.py:tempo_signature", "neural_graph_composer/midi/midi_sequences.py:initial_tempo"]}
{"id": "C36", "title": "Importing sequences keeps every note", "statement": "Constructing a MidiNoteSequences from a list of sequences keeps every note: sequences of one instrument number are merged, others get their own track, and the multiset of all notes equals the union of the inputs.", "quantifier": "every list of sequences", "why_tests_cant": "All lists.", "anchors": ["neural_graph_composer/midi/midi_sequences.py:_add_midi_note_sequence"]}
{"id": "C37", "title": "is_quantized, trim and truncate act on the tracks", "statement": "MidiNoteSequences.is_quantized() is true on every set of tracks; trim never changes anything; truncate() without bound returns the largest end of all events (ValueError without events) and changes nothing; truncate(from_start=b) with events raises AttributeError if the earliest event ends by b and otherwise returns None, changing nothing. (The expected effects on the tracks are all absent.)", "quantifier": "every set of tracks", "why_tests_cant": "All histories.", "anchors": ["neural_graph_composer/midi/midi_sequences.py:is_quantized", "neural_graph_composer/midi/midi_sequences.py:trim", "neural_graph_composer/midi/midi_sequences.py:truncate"]}
{"id": "C38", "title": "SortedDict is a map with sorted iteration", "statement": "After any history of item assignment and deletion a SortedDict behaves as a finite map (lookup returns the last assigned value not deleted; deletion of a missing key raises and changes nothing) and keys/values/items/iter list entries in strictly ascending key order, reversed in descending order.", "quantifier": "every finite history of operations", "why_tests_cant": "Unbounded histories.", "anchors": ["neural_graph_composer/midi/sorted_dict.py:SortedDict"]}
{"id": "C39", "title": "SortedIntervalDict slice lookup returns overlapping intervals", "statement": "For a SortedIntervalDict built by assignments, d[a:b] contains exactly the entries whose interval overlaps [a,b].", "quantifier": "every history and window", "why_tests_cant": "Unbounded histories.", "anchors": ["neural_graph_composer/midi/sorted_interval_dict.py:SortedIntervalDict"]}
{"id": "C40", "title": "Closed-interval algebra", "statement": "For midi Interval: contains, overlaps, intersection and union agree with set semantics on closed integer intervals; overlaps is symmetric; intersection is None iff disjoint; union of overlapping intervals is exactly the set union; < is the lexicographic strict total order.", "quantifier": "all integer intervals and points", "why_tests_cant": "All integers.", "anchors": ["neural_graph_composer/midi/Interval.py:Interval"]}
{"id": "C41", "title": "Interval tree set semantics", "statement": "After any history of add/addi/append/clear on a FloatIntervalTree, membership and len agree with the mathematical set of added intervals, adding twice is the same as once, null intervals are rejected without change, and begin/end are the least begin and greatest end.", "quantifier": "every finite history", "why_tests_cant": "Unbounded histories.", "anchors": ["neural_graph_composer/interval/intervaltree.py:FloatIntervalTree.add", "neural_graph_composer/interval/intervaltree.py:begin", "neural_graph_composer/interval/intervaltree.py:end", "neural_graph_composer/interval/intervaltree.py:__contains__"]}
{"id": "C42", "title": "The search tree holds exactly the stored intervals", "statement": "After any history of adds, removes and clears that runs without exception the intervals in the node structure are exactly the stored set, each once (rotations and prunings never lose or invent one); with discards (of non-point-like intervals) the nodes still hold every stored interval, plus discarded ones; a tree built from a duplicate-free collection holds exactly it, and building from an interval whose ends are close (math.isclose) exhausts any recursion limit.", "quantifier": "every finite history; every tree", "why_tests_cant": "Unbounded tree shapes.", "anchors": ["neural_graph_composer/interval/node.py:Node.add", "neural_graph_composer/interval/node.py:Node.rotate", "neural_graph_composer/interval/node.py:Node.init_from_sorted"]}
{"id": "C43", "title": "Removing a stored interval succeeds", "statement": "remove of a missing interval raises ValueError and discard of it changes nothing; whenever remove or discard returns, exactly that interval has left the set; but after any history of non-point-like intervals remove of any such interval raises ValueError even if it is stored, and discard of a stored one removes it from the set while leaving it in the search structure.", "quantifier": "every tree and interval", "why_tests_cant": "All trees.", "anchors": ["neural_graph_composer/interval/intervaltree.py:FloatIntervalTree.remove", "neural_graph_composer/interval/intervaltree.py:discard", "neural_graph_composer/interval/node.py:Node.remove_interval_helper"]}
{"id": "C44", "title": "Point and range queries are correct", "statement": "On every non-empty tree reached by adds, discards and clears of non-point-like intervals, at(p), overlap(b,e) and remove_overlap(b,e) raise AttributeError for every number, and overlaps_point / overlaps answer False for every point and range although every stored interval contains points; on the empty tree searches return the empty set. (So point and range queries are never correct on a non-empty tree.)", "quantifier": "every tree, point and range", "why_tests_cant": "All trees.", "anchors": ["neural_graph_composer/interval/interval.py:FloatInterval.contains_point", "neural_graph_composer/interval/interval.py:FloatInterval.overlaps", "neural_graph_composer/interval/intervaltree.py:FloatIntervalTree.overlap"]}
{"id": "C45", "title": "Grouping notes by time loses nothing", "statement": "compute_data partitions the non-drum notes of non-zero velocity into groups by (quantized) start time: every such note is in exactly one group, group order is first occurrence order, groups with equal time are never split, and the reported longest group is the maximal group size.", "quantifier": "every note list and tolerance", "why_tests_cant": "All lists.", "anchors": ["neural_graph_composer/midi_graph_builder.py:MidiGraphBuilder.compute_data"]}
{"id": "C46", "title": "Velocity rescaling stays in range and is monotone", "statement": "rescale_velocities maps any list of velocities in 0..127 to a list of the same length with values in 0..127 and preserves the order of velocities.", "quantifier": "every velocity list", "why_tests_cant": "All lists.", "anchors": ["neural_graph_composer/midi_graph_builder.py:MidiGraphBuilder.rescale_velocities"]}
{"id": "C47", "title": "Edge weights count transitions", "statement": "In the graph built from a sequence of chords, the sum of all edge weights equals the number of chord steps and each edge weight is the number of consecutive transitions it represents.", "quantifier": "every chord sequence", "why_tests_cant": "All sequences.", "anchors": ["neural_graph_composer/midi_graph_builder.py:MidiGraphBuilder.build_sequence"]}
{"id": "C48", "title": "Edges follow playing order", "statement": "Two chords visited in succession are always joined by an edge, every edge comes from two chords visited in that order (except the self edge of the first chord), and two different nodes are never joined in both directions; the visiting order is the order of the hash keys of the groups, which is the playing order if hashing is monotone on the times in use, and is not in general (a concrete melody loses its playing order).", "quantifier": "every chord sequence", "why_tests_cant": "All sequences.", "anchors": ["neural_graph_composer/midi_graph_builder.py:MidiGraphBuilder.build_sequence"]}
{"id": "C49", "title": "Chord index maps are mutually inverse", "statement": "After building any sequences, hash_to_index and index_to_hash are mutually inverse bijections between the known chords and 1..n (so index 0 is unused and n is not a valid class among n), an index is never changed by later builds, and notes_to_hash / hash_to_notes are mutually inverse when no two recorded chords have equal hashes (a collision overwrites).", "quantifier": "every history of builds", "why_tests_cant": "Unbounded histories.", "anchors": ["neural_graph_composer/midi_graph_builder.py:MidiGraphBuilder.build_sequence"]}
{"id": "C50", "title": "Every node of a built graph is complete", "statement": "Each node of the built graph carries attr, node_hash and label, its label maps back through index_to_hash to its node_hash, and nodes are exactly the distinct chords.", "quantifier": "every chord sequence", "why_tests_cant": "All sequences.", "anchors": ["neural_graph_composer/midi_graph_builder.py:MidiGraphBuilder.build_sequence"]}
{"id": "C51", "title": "Feature vectors have the requested size", "statement": "create_tensor yields a vector of exactly feature_vec_size entries: the chord pitches then zeros.", "quantifier": "every pitch group and size", "why_tests_cant": "All groups.", "anchors": ["neural_graph_composer/midi_graph_builder.py:MidiGraphBuilder.create_tensor"]}
{"id": "C52", "title": "merge_nodes preserves connectivity", "statement": "On a well-formed graph and a duplicate-free list of its nodes, merge_nodes removes exactly those nodes, adds one new node, keeps all edges among the others, and gives the new node exactly the out-edges of the merged nodes (the attribute of the last one wins); edges from outside INTO a merged node are lost in every graph. An empty graph or a repeated node raises.", "quantifier": "every digraph and node set", "why_tests_cant": "All graphs.", "anchors": ["neural_graph_composer/midi_graph_builder.py:MidiGraphBuilder.merge_nodes"]}
{"id": "C53", "title": "graphs() yields every built graph", "statement": "Iterating over graphs() yields only the first built graph (labelled by its indices) and drops the others, for any number of built graphs; with nothing built it raises ValueError.", "quantifier": "every number of built graphs", "why_tests_cant": "The failure needs at least two graphs.", "anchors": ["neural_graph_composer/midi_graph_builder.py:MidiGraphBuilder.graphs"]}
{"id": "C54", "title": "Wide chords are split without loss", "statement": "A chord of more pitches than feature_vec_size is split into groups of at most feature_vec_size pitches which together contain exactly its pitches.", "quantifier": "every pitch set and size >= 1", "why_tests_cant": "All sets and sizes.", "anchors": ["neural_graph_composer/midi_graph_builder.py:MidiGraphBuilder.build_sequence"]}
{"id": "C55", "title": "Delta and absolute ticks round-trip", "statement": "Converting a track of delta ticks to absolute ticks (loading) and back (serializing) is the identity; a sorted absolute track serializes to non-negative deltas.", "quantifier": "every track", "why_tests_cant": "All lists.", "anchors": ["neural_graph_composer/custom_pretty_midi.py:from_file", "neural_graph_composer/custom_pretty_midi.py:serialize"]}
{"id": "C56", "title": "The tick table is strictly increasing and piecewise linear", "statement": "For every tick-scale list starting at tick 0 with increasing ticks and positive scales, tick_to_time is strictly increasing, starts at 0 and advances by the scale in force at each tick; growing the table never changes an already computed entry.", "quantifier": "every tempo map and tick", "why_tests_cant": "All tempo maps.", "anchors": ["neural_graph_composer/custom_pretty_midi.py:_update_tick_to_time", "neural_graph_composer/custom_pretty_midi.py:tick_to_time"]}
{"id": "C57", "title": "time_to_tick inverts tick_to_time", "statement": "time_to_tick(tick_to_time(k)) = k for every tick, and time_to_tick of any time returns a nearest tick.", "quantifier": "every tempo map, tick and time", "why_tests_cant": "All tempo maps.", "anchors": ["neural_graph_composer/custom_pretty_midi.py:time_to_tick"]}
{"id": "C58", "title": "Notes of a loaded file are determined exactly, one per note-on that is closed", "statement": "For every file whose tracks have ticks in order, loading never raises and the notes of all loaded instruments are exactly the following, each once: every note-on (velocity > 0) is closed by the first of (a) the next note-on of any pitch or channel at a later tick, (b) a note-off of its own channel and pitch at another tick, (c) the end-of-track message; of several note-ons of one channel and pitch at one tick all but the first become notes only if their closing event is a note-off; a note-on that nothing closes is dropped. No note is created without a note-on and every note starts before it ends unless the end of track closes it at its own tick. The natural expectation that a note ends at its own note-off is refuted: an overlapping later note-on truncates it.", "quantifier": "every list of tracks with ticks in order, every drum channel and tick-to-time map", "why_tests_cant": "All event lists.", "anchors": ["neural_graph_composer/custom_pretty_midi.py:_load_instruments", "neural_graph_composer/custom_pretty_midi.py:_note_off_event", "neural_graph_composer/custom_pretty_midi.py:_finish_notes"]}
{"id": "C59", "title": "Serialized events are ordered", "statement": "Serializing an unnamed instrument with values in MIDI range never raises and gives a track sorted by tick in which, at one tick, note-offs precede note-ons, followed by the end of track one tick after the last event; on the event types in its dictionary the comparator is a strict weak order, a track name makes it inconsistent, and a note whose start and end fall on one tick is turned round (note-off first).", "quantifier": "every event list", "why_tests_cant": "All event lists.", "anchors": ["neural_graph_composer/custom_pretty_midi.py:serialize.event_compare"]}
{"id": "C60", "title": "Tempo map loading", "statement": "Loading tempo events yields a tick-scale list starting at tick 0 whose ticks increase when event ticks do, with no two consecutive equal scales.", "quantifier": "every tempo event list", "why_tests_cant": "All lists.", "anchors": ["neural_graph_composer/custom_pretty_midi.py:_load_tempo_changes"]}
{"id": "C61", "title": "Which notes of a file are read", "statement": "Reading an object whose data are in the MIDI ranges succeeds with one track per instrument, and a track holds, in file order and with velocity, pitch, start and end unchanged, exactly the notes whose start and end are not math.isclose and that do not end before an earlier such note of the same instrument. So all notes are kept when ends are in order (as they are after loading a file), and a note that ends before an earlier one is lost.", "quantifier": "every loaded object within the value ranges, every instrument and note list", "why_tests_cant": "Order of notes in the file matters.", "anchors": ["neural_graph_composer/midi_reader.py:MidiReader.read_instrument"]}
{"id": "C62", "title": "Key signatures round-trip through reader and writer", "statement": "The key signature made for each of the 24 key numbers is written back as the same number; any other number makes read raise ValueError; for files whose key signatures are at clearly separated times the whole list of key numbers and times survives (preceded by the default C major if the file has none at time 0).", "quantifier": "all 24 key numbers and every key signature", "why_tests_cant": "Whole table.", "anchors": ["neural_graph_composer/midi_reader.py:MidiReader.read", "neural_graph_composer/midi_reader.py:MidiReader.to_pretty_midi"]}
{"id": "C63", "title": "Hash-index mapper is a bijection under any history", "statement": "After any history of add_node_hash and merge_with, NodeHashIndexMapper maps the added hashes bijectively onto 0..n-1 in first-seen order, get_node_hash(get_index(h)) = h, and existing indices never change.", "quantifier": "every finite history", "why_tests_cant": "Unbounded histories.", "anchors": ["neural_graph_composer/midi_dataset.py:NodeHashIndexMapper"]}
{"id": "C64", "title": "Train/val/test masks partition the nodes", "statement": "For every number of nodes, every accepted ratio pair and every random permutation, the three masks are disjoint, cover all nodes, and have sizes int(r*n), int(v*n) and the rest.", "quantifier": "every n, ratios and permutation (schedule of the RNG)", "why_tests_cant": "All permutations.", "anchors": ["neural_graph_composer/midi_dataset.py:_mask_per_instrument", "neural_graph_composer/midi_dataset.py:_mask_entire_graph", "neural_graph_composer/midi_dataset.py:MidiDataset.__init__"]}
{"id": "C65", "title": "Interrupted processing and the contents of the processed files", "statement": "After any history of finished and interrupted constructor calls: a dataset opened with per_instrument_graph=True never reads a half-written file; an interruption at any point except inside the second save makes the next call process again; an interruption inside the second save makes every later call with per_instrument_graph=False raise for ever (this is a defect); a finished call returns the graphs of the per-instrument pass for both values of the flag, so the whole-graph file does not hold whole graphs (this is a defect).", "quantifier": "every history of calls and every crash point between the effects on the directory", "why_tests_cant": "Crash points.", "anchors": ["neural_graph_composer/midi_dataset.py:process", "neural_graph_composer/midi_dataset.py:processed_file_exists", "neural_graph_composer/midi_dataset.py:load_processed"]}
{"id": "C66", "title": "Resuming continues after the newest checkpoint", "statement": "After any history of completed and interrupted saves, whatever order the files are listed in: if the last save of the largest epoch was completed, load_checkpoint restores the state saved then and resumes at that epoch + 1; with no checkpoint it changes nothing.", "quantifier": "every history of saves and every listing order", "why_tests_cant": "All sets.", "anchors": ["ngc_shared.py:load_checkpoint", "ngc_shared.py:save_checkpoint", "ngc_shared.py:update_metrics"]}
{"id": "C67", "title": "What removing nodes does to a graph", "statement": "On a graph whose edge endpoints are nodes, remove_nodes_and_edges and RandomNodeDrop keep, in order, the rows of the nodes not chosen and exactly the edges with both ends kept (RandomNodeDrop also labels, masks and edge attributes, aligned). Edges are not renumbered: the number of a surviving node finds its row afterwards exactly when no removed node comes before it (a defect). RandomNodeDrop removes int(p*n) nodes; without edge attributes it stores sources and targets as edge_index and edge_attr (a defect).", "quantifier": "every graph, every random choice and permutation", "why_tests_cant": "All graphs and random choices.", "anchors": ["ngc_shared.py:remove_nodes_and_edges", "neural_graph_composer/transforms.py:RandomNodeDrop"]}
{"id": "C68", "title": "Scale notes are transposition-consistent", "statement": "notes_from_scale(root, scale) returns seven different notes, the root first, note k lying the sum of the first k steps of the textbook step pattern above the root, whatever the iteration order of the interval set; transposing the root transposes every note by the same amount modulo 12; a mode built on degree k of a major scale has that scale's notes rotated by k; a text root is accepted exactly when it is one of the twelve upper-case names, a number never, a scale text exactly when it names a member, every refusal being a ValueError. triads_from_scale(_tuple) stack degrees i, i+2, i+4; the announced triad types are right exactly for six of the ten scales. chord_from_scale_name_extended returns all 23 chord names whatever the scale. intervals_from_scale takes the ten names in either case and raises KeyError for any other text.", "quantifier": "every root (any text or number), every scale, every iteration order of a frozenset", "why_tests_cant": "Whole product of tables.", "anchors": ["neural_graph_composer/midi/midi_scales.py:MusicTheory.notes_from_scale", "neural_graph_composer/midi/midi_scales.py:MusicTheory.triads_from_scale_tuple", "neural_graph_composer/midi/midi_scales.py:MusicTheory.chord_from_scale_name_extended", "neural_graph_composer/midi/midi_scales.py:MusicTheory.intervals_from_scale"]}
{"id": "C69", "title": "Compound intervals reduce and rebuild", "statement": "compound_interval_to_base and base_to_compound_interval are inverse to each other on every non-negative size and on every base in 0..11 with every non-negative octave count, and refuse everything else with a ValueError; compound_interval_from_bases is the sum when at most 22 and a ValueError otherwise; the parts returned by bases add up to the interval. inverse_compound_interval is not an inversion: interval plus inverse is twelve times the number of parts, which is an octave only for P1 and P8.", "quantifier": "every interval size", "why_tests_cant": "Unbounded.", "anchors": ["neural_graph_composer/midi/midi_scales.py:compound_interval_to_base", "neural_graph_composer/midi/midi_scales.py:base_to_compound_interval", "neural_graph_composer/midi/midi_scales.py:compound_interval_from_bases", "neural_graph_composer/midi/midi_scales.py:bases", "neural_graph_composer/midi/midi_scales.py:inverse_compound_interval"]}
{"id": "C70", "title": "Pitch names round-trip", "statement": "pitch_to_note maps every integer pitch to the name of its pitch class followed by its octave (pitch // 12); different pitches get different texts, so the pitch is determined by the text.", "quantifier": "every pitch number", "why_tests_cant": "All pitches.", "anchors": ["neural_graph_composer/midi/midi_scales.py:pitch_to_note"]}
{"id": "C71", "title": "Chord naming is consistent with the chord table", "statement": "get_chord_name and get_chord_name_from_intervals return a name only for the intervals of that name and a name whenever there is one; they give every name back from its intervals except aug7 (comes back as M7) resp. M7 (comes back as aug7), and agree on every list except [4,3,4]. chord_pitch_from_interval with interval members gives (root + interval) mod 12 for each, a KeyError beyond the octave, and commutes with transposition; with texts it reads minor intervals as major. The two chord tables agree except for exactly five names. chord_from_scale works exactly for one-character types M, m, 7, 6. list_of_chords fails on every non-empty list. As texts exactly nineteen interval names are understood. A root outside the twelve is a ValueError, a mix of members and texts a TypeError, an unknown chord name a KeyError.", "quantifier": "every chord name, list of intervals, root and chord text", "why_tests_cant": "Whole tables.", "anchors": ["neural_graph_composer/midi/midi_scales.py:get_chord_name", "neural_graph_composer/midi/midi_scales.py:get_chord_name_from_intervals", "neural_graph_composer/midi/midi_scales.py:chord_pitch_from_interval", "neural_graph_composer/midi/midi_scales.py:chord_from_scale", "neural_graph_composer/midi/midi_scales.py:list_of_chords"]}
{"id": "C72", "title": "Tempo and step conversions", "statement": "The tempo/step conversions are linear, strictly increasing and positive for positive arguments, agree with one another (steps_per_second_from_bpm, from_spq_to_sps, from_bpm_spq_to_sps after dividing the tempo), and the rounded variant differs by at most half of the tenth decimal. bpm_to_qpm after qpm_to_bpm multiplies by quarter*beats/60: it is the identity exactly when quarter*beats = 60, so not with the defaults.", "quantifier": "all rational tempos, resolutions, beats", "why_tests_cant": "All rationals.", "anchors": ["neural_graph_composer/midi/midi_utils.py:steps_per_second_from_bpm", "neural_graph_composer/midi/midi_utils.py:from_bpm_spq_to_sps", "neural_graph_composer/midi/midi_utils.py:from_spq_to_sps", "neural_graph_composer/midi/midi_utils.py:bpm_to_qpm", "neural_graph_composer/midi/midi_utils.py:bpm_to_qpm_np", "neural_graph_composer/midi/midi_utils.py:qpm_to_bpm"]}
{"id": "C73", "title": "Grid quantization returns the nearest grid line", "statement": "quantize_to_nearest_step returns a multiple of the step duration at distance at most half of it, is idempotent and monotone and its assertion never fails (the step lasts num/step beats, not step beats). ft_quantize_to_nearest_step is odd and monotone and rounds to nearest exactly when steps_per_second*threshold = 1/2; it truncates when that product is at least 1. quantize_note_to_step_grid rounds to the nearest step when the grid is a whole number of steps, drifts without bound otherwise, and never reverses a note. quantize_to_nearest_step_alt rounds to nearest exactly for threshold 0. vector_quantize picks a grid point at minimal distance. interpolates_quantize is off by the position in the grid times step*(1-1/ticks per second). quantize_and_snap_to_grid always raises.", "quantifier": "all rational times, steps, tempos, thresholds, grids and note lists", "why_tests_cant": "All rationals.", "anchors": ["neural_graph_composer/midi/midi_utils.py:quantize_to_nearest_step", "neural_graph_composer/midi/midi_utils.py:quantize_note_to_step_grid", "neural_graph_composer/midi/midi_utils.py:ft_quantize_to_nearest_step", "neural_graph_composer/midi/midi_utils.py:quantize_to_nearest_step_alt", "neural_graph_composer/midi/midi_utils.py:vector_quantize", "neural_graph_composer/midi/midi_utils.py:interpolates_quantize", "neural_graph_composer/midi/midi_utils.py:quantize_and_snap_to_grid"]}
{"id": "C74", "title": "Frame conversion covers the note", "statement": "frames_from_times without occupancy returns the smallest non-empty range of frames covering the note; it raises ValueError exactly for negative times or an empty frame range (so end < start inside one frame is accepted). With an occupancy the range is ordered, at least one frame at the end of the note is always dropped, and (from one frame per second on) the start frame moves by one exactly when the first frame is occupied less than wanted; below one frame per second the start frame can become negative.", "quantifier": "all rational times, rates and occupancies", "why_tests_cant": "All rationals.", "anchors": ["neural_graph_composer/midi/midi_utils.py:frames_from_times"]}
{"id": "C75", "title": "One-hot encodings have one hot entry", "statement": "np_onehot gives for each index a row with a single 1 at index mod depth, raises IndexError exactly when some index lies outside -depth..depth-1, and is injective on non-negative indices. In pretty_midi_to_one_hot an entry is 1 exactly when in some instrument a note is switched on there and neither it nor a later note of the list is switched off there, 0 otherwise and never -1; a note within one column is lost; when no note ends in a column where a note of its pitch starts, every onset is marked. With at least one instrument, pitches 0..127 and non-negative ordered times it never raises, and the width is one more than the largest int(fs*end).", "quantifier": "all index lists, depths, instruments, notes and sampling rates", "why_tests_cant": "All lists.", "anchors": ["neural_graph_composer/utils.py:np_onehot", "neural_graph_composer/utils.py:pretty_midi_to_one_hot"]}
{"id": "C76", "title": "Random edge drop only removes edges", "statement": "With one attribute per edge, RandomEdgeDrop keeps exactly the pairs (edge, attribute) selected by the random mask, in order, and leaves nodes, labels and masks alone; label edges of a different number make it raise IndexError.", "quantifier": "every graph and every random mask", "why_tests_cant": "All masks.", "anchors": ["neural_graph_composer/transforms.py:RandomEdgeDrop"]}
{"id": "C77", "title": "PPQ to QPM follows the tempo", "statement": "ppq_to_qpm(ppq, tempo, tpb) returns 60/ppq for every non-zero tempo and ticks per beat: the tempo is ignored, so the expected 'quarter notes per minute of the given tempo' is false.", "quantifier": "all resolutions and tempi", "why_tests_cant": "All rationals.", "anchors": ["neural_graph_composer/midi/midi_time_signature.py:MidiTempoSignature"]}
{"id": "C78", "title": "Signatures are ordered by time", "statement": "The order of signatures is irreflexive and asymmetric, is the order of times whenever these differ by more than one part in 10^9, falls back on the sequence number at equal times, and is transitive on signatures whose times are pairwise equal or so separated; in general it is not transitive (three signatures form a cycle). A key signature accepts exactly the mode bytes 0 (major) and 1 (minor).", "quantifier": "all signatures", "why_tests_cant": "Pairs and triples of all signatures.", "anchors": ["neural_graph_composer/midi/midi_time_signature.py", "neural_graph_composer/midi/midi_key_signature.py"]}
{"id": "C79", "title": "Every controller number has a name", "statement": "The controller table names exactly the numbers 0..127 except 19..30 and 88..90; so the expectation that every controller number has a name is false.", "quantifier": "all 128 controller numbers", "why_tests_cant": "Whole table.", "anchors": ["neural_graph_composer/midi/midi_control_change.py"]}
{"id": "C80", "title": "cut keeps a prefix of the notes", "statement": "cut_in_place(k) keeps exactly the first k notes with total_time their largest end; cut(k) raises IndexError iff nothing remains and otherwise returns the first k notes with total_time the minimum of the old total and the end of the LAST kept note, which can be smaller than an earlier note's end.", "quantifier": "all sequences and cut positions", "why_tests_cant": "All lists.", "anchors": ["neural_graph_composer/midi/midi_sequence.py:MidiNoteSequence.cut", "neural_graph_composer/midi/midi_sequence.py:MidiNoteSequence.cut_in_place"]}
{"id": "C81", "title": "SortedDict can be built from a mapping and cleared", "statement": "SortedDict(items) raises AttributeError for every non-empty collection; after clear() len is 0 but the keys are still listed, values() and items() raise KeyError unless the dictionary was empty, and assigning a stale key lists it twice. (The expected behaviour is false.)", "quantifier": "every mapping and every history", "why_tests_cant": "All mappings.", "anchors": ["neural_graph_composer/midi/sorted_dict.py:SortedDict.__init__", "neural_graph_composer/midi/sorted_dict.py:SortedDict.clear"]}
{"id": "C82", "title": "Signatures added at the same time keep the order received", "statement": "Signatures added in time order at positive times that are equal or clearly apart are listed in the order received; when they are added out of time order, two signatures of equal time can be listed in reverse order.", "quantifier": "every list of additions", "why_tests_cant": "All orders.", "anchors": ["neural_graph_composer/midi/midi_sequences.py:add_time_signatures", "neural_graph_composer/midi/midi_sequences.py:add_key_signatures", "neural_graph_composer/midi/midi_sequences.py:add_tempo_signature"]}
{"id": "C83", "title": "An assigned track is read back", "statement": "After any history and seqs[k] = s, get_track(k) returns s; but seqs[k] on a fresh set returns a newly created track instead of s.", "quantifier": "every set of sequences, index and sequence", "why_tests_cant": "All histories.", "anchors": ["neural_graph_composer/midi/midi_sequences.py:MidiNoteSequences.__setitem__", "neural_graph_composer/midi/midi_sequences.py:MidiNoteSequences.__getitem__"]}
{"id": "C84", "title": "The tolerance argument controls grouping", "statement": "The tolerance argument of build_sequence has no effect on the result as long as it is in 0..1: two such tolerances give the same graph and tables for every sequence, so it does not control grouping.", "quantifier": "every sequence, tolerance and pair of notes", "why_tests_cant": "All tolerances and sequences.", "anchors": ["neural_graph_composer/midi_graph_builder.py:MidiGraphBuilder.compute_data"]}
{"id": "C85", "title": "Connectivity queries follow playing direction", "statement": "For nodes u, v of the graph, is_connected(G,u,v) answers whether there is an edge from v to u (against the argument order), so for two different chords played once in succession is_connected(first, second) is False; get_edge_connected(u,v) returns the edge from u to v if there is one.", "quantifier": "every graph and node pair", "why_tests_cant": "All graphs.", "anchors": ["neural_graph_composer/midi_graph_builder.py:MidiGraphBuilder.is_connected", "neural_graph_composer/midi_graph_builder.py:MidiGraphBuilder.get_edge_connected"]}
{"id": "C86", "title": "Every valid chord can be one-hot encoded", "statement": "One-hot encoding of a chord of non-negative pitches succeeds iff every pitch is below the number of classes, with one row per pitch holding a single 1 at the pitch; build_sequence uses 127 classes, so a chord with the valid pitch 127 always raises.", "quantifier": "every chord", "why_tests_cant": "All chords.", "anchors": ["neural_graph_composer/midi_graph_builder.py:MidiGraphBuilder.create_tensor"]}
{"id": "C87", "title": "Relative velocity scaling", "statement": "scale_relative_velocities(velocities, factor) returns each velocity multiplied by the factor, clipped to 0..127 and truncated to an integer, keeping the number and order of velocities.", "quantifier": "every velocity list with non-zero mean and every factor", "why_tests_cant": "All lists.", "anchors": ["neural_graph_composer/midi_graph_builder.py:MidiGraphBuilder"]}
{"id": "C88", "title": "The automatic tolerance lies within the observed gaps", "statement": "The tolerance computed from a sequence is non-negative and never exceeds the largest gap of consecutive start times, whatever the percentile.", "quantifier": "every sequence and percentile", "why_tests_cant": "All inputs.", "anchors": ["neural_graph_composer/midi_graph_builder.py:MidiGraphBuilder.compute_tolerance"]}
{"id": "C89", "title": "Conversion to the learning format keeps the graph", "statement": "Converting a built graph to index form keeps every node in order, every edge with its weight, and all edge indices refer to existing nodes.", "quantifier": "every built graph", "why_tests_cant": "All graphs.", "anchors": ["neural_graph_composer/midi_graph_builder.py:MidiGraphBuilder.from_midi_networkx"]}
{"id": "C90", "title": "Every melodic track is represented in the built graphs", "statement": "A melodic track with several notes and at least one audible melodic note adds exactly one graph per instrument build (without the single-note filter); a drum track or a track with a single note is left out of every build entirely.", "quantifier": "every track", "why_tests_cant": "All tracks.", "anchors": ["neural_graph_composer/midi_graph_builder.py:MidiGraphBuilder.build"]}
{"id": "C95", "title": "The tempo map survives writing and reading", "statement": "Writing an object whose tempos are whole microseconds per quarter note and reading the file back gives the same time for every tick; any other tempo is rounded down to a whole microsecond.", "quantifier": "every tempo map, object and tick", "why_tests_cant": "All tempo maps and all objects.", "anchors": ["neural_graph_composer/custom_pretty_midi.py:serialize", "neural_graph_composer/custom_pretty_midi.py:_load_tempo_changes"]}
{"id": "C96", "title": "Notes survive writing and reading", "statement": "Writing an object and reading the file back gives the same notes (velocity, pitch, start, end, program, drum flag), provided notes start and end on ticks, none starts inside another of its instrument and none of one pitch start together.", "quantifier": "every object and number of instruments and notes", "why_tests_cant": "All note lists.", "anchors": ["neural_graph_composer/custom_pretty_midi.py:serialize", "neural_graph_composer/custom_pretty_midi.py:from_file", "neural_graph_composer/custom_pretty_midi.py:_load_instruments"]}
{"id": "C97", "title": "Signatures and lyrics survive writing and reading", "statement": "Key signatures, time signatures and lyrics whose times are tick times are read back unchanged; 4/4 is added at time 0 when no time signature stands there.", "quantifier": "every object", "why_tests_cant": "All lists.", "anchors": ["neural_graph_composer/custom_pretty_midi.py:serialize", "neural_graph_composer/custom_pretty_midi.py:_load_metadata"]}
{"id": "C98", "title": "Which loaded instruments hold a control change or pitch bend", "statement": "For every file, each loaded instrument stands for one (program, channel, track), no two for the same; it holds every control change and pitch bend that arrives on its channel and track under its own program, and only events of its channel and track, in file order. Exactly: some instruments are alone and hold just the events of their own program; all other instruments of a channel and track hold the same list, the events of all programs whose instrument is not alone. Without program changes every event has exactly one owner. The natural expectation of one owner per event in general is refuted (an early control change is listed by every later instrument of the channel), and events of a channel without notes are lost.", "quantifier": "every list of tracks, every drum channel and tick-to-time map", "why_tests_cant": "All event lists and program changes; the lists are shared by reference.", "anchors": ["neural_graph_composer/custom_pretty_midi.py:_load_instruments"]}
{"id": "C99", "title": "Tempo changes in seconds and quarter notes per minute", "statement": "On every object with a tempo map, get_tempo_changes() returns for each entry of the map the exact time in seconds of its tick and 60/(scale*resolution) as tempo.", "quantifier": "every tempo map", "why_tests_cant": "All maps.", "anchors": ["neural_graph_composer/custom_pretty_midi.py:get_tempo_changes"]}
{"id": "C100", "title": "Which pitch bends and control changes are read", "statement": "If the file has a note, a pitch bend or control change is read exactly when it is not before the end of the last note of the whole file; without notes all are read; those read keep order and values. (So events during the music are dropped; a bend of -8192 that is not dropped makes read raise ValueError.)", "quantifier": "every loaded object within the value ranges", "why_tests_cant": "All event lists.", "anchors": ["neural_graph_composer/midi_reader.py:MidiReader.read_pitch_bends", "neural_graph_composer/midi_reader.py:MidiReader.read_control_changes"]}
{"id": "C101", "title": "Tempo and time signatures of a file are read", "statement": "For files whose tempo changes (time signatures) are at clearly separated times, the tempo list of the song is the tempo map of the file in seconds and quarter notes per minute, and its time signatures are those of the file, after the default 4/4 if the file has none at time 0.", "quantifier": "every loaded object within the value ranges", "why_tests_cant": "All lists.", "anchors": ["neural_graph_composer/midi_reader.py:MidiReader.read_tempo_changes", "neural_graph_composer/midi_reader.py:MidiReader.read_time_signature"]}
{"id": "C102", "title": "Reading a whole file yields exactly its notes", "statement": "For every MIDI file within the value ranges, with no two note-ons of one channel and pitch at the same tick of a track and at most 128 instruments, read succeeds and the notes of all tracks of the song (program, drum flag, velocity, pitch, start and end in seconds by the tempo map) are exactly the notes of the file that are not isclose to empty, each once.", "quantifier": "every file: any number of tracks and messages", "why_tests_cant": "All files.", "anchors": ["neural_graph_composer/midi_reader.py:MidiReader.read", "neural_graph_composer/custom_pretty_midi.py:CustomPrettyMIDI.from_file"]}
{"id": "C103", "title": "Accepted dataset parameters", "statement": "MidiDataset accepts train_ratio, val_ratio, feature_vec_size and velocity_num_buckets exactly when both ratios are >= 0 with sum <= 1, the feature size is None or in 1..128, and the number of buckets is None or >= 1; otherwise it raises ValueError.", "quantifier": "every combination of numbers", "why_tests_cant": "All numbers.", "anchors": ["neural_graph_composer/midi_dataset.py:MidiDataset.__init__"]}
{"id": "C104", "title": "Processed file names identify the settings", "statement": "The per-instrument and the whole-graph file of any settings never have the same name, and two settings share a file only if velocity flag, feature size and the text of the tolerance are all equal.", "quantifier": "every pair of settings", "why_tests_cant": "Unbounded numbers and texts.", "anchors": ["neural_graph_composer/midi_dataset.py:processed_file_names"]}
{"id": "C105", "title": "Existing processed files win over arguments", "statement": "Once both processed files exist, a constructor call returns what is in them and leaves them alone, whatever raw files, ratios, filters and transforms it is given; calls with other file-name settings never touch them.", "quantifier": "every directory and every pair of calls", "why_tests_cant": "All directories and arguments.", "anchors": ["neural_graph_composer/midi_dataset.py:process", "neural_graph_composer/midi_dataset.py:load_processed"]}
{"id": "C106", "title": "Which graphs a dataset holds", "statement": "The per-instrument pass keeps, in order, the transformed graphs that pass the filter, including those a file handed out before a KeyError, and any other exception ends processing; the whole-graph pass fails with StopIteration as soon as a raw file yields no graph.", "quantifier": "every list of raw files and what each produces", "why_tests_cant": "Unbounded lists.", "anchors": ["neural_graph_composer/midi_dataset.py:_mask_per_instrument", "neural_graph_composer/midi_dataset.py:_mask_entire_graph"]}
{"id": "C107", "title": "Broken checkpoint files stop resuming", "statement": "If the newest epoch's save was interrupted, load_checkpoint raises even though older checkpoints are complete; a .pt file whose name does not end in a number makes it raise ValueError.", "quantifier": "every history of saves, every listing", "why_tests_cant": "Crash points and histories.", "anchors": ["ngc_shared.py:load_checkpoint", "ngc_shared.py:save_checkpoint"]}
{"id": "C108", "title": "What metrics files hold", "statement": "After any training history, no training metric is in any file; the file under the training name cannot be restored from (KeyError); the validation file restores the validation lists; load_checkpoint restores no metric at all when the metrics directory is nonempty and has no underscore (as the constructor's 'metric'). With an empty metrics directory the files are found, and then loading raises KeyError as soon as training or test metrics were ever written; only validation metrics alone are restored.", "quantifier": "every history of metric updates, every model type and directory listing", "why_tests_cant": "Unbounded histories and texts.", "anchors": ["ngc_shared.py:update_metrics", "ngc_shared.py:update_val_metric", "ngc_shared.py:update_test_metric", "ngc_shared.py:load_checkpoint"]}
{"id": "C109", "title": "Degree feature", "statement": "AddDegreeTransform appends to every row the number of edges starting at its node and changes nothing else in the row; the added column sums to the number of edges; a source that is not a node raises IndexError.", "quantifier": "every graph", "why_tests_cant": "All graphs.", "anchors": ["neural_graph_composer/transforms.py:AddDegreeTransform"]}
{"id": "C91", "title": "Interval tree stays balanced", "statement": "After every history of add/discard/clear of non-point-like intervals the two subtrees of every node differ in depth by at most one, the depth is at most 2*log2(n+1) after n operations, the stored depth field is the real depth, and no operation exhausts the interpreter recursion limit (default 1000) for any history shorter than 2^490.", "quantifier": "every finite history and recursion limit", "why_tests_cant": "Unbounded histories; a finite run cannot show logarithmic depth.", "anchors": ["neural_graph_composer/interval/node.py:Node.rotate", "neural_graph_composer/interval/node.py:Node.add", "neural_graph_composer/interval/node.py:Node.refresh_balance"]}
{"id": "C92", "title": "Intervals are strictly totally ordered", "statement": "If the data fields are strictly totally ordered, so are intervals: lexicographically by begin, end, data; irreflexive, transitive, and of two different intervals exactly one is the smaller.", "quantifier": "every pair and triple of intervals", "why_tests_cant": "All triples.", "anchors": ["neural_graph_composer/interval/interval.py:FloatInterval.__lt__", "neural_graph_composer/interval/interval.py:FloatInterval.__cmp__"]}
{"id": "C93", "title": "Interval relations", "statement": "contains_interval is set containment, reflexive, transitive and antisymmetric up to range; length is never negative and 0 exactly for null intervals; lt/gt/le/ge raise ValueError exactly on a null interval, lt means wholly before and mirrors gt. The naming of the others is refuted exactly: overlaps answers False (size 0) for every range beginning inside the interval away from its end and True for ranges that merely touch at the end; distance_to is the gap for separated intervals but negative for nested/overlapping ones; le is False whenever the ends are apart.", "quantifier": "every pair of intervals", "why_tests_cant": "All pairs of real ranges.", "anchors": ["neural_graph_composer/interval/interval.py:FloatInterval.overlaps", "neural_graph_composer/interval/interval.py:FloatInterval.overlap_size", "neural_graph_composer/interval/interval.py:FloatInterval.contains_interval", "neural_graph_composer/interval/interval.py:FloatInterval.distance_to", "neural_graph_composer/interval/interval.py:FloatInterval.lt", "neural_graph_composer/interval/interval.py:FloatInterval.le", "neural_graph_composer/interval/interval.py:FloatInterval.length"]}
{"id": "C94", "title": "Bulk tree operations", "statement": "update and difference_update give the set union and difference whenever they return, and always return for non-point-like intervals; span is greatest end minus least begin (0 if empty). merge_overlaps on a non-empty tree raises NameError as soon as two sorted neighbours overlap (touch, if strict=False) and otherwise keeps the set; split_overlaps raises AttributeError on every tree whose intervals have three different end points.", "quantifier": "every history, every bulk argument", "why_tests_cant": "Unbounded histories and collections.", "anchors": ["neural_graph_composer/interval/intervaltree.py:FloatIntervalTree.update", "neural_graph_composer/interval/intervaltree.py:FloatIntervalTree.difference_update", "neural_graph_composer/interval/intervaltree.py:FloatIntervalTree.span", "neural_graph_composer/interval/intervaltree.py:FloatIntervalTree.merge_overlaps", "neural_graph_composer/interval/intervaltree.py:FloatIntervalTree.split_overlaps"]}
{"id": "C110", "title": "Constructing and extending a sequence", "statement": "MidiNoteSequence(notes, instrument) keeps the notes in order whatever the instrument, sets total_time to the latest end, and raises ValueError exactly for an instrument number outside 0..255; append/extend with a non-empty list puts the notes behind the existing ones and never lowers total_time, with an empty list it raises ValueError; from_notes gives instrument 0 and exactly the notes.", "quantifier": "all note lists, instruments and sequences", "why_tests_cant": "All lists.", "anchors": ["neural_graph_composer/midi/midi_sequence.py:MidiNoteSequence.__init__", "neural_graph_composer/midi/midi_sequence.py:MidiNoteSequence.append", "neural_graph_composer/midi/midi_sequence.py:MidiNoteSequence.extend", "neural_graph_composer/midi/midi_sequence.py:MidiNoteSequence.from_notes", "neural_graph_composer/midi/midi_sequence.py:MidiNoteSequence.truncate_to_last_event", "neural_graph_composer/midi/midi_sequence.py:MidiNoteSequence.drum_events"]}
{"id": "C111", "title": "Note durations", "statement": "Step counts and step lengths exist exactly for quantized notes and agree (count = length*sps + 1); duration_in_seconds is length*60/tempo (ZeroDivisionError at 0); is_four_quarter_note is true exactly for 4/4 notes of 60 seconds up to 1e-9 relative, so false for every note under 59 s including the documented one-second quarter note; beat_duration is 60/tempo exactly when numerator = denominator.", "quantifier": "all notes, tempi, step rates", "why_tests_cant": "All real-valued notes.", "anchors": ["neural_graph_composer/midi/midi_note.py:MidiNote.step_duration_in_samples", "neural_graph_composer/midi/midi_note.py:MidiNote.compute_step_duration_in_seconds", "neural_graph_composer/midi/midi_note.py:MidiNote.is_four_quarter_note", "neural_graph_composer/midi/midi_note.py:MidiNote.duration_in_seconds", "neural_graph_composer/midi/midi_note.py:MidiNote.beat_duration"]}
{"id": "C112", "title": "Order and shift of events", "statement": "Pitch bends are ordered by amount only (bends of equal amount at different times are unordered); shift_time of a control change moves only its time, adds up, can be undone and is unchecked (any event can be moved before 0); same_start_time(a, b, tol) compares a with itself and is true exactly when tol > 0.", "quantifier": "all events and shifts", "why_tests_cant": "All values.", "anchors": ["neural_graph_composer/midi/midi_pitch_bend.py:MidiPitchBend.__lt__", "neural_graph_composer/midi/midi_control_change.py:MidiControlChange.shift_time", "neural_graph_composer/midi_graph_builder.py:same_start_time"]}
{"id": "C113", "title": "What signature lookups report", "statement": "time_signature, tempo_signature and key_signature report the fields of the selected signature; without signatures 4/4, (480,120) and (0,0). The tempo pair is (qpm, resolution) for a stored signature but (resolution, qpm) for the default and for negative times. With a single signature it is reported at every non-negative time, also before it starts.", "quantifier": "all signature lists and times", "why_tests_cant": "All lists and times.", "anchors": ["neural_graph_composer/midi/midi_sequences.py:MidiNoteSequences.time_signature", "neural_graph_composer/midi/midi_sequences.py:MidiNoteSequences.tempo_signature", "neural_graph_composer/midi/midi_sequences.py:MidiNoteSequences.key_signature"]}
{"id": "C114", "title": "Track container checks and counts", "statement": "Reading, writing and get_track with an index outside 0..127 raise ValueError in every state; create_track checks only the program and creates a track for any integer index, which the accessors then refuse to return; num_instruments after importing sequences is the number of distinct instrument numbers.", "quantifier": "all containers, indices, programs", "why_tests_cant": "All states.", "anchors": ["neural_graph_composer/midi/midi_sequences.py:MidiNoteSequences.get_track", "neural_graph_composer/midi/midi_sequences.py:MidiNoteSequences.create_track", "neural_graph_composer/midi/midi_sequences.py:MidiNoteSequences.num_instruments"]}
{"id": "C115", "title": "Sizes of dataset splits", "statement": "For a ratio in 0..1 the two parts are non-negative, add up to the number of items and the first is floor(n*ratio); for ratios outside by an item or more one of them is negative.", "quantifier": "all sizes and ratios", "why_tests_cant": "All ratios.", "anchors": ["ngc_shared.py:split"]}
{"id": "C116", "title": "Argument checks of graph building", "statement": "build_sequence raises ValueError for every sequence when the feature size is not in 1..128, the bucket count not positive or the tolerance not in 0..1, and accepts the bounds; from_midi_networkx succeeds exactly when every node has a hash and a feature tensor and raises ValueError otherwise.", "quantifier": "all options, sequences, graphs", "why_tests_cant": "All graphs.", "anchors": ["neural_graph_composer/midi_graph_builder.py:build_sequence", "neural_graph_composer/midi_graph_builder.py:from_midi_networkx"]}
{"id": "C117", "title": "A clone or truncated copy is isolated", "statement": "`s.clone()` (of a melodic sequence) and `s.truncate(t)` return a sequence that shows the same (kept) notes and shares no note or list object with anything that existed before: whatever code holding only the copy does (any methods, any changes to notes and lists it can reach) changes the notes, total time or instrument of no earlier sequence, and code holding everything else cannot change the copy, also when both take turns. (Assigning to a field of the shared instrument object is the exception, see C118.)", "quantifier": "every heap of note, list, instrument and sequence objects reachable by any program, every sequence, every program of method calls and mutations run afterwards, every interleaving of two such programs", "why_tests_cant": "Absence of aliasing is a statement about all later programs and all object graphs; a test mutates one copy in a few ways.", "anchors": ["neural_graph_composer/midi/midi_sequence.py: MidiNoteSequence", "clone", "truncate", "notes", "total_time"]}
{"id": "C118", "title": "What sequences share", "statement": "`cut`, `slice`, the constructor and `merge` share note objects with their source; `from_notes` shares the caller's list; `clone` shares the instrument object. An in-place `stretch` through one of them changes every sequence that refers to the same notes, once per reference, and updates only its own total time, so the total time of the others can become too small; merging a sequence with itself makes a later `stretch(c)` act as `c*c`.", "quantifier": "every heap, every pair of sequences, every factor", "why_tests_cant": "The effect depends on the whole object graph built by earlier calls.", "anchors": ["neural_graph_composer/midi/midi_sequence.py: MidiNoteSequence", "cut", "merge", "from_notes", "clone", "stretch", "__init__"]}
{"id": "C119", "title": "Treating notes as values is right while no note is shared", "statement": "For a sequence in which no note object occurs twice, every history of in-place operations with fresh note arguments gives exactly the notes, drum notes, total time and instrument that the value-level reading of the methods gives (so the properties of single sequences hold of the objects); for a sequence holding one note object twice this is false.", "quantifier": "every heap, every such sequence, every history of append, extend, add_note, insert, assignment to notes, stretch, shift_times, cut_in_place, quantize, as_note_seq", "why_tests_cant": "A refinement between two models over unbounded histories.", "anchors": ["neural_graph_composer/midi/midi_sequence.py: MidiNoteSequence"]}
{"id": "C120", "title": "Time warping keeps notes in order", "statement": "`adjust_times(original_times, new_times)` moves every time by one map that never reverses the order of two times, whatever the arrays are; if the original times strictly increase and the new times do not decrease it sends each original time to its new time and is linear in between. Every note afterwards is a note that lay inside the original range with the same pitch and velocity, moved by the map, of positive length, not before 0 and not after the last new time; if both arrays increase strictly and the new times are not negative, the notes inside the range are kept exactly, in order, and no overlap is created.", "quantifier": "every pair of equally long arrays of times (unsorted, repeated), every list of notes", "why_tests_cant": "Monotonicity and totality of the map are about all reals and all break points; a test maps a few notes.", "anchors": ["neural_graph_composer/custom_pretty_midi.py: CustomPrettyMIDI", "adjust_times"]}
{"id": "C121", "title": "Time warping keeps what is in force", "statement": "After `adjust_times` the bends, key and time signatures of a list are in order of time, moved events of that list, at most one at the first new time and none before it or at or after the last; at every moved time in the range the event in force is the one that was in force before, moved. For control changes this fails when there are several controllers: of all control changes at or before the start only the last one is kept, whatever its controller.", "quantifier": "every strictly increasing time map, every event list, every time in the range", "why_tests_cant": "'In force at every time' quantifies over all times and all histories of events.", "anchors": ["neural_graph_composer/custom_pretty_midi.py: CustomPrettyMIDI", "adjust_times: adjust_events, adjust_meta"]}
{"id": "C122", "title": "Tempo estimates and end time", "statement": "`get_onsets` is sorted with one entry per note. `estimate_tempi` returns tempi in (30, 300] with positive scores that sum to one and do not rise; `estimate_tempo` raises ValueError exactly when no two successive onsets are between 50 ms and 2 s apart; a steady pulse gives its own tempo (brought into range by doubling) with score one. When some cluster is within 25 ms of an interval, the cluster that takes it is always the one with the smallest mean, even if that one is far away. `get_end_time` bounds every event and is one of their times or 0.", "quantifier": "every set of instruments, every list of notes, every order of equal scores", "why_tests_cant": "Ranges and sums over all note lists; the loop's termination is a statement about all intervals.", "anchors": ["neural_graph_composer/custom_pretty_midi.py: CustomPrettyMIDI", "get_onsets", "estimate_tempi", "estimate_tempo", "get_end_time"]}
{"id": "C123", "title": "Beats follow tempo and metre", "statement": "`get_beats(start)` terminates and returns `start`, then each time one beat later by the tempo map and the metre in force (denominator note, three of them in compound metres), or the next time signature's time if that comes first or is within numpy's tolerance, as long as it is before the end time; so every time signature between start and end is on a beat, and beats strictly increase. Without time signatures beat k of `get_beats()` is the time of tick k times resolution. This is for time signatures at different times and no tempo change just before, or within one beat after, a time signature; if the tempo changes within a beat after an off-beat time signature, the new tempo is used too early, and two time signatures at one time give that beat twice.", "quantifier": "every tempo map, every list of time signatures, every start time", "why_tests_cant": "Termination and the exact beat list quantify over all tempo maps and metres; a test has one or two tempo changes.", "anchors": ["neural_graph_composer/custom_pretty_midi.py: CustomPrettyMIDI", "get_beats", "get_tempo_changes", "get_end_time"]}
{"id": "C124", "title": "Downbeats are the first beats of bars", "statement": "`get_downbeats(start)` returns, in order, exactly the beats of `get_beats(start)` whose number of beats since the time signature in force (since `start` if that is later; in 4/4 from `start` before the first) is a multiple of the beats of a bar. Without time signatures that is every fourth beat. This is for time signatures before the end time; one exactly at the end replaces the metre of the last span.", "quantifier": "every tempo map, every list of time signatures, every start time", "why_tests_cant": "Bar counting over all metre changes and beat lists; tests fix one metre.", "anchors": ["neural_graph_composer/custom_pretty_midi.py: CustomPrettyMIDI", "get_downbeats", "get_beats"]}
{"id": "C125", "title": "Time warping keeps notes on their ticks", "statement": "After `adjust_times(original, new)` with strictly increasing arrays whose original times have distinct nearest ticks (and whose first new time is 0, or a whole number of ticks at 120), the tempo map is valid at the same resolution and puts old tick k exactly at the moved time of tick k, so a note on ticks within the range keeps its start and end ticks up to one common shift. If all new times are equal the method raises IndexError after having moved the notes; if two neighbouring new times are equal (a pause cut out) the ticks no longer match.", "quantifier": "every tempo map, every pair of strictly increasing arrays, every note on ticks in the range", "why_tests_cant": "The tempo map is rebuilt by floating accumulation over all zones and all tempo changes inside them; a test sees one warp.", "anchors": ["neural_graph_composer/custom_pretty_midi.py: CustomPrettyMIDI", "adjust_times", "time_to_tick", "get_tempo_changes", "_update_tick_to_time"]}
{"id": "C126", "title": "Time warping keeps the metre", "statement": "After `adjust_times` with strictly increasing arrays there is a time signature at the moved first downbeat of the range and none before it; from there to the end of the range every moved moment has the metre the moment had before, or 4/4 if it had none.", "quantifier": "every object, every pair of strictly increasing arrays, every moment from the first downbeat in the range to its end", "why_tests_cant": "All interleavings of signatures, downbeats and breakpoints.", "anchors": ["neural_graph_composer/custom_pretty_midi.py: CustomPrettyMIDI", "adjust_times", "get_downbeats"]}
{"id": "C127", "title": "When a song can be written", "statement": "`MidiReader.write` succeeds only if the song has a track, the name is not empty, the file does not exist (or `do_overwrite` is not `False`), `to_end` is given and 0 <= from_start <= to_end; an existing file is never touched by default. Defects: without `to_end` (the default) both `write` and `to_pretty_midi` always raise; a debug message makes writing fail unless two successive onsets are between 50 ms and 2 s apart; songs whose tracks were assigned (`s[k] = seq`) can never be written.", "quantifier": "every song, every argument list, every tempo, every outcome of sorting equal elements", "why_tests_cant": "The set of failing songs is infinite and the reasons (a debug message, a generator that changes the dictionary it walks over) are in other functions; tests write one good song.", "anchors": ["neural_graph_composer/midi_reader.py: MidiReader.write, MidiReader.to_pretty_midi", "neural_graph_composer/midi/midi_sequences.py: MidiNoteSequences.truncate, __getitem__, __iter__"]}
{"id": "C128", "title": "What notes and events are written", "statement": "If writing succeeds on a song whose tracks have an index and whose notes are proper, the object has one empty instrument and then one per track in key order, with program 0, the drum flag and the notes of the track in order with pitch and velocity; times are moved by the straight line that takes 0 to `from_start` and the end to `to_end` (never beyond the end). For the whole song at a constant tempo the notes are written exactly, and of bends and control changes those strictly between 0 and the last note end, plus the last one at time 0.", "quantifier": "every song, every from_start and to_end, every tempo list", "why_tests_cant": "All track sets, note lists and ranges; tests compare one short song.", "anchors": ["neural_graph_composer/midi_reader.py: MidiReader.write, MidiReader.to_pretty_midi", "neural_graph_composer/custom_pretty_midi.py: CustomPrettyMIDI.adjust_times"]}
{"id": "C129", "title": "The tempo map that is written", "statement": "Before its times are adjusted, the written object has the initial tempo and then the tempo signatures in list order, each with its own tempo; the tick of each is its time divided by the tick length of the entry before it. So an initial tempo and one later change are right to half a tick; defect: from the second change on ticks are wrong. Written are exactly the tempo, time and key signatures up to the end of the last note (that moment included); such a time or key signature with an invalid value makes the whole writing fail with ValueError, a later one does no harm.", "quantifier": "every tempo list with non-negative times and positive tempi, every resolution", "why_tests_cant": "The error only shows from the third tempo on and depends on all previous tempi.", "anchors": ["neural_graph_composer/midi_reader.py: MidiReader.write, MidiReader.to_pretty_midi", "neural_graph_composer/custom_pretty_midi.py: CustomPrettyMIDI.update_scale, update_tick_time", "pretty_midi time_to_tick (library)"]}
{"id": "C130", "title": "Songs with a constant tempo can be written", "statement": "A song at a constant tempo, with proper notes and signatures, two successive onsets between 50 ms and 2 s apart and an end within half a tick of some tick, is always written when `to_end` is not before its end: `write` succeeds, every track is there with exactly its notes, the one tempo is that of the song (exactly, if the end is on a tick), and at every moment up to the last note the key and the metre are those of the song (4/4 if it has none).", "quantifier": "every such song, every file name, every to_end after the end, every order of equal signatures", "why_tests_cant": "Total correctness: no song may fail and no loop run forever; tests write a few songs.", "anchors": ["neural_graph_composer/midi_reader.py: MidiReader.write, MidiReader.to_pretty_midi", "neural_graph_composer/custom_pretty_midi.py: CustomPrettyMIDI.adjust_times, get_downbeats, get_beats"]}
{"id": "C131", "title": "Reading a file and writing it again", "statement": "Reading an object with one tempo and clean signatures and writing the song whole under a new name succeeds and gives the same resolution, tempo map, key and metre at every moment, an extra empty first instrument, and for each old instrument one with its drum flag and exactly the notes the reader keeps. Defect: programs and names of all instruments, and all pitch bends and control changes, are lost.", "quantifier": "every such object, every to_end after the end", "why_tests_cant": "The loss depends on two filters in different modules whose conditions exclude each other; a test compares the notes of one file.", "anchors": ["neural_graph_composer/midi_reader.py: MidiReader.write, MidiReader.to_pretty_midi", "neural_graph_composer/midi_reader.py: MidiReader.read, read_pitch_bends, read_control_changes"]}
{"id": "C132", "title": "Interval tree: set algebra in place", "statement": "After every history of additions, discards and clears of proper intervals, `intersection_update(other)` leaves the tree as it is if every stored interval is in `other` and raises ValueError otherwise; `symmetric_difference_update(other)` adds the intervals of `other` if none of them is stored and raises ValueError otherwise. Defect: nothing can be removed by either.", "quantifier": "every history, every other set, every order of iteration", "why_tests_cant": "The defect hits every case in which an interval is to be removed; a test with a superset or a disjoint set passes.", "anchors": ["neural_graph_composer/interval/intervaltree.py: FloatIntervalTree.intersection_update, symmetric_difference_update, remove"]}
{"id": "C133", "title": "Interval tree: searching, cutting, self-check and joining", "statement": "Once an interval was added since the last `clear`, `at`, `overlap`, `envelop`, `chop`, `slice`, `remove_overlap`, `remove_envelop` and `del tree[p]` raise AttributeError, even if all intervals were discarded again, and `verify()` never passes; before that they find nothing and change nothing. `merge_equals` raises NameError exactly if two stored intervals have the same range, `merge_neighbors` exactly if two successive ones are near enough to be joined; otherwise both keep the same intervals. `Node.verify()` returns for no node: it demands an unbalanced node and then fails with TypeError; `compute_depth` of every node is its stored depth.", "quantifier": "every history, every point and range, every distance", "why_tests_cant": "Whether the tree still has nodes after discards depends on the whole history.", "anchors": ["neural_graph_composer/interval/intervaltree.py: FloatIntervalTree.at, overlap, envelop, chop, slice, remove_envelop, __delitem__, verify, merge_equals, merge_neighbors", "neural_graph_composer/interval/node.py:Node.verify", "neural_graph_composer/interval/node.py:Node.compute_depth"]}
{"id": "C134", "title": "Traversal of a graph, nearest node first", "statement": "`dijkstra_traversal2(data, start)` on a graph with a weight for every edge ends after at most one round per edge and one more, visits exactly the nodes reachable from the start, each once and the start first, and lists the outgoing edges of every visited node. With non-negative weights it visits nearest nodes first; with positive weights ties are in order of the node numbers. On a graph without weights it raises TypeError as soon as the start has an edge to another node.", "quantifier": "every graph, every start node, every weights", "why_tests_cant": "Order and termination depend on the whole graph and all interleavings of pushes and pops of the queue.", "anchors": ["example03_lstm.py: dijkstra_traversal2", "example03a_lstm.py: dijkstra_traversal2"]}
{"id": "C135", "title": "Piano roll, chroma and pitch classes of a piece", "statement": "An entry of the piano roll of a piece is the sum over the instruments whose rolls reach there and the roll is as long as the longest; row k of the chroma is the sum of the rows of pitch class k, and an octave more does not change it. The pitch class histogram adds the weights of all notes but drums, its normalised form adds up to 1 (or is all 0), and transposing rotates it. The transition matrix of melodies counts exactly the successive pairs. Defect: a note shorter than the threshold counts as followed by itself.", "quantifier": "every list of instruments, all notes, weights, thresholds and transpositions", "why_tests_cant": "Sums and normalisation over arbitrary pieces; counting is quadratic in the notes.", "anchors": ["neural_graph_composer/custom_pretty_midi.py: PrettyMIDI.get_piano_roll, get_chroma, get_pitch_class_histogram, get_pitch_class_transition_matrix"]}
{"id": "C136", "title": "Graph builder: neighbours of a chord, connecting instruments", "statement": "In a freshly built graph `neighbors(chord)` lists only chords visited right after it (and the first chord itself); of two chords visited in succession one lists the other, and if each follows the other exactly one does; a chord not visited raises; order and repetition of the pitches do not matter. Defect: `connect_instruments` raises KeyError on every graph with a chord.", "quantifier": "every sequence of notes, every build option, every chord", "why_tests_cant": "The edges depend on the order of the first visits of all chords.", "anchors": ["neural_graph_composer/midi_graph_builder.py: MidiGraphBuilder.neighbors, connect_instruments, build_sequence"]}
{"id": "C137", "title": "Graph builder: settings given to the constructor", "statement": "The constructor accepts exactly tolerances that are not negative and feature sizes 1 to 127. Defect: its settings have no effect on what `build` makes; the feature size is the one passed to `build`. Defect: the argument `is_include_velocity` of `from_midi_sequence` is taken for `is_instrument_graph`. Without arguments `build` uses its own defaults: per instrument, 12 entries, pitches only, single notes kept, tolerance 0.2.", "quantifier": "every song, every two settings, every arguments of build", "why_tests_cant": "Independence of the settings is a statement about pairs of runs.", "anchors": ["neural_graph_composer/midi_graph_builder.py: MidiGraphBuilder.__init__, build, from_midi_sequence, from_midi_sequences"]}
{"id": "C138", "title": "Graph builder: self-check while iterating", "statement": "Defect: after every history of per-instrument builds, `graphs(is_sanity_check=True)` yields no graph: AttributeError if there is one, ValueError if there is none, although `graphs()` succeeds.", "quantifier": "every history of builds of a builder", "why_tests_cant": "It must hold for every state reachable by any history.", "anchors": ["neural_graph_composer/midi_graph_builder.py: MidiGraphBuilder.graphs, sanity_check"]}
{"id": "C139", "title": "Which trainers can be constructed", "statement": "The constructor of `Experiments` succeeds exactly for a dataset and positive integers as epochs and batch size, keeps each in its role, and raises ValueError (missing or not indexable) or AssertionError otherwise. Defect: the trainers of example01, 02, 03, 03a, 04 and 05 can never be constructed with a number of epochs, whatever the other arguments: ValueError. `NgcTrainer` can.", "quantifier": "all arguments", "why_tests_cant": "All combinations of arguments.", "anchors": ["ngc_shared.py: Experiments.__init__", "example01_node_classification.py: ExampleNodeClassification.__init__", "example02.py: Example02.__init__", "example03_lstm.py: GraphGenerationModel.__init__", "example04_gae.py: VariationGae.__init__", "ngc_example05_gin.py: Example01.__init__", "minimum_example_node_classification.py: NgcTrainer.__init__"]}
{"id": "C140", "title": "Scores of an evaluated batch", "statement": "For every batch, whatever the network predicts: if no mask is empty, `test` gives for training, validation and test nodes the mean over the splits of the share of nodes predicted right, and F1, precision and recall are always the same numbers; a share is within [0, 1] and 1 exactly if every node of the mask is right. An empty mask raises ZeroDivisionError.", "quantifier": "all labels, predictions, masks and numbers of splits", "why_tests_cant": "The equality of the scores must hold for every prediction.", "anchors": ["minimum_example_node_classification.py: NgcTrainer.test"]}
{"id": "C141", "title": "Result of a training run", "statement": "For every run in which no mask is empty, the accuracies printed at the end are the greatest validation and test accuracies of any epoch. Defect: what is printed as best validation F1 is the best for the test nodes and vice versa. A batch with an empty mask in any epoch ends the run with ZeroDivisionError.", "quantifier": "all runs: any number of epochs and batches, all predictions", "why_tests_cant": "All histories of epochs.", "anchors": ["minimum_example_node_classification.py: NgcTrainer.trainer, main"]}
{"id": "C142", "title": "Beats, steps and eighth notes", "statement": "For every note of positive length `bpm()` is 120 * denominator / numerator, whatever the note, or NaN when the note is not longer than one such beat. For every step count and rate, `steps_to_seconds` is the nearest multiple of 10 microseconds, ties away from zero, from which the steps can be recovered below 100000 steps per second. `quantize_to_nearest_step` is the nearest step for times that are not negative, and half a step to one and a half steps late half a step or more before 0. Defect: `is_four_eighth_note` compares a beat with the period of the pitch: it depends on pitch alone and is false for every MIDI note at tempo times denominator up to 1760.", "quantifier": "all notes, times, rates, pitches, tempi and signatures", "why_tests_cant": "Unbounded numbers.", "anchors": ["neural_graph_composer/midi/midi_note.py: MidiNote.bpm, MidiNote.steps_to_seconds, MidiNote.is_four_eighth_note", "neural_graph_composer/midi/midi_sequence.py: quantize_to_nearest_step"]}
{"id": "C143", "title": "Decoding notes from JSON", "statement": "For every value made of JSON values and valid notes at any depth, decoding the document written for it gives the value back. An object with the marker `__MidiNote__` becomes a note made from its `data`, whatever the value of the marker, and its other members are lost; without `data` KeyError. `data` must have exactly parameters of the constructor as members, pitch, start and end time among them: else TypeError. An error in any part is the error of the whole document, the first in the text winning.", "quantifier": "all documents of any depth", "why_tests_cant": "Documents of unbounded depth and width.", "anchors": ["neural_graph_composer/midi/midi_note.py: MidiNoteJSONDecoder.object_hook, MidiNoteJSONDecoder.decode"]}
{"id": "C144", "title": "Instruments survive writing and reading", "statement": "Writing an object and reading the file back gives exactly its instruments that have a note, in order, each with its own program, drum flag, name, notes, pitch bends and control changes, the last two on their nearest ticks in the order of time; instruments without a note are lost. Tempo, key and time signatures and lyrics come back too. Times between ticks are written as their nearest ticks. As for C96, the notes of an instrument must be playable: on ticks, none starting inside another of its instrument, none of one pitch starting together; names are free.", "quantifier": "every object, any number of instruments, notes, bends and control changes", "why_tests_cant": "Unbounded lists of events over a shared file.", "anchors": ["neural_graph_composer/custom_pretty_midi.py:serialize", "neural_graph_composer/custom_pretty_midi.py:from_file", "neural_graph_composer/custom_pretty_midi.py:_load_instruments"]}
{"id": "C145", "title": "Saving a sequence and reading it back", "statement": "For every sequence with notes, a MIDI program, MIDI pitches and velocities from 1, none of whose notes is shorter than a tick (1/440 s), starts inside another or together with another of its pitch: `to_midi_file` succeeds and `MidiReader` reads from the file a song with exactly one track, with the instrument number, drum flag and name of the sequence and exactly its notes, each on its nearest ticks (so unchanged if on ticks), and as total time the last end. More generally any such written object is read back as one track per sounding instrument. ValueError exactly without callback or notes. Resolution, bends, control changes are not saved. Defects: an overlapped note is cut short, a note of velocity 0 is lost.", "quantifier": "every sequence with any number of notes; every object with up to 128 instruments", "why_tests_cant": "Unbounded note lists through a writer and two readers.", "anchors": ["neural_graph_composer/midi/midi_sequence.py:MidiNoteSequence.to_midi_file", "neural_graph_composer/midi/callbacks.py:save_midi_callback", "neural_graph_composer/midi_reader.py:MidiReader.read"]}
{"id": "C146", "title": "Tempo, end, resolution and order of a sequence", "statement": "For every history of a sequence object: every call of `initial_tempo()` gives the answer of the first call, which is 480 without tempo signatures at that moment, 0 with one at time 0, else None - never a tempo; the first `truncate_to_last_event(o)` gives the latest end of a note plus o, and later calls with the same o repeat it whatever happened to the notes; setting `resolution` stores any integer and rescales nothing, other values raise TypeError. `<` of sequence objects is a strict total order by instrument number; `is_sorted(l, key)` is true exactly if the keys never decrease.", "quantifier": "every history of changes and calls before and after; every pair and triple of objects; every list and key", "why_tests_cant": "Histories of any length around a remembered answer; all triples of objects.", "anchors": ["neural_graph_composer/midi/midi_sequence.py:MidiNoteSequence.initial_tempo", "neural_graph_composer/midi/midi_sequence.py:MidiNoteSequence.truncate_to_last_event", "neural_graph_composer/midi/midi_sequence.py:MidiNoteSequence.resolution", "neural_graph_composer/midi/midi_sequence.py:MidiNoteSequence.__lt__", "neural_graph_composer/midi/midi_sequences.py:MidiNoteSequences.is_sorted"]}
{"id": "C147", "title": "Replacing a track, listing instruments, opening a file", "statement": "After every history of accesses to a set of sequences: `set_sequence(i, s)` succeeds for every integer i, iteration then lists i and the tracks before in strictly ascending order, other tracks are unchanged, `get_track(i)` gives s for 0 <= i < 128 and raises ValueError else; `instruments` lists one instrument per track in ascending order; `instrument_midi_seq_len(i)` is the number of notes of track i or 0. `from_file` turns any exception of the reader into ValueError. Defects: a list of notes given to `set_sequence` raises AttributeError, `seqs[i]` may create a new track instead of giving the one set, and `from_file` with the project's own reader always raises TypeError.", "quantifier": "every history of accesses, every track number, every reader result", "why_tests_cant": "Histories of any length.", "anchors": ["neural_graph_composer/midi/midi_sequences.py:MidiNoteSequences.set_sequence", "neural_graph_composer/midi/midi_sequences.py:MidiNoteSequences.instruments", "neural_graph_composer/midi/midi_sequences.py:MidiNoteSequences.instrument_midi_seq_len", "neural_graph_composer/midi/midi_sequences.py:MidiNoteSequences.from_file"]}
{"id": "C148", "title": "A dataset from its raw files", "statement": "If processing of the raw files succeeds: the dataset holds, in file order, one graph for each file read that has a usable track with chords, that of its first such track only, as far as the filter accepts it; nodes are the different chords of that track in order of first visit, with one feature row per node, one weight per edge and all edge ends nodes. Over all graphs of the dataset the label of a node is the number of different chords met before its own in all songs, plus one; two nodes anywhere have the same label exactly if they are the same chord; labels run from 1 to total_num_classes (so the last one is not below the number of classes), and the saved index_to_hash turns each label back into the chord. Every node is in exactly one of the three masks of its graph, whatever permutations are drawn.", "quantifier": "every list of raw files (readable or not), every set of tracks, every filter, every sequence of random permutations, every hash function and set order", "why_tests_cant": "Any number of files share one builder; the consistency is between every two graphs of the dataset.", "anchors": ["neural_graph_composer/midi_dataset.py:MidiDataset._mask_per_instrument", "neural_graph_composer/midi_dataset.py:MidiDataset.process", "neural_graph_composer/midi_dataset.py:MidiDataset.total_num_classes", "neural_graph_composer/midi_graph_builder.py:MidiGraphBuilder.graphs", "neural_graph_composer/midi_graph_builder.py:MidiGraphBuilder.build"]}
{"id": "C149", "title": "When processing succeeds and what the two files hold", "statement": "The two files process() writes hold the same graphs, labels and numbering, and are always equal in all: `per_instrument_graph` makes no difference. Processing succeeds whenever every raw file is skipped for a KeyError or has only playable usable tracks, the first song read has a chord and the filter accepts its graph; it raises ValueError if the first song read has no chord, whatever follows, and IndexError if no file can be read.", "quantifier": "every list of raw files, every filter, every sequence of random permutations, every hash function", "why_tests_cant": "Any number of files and tracks in every order.", "anchors": ["neural_graph_composer/midi_dataset.py:MidiDataset.process", "neural_graph_composer/midi_dataset.py:MidiDataset._mask_per_instrument", "neural_graph_composer/midi_dataset.py:MidiDataset._mask_entire_graph", "neural_graph_composer/midi_graph_builder.py:MidiGraphBuilder.graphs"]}
{"id": "C150", "title": "Raw files of a dataset: which, and copying them", "statement": "A list of files that is not empty is used as given; else the files are the regular files in the default directory whose name ends exactly in '.mid'. Copying a list of regular files with different names succeeds, turns the list into the list of their names, gives each raw path the content of the given file at the same position, and changes no other file; it raises RuntimeError if a given path does not exist. However it ends, nothing but the files raw_dir/name changes. Defect: two given files with the same name share one raw path, which holds the later; the earlier is lost from the dataset.", "quantifier": "every disk, every list of paths (relative or absolute), every listing", "why_tests_cant": "Any number of files, any overlap between sources and the raw directory, every point of failure.", "anchors": ["neural_graph_composer/midi_dataset.py:MidiDataset.raw_file_names", "neural_graph_composer/midi_dataset.py:MidiDataset.download"]}
{"id": "C151", "title": "Constructing a dataset again", "statement": "If all raw paths exist nothing is copied or fetched: what stands in the raw directory under a given relative path is used, whatever the caller's file holds, and absolute paths that exist are never copied. The caller's list object is changed by the first construction that copies: constructing again with it and the same root changes nothing, with another root it raises RuntimeError unless the file names are found from the current directory. Without a list each listed name is fetched only if missing; files already there are as before.", "quantifier": "every disk, every list of paths, every root, every server", "why_tests_cant": "Histories of constructions sharing a list object and a disk.", "anchors": ["neural_graph_composer/midi_dataset.py:MidiDataset.download", "neural_graph_composer/midi_dataset.py:MidiDataset.__init__", "neural_graph_composer/midi_dataset.py:MidiDataset.raw_file_names"]}
{"id": "C152", "title": "Numbers of graphs taken from a dataset and its subsets", "statement": "With GraphIDTransform(dataset), after every history of accesses to a dataset and its subsets: dataset[i] is graph i with graph_id i (negative i: graph n+i with the negative id), IndexError out of range. obj[slice] and obj[list] show the chosen part of obj and change nothing of what other objects show. Defect: a graph taken from a subset carries the index last used on the dataset itself - a number or a whole list -, and after a slice of the dataset every access to a subset raises.", "quantifier": "every history of accesses by number, slice and list to the dataset and to subsets of subsets", "why_tests_cant": "Histories of any length over any number of objects that share a transform.", "anchors": ["neural_graph_composer/midi_dataset.py:MidiDataset.get_graph_id", "neural_graph_composer/midi_dataset.py:MidiDataset.__getitem__", "neural_graph_composer/transforms.py:GraphIDTransform.__call__"]}
{"id": "C153", "title": "Quantizing with floating-point rounding", "statement": "With every operation rounded to binary64: quantize_to_nearest_step raises ValueError exactly for a non-positive rate or amount; its steps are non-negative and never decrease with the time; the step is that of exact arithmetic unless time*sps + 1 - amount comes within one part in 2^51 of an integer; with amount 1/2 it is within half a step of the time, up to one part in 2^51; the float nearest to step k is quantized to k. quantize_in_place of a fresh valid note not shorter than (end + 1)/2^50 seconds, ending within 2^42 seconds, never raises and gives a valid quantized note. Defects: the largest float below 0.5 is quantized to step 1; a valid note 2^-54 seconds long raises ValueError.", "quantifier": "every time, rate, amount and fresh note", "why_tests_cant": "There are 2^64 floats; the two defects are single points among them.", "anchors": ["neural_graph_composer/midi/midi_note.py:MidiNote.quantize_to_nearest_step", "neural_graph_composer/midi/midi_note.py:MidiNote.quantize_in_place", "neural_graph_composer/midi/midi_control_change.py:MidiControlChange.quantize_to_nearest_step"]}
{"id": "C154", "title": "Split masks with floating-point rounding", "statement": "With the sum of the ratios and the products ratio*nodes rounded to binary64: every pair of ratios with exact sum at most 1 is accepted, an accepted pair has exact sum at most 1 + 2^-52; for up to 2^50 nodes and every permutation each node is in exactly one of the three masks, the computed sizes never add up to more than the number of nodes, and each is at most one part in 2^53 above ratio*nodes and less than one node (and one part in 2^53) below it. The sizes are not those of exact arithmetic: 0.3 of 10 nodes is 3 although the float 0.3 is below 3/10.", "quantifier": "every pair of ratios, every number of nodes, every permutation", "why_tests_cant": "Rounding errors depend on ratio and size together; all permutations.", "anchors": ["neural_graph_composer/midi_dataset.py:MidiDataset.__init__", "neural_graph_composer/midi_dataset.py:MidiDataset._mask_per_instrument", "neural_graph_composer/midi_dataset.py:MidiDataset._mask_entire_graph"]}
{"id": "C155", "title": "Ticks and seconds with floating-point rounding", "statement": "With every operation rounded to binary64, for every file with three-byte tempi: the tempo map has the same ticks as in exact arithmetic (rounding neither merges different tempi nor separates equal ones) and scales within 5 parts in 2^52; tick_to_time(k) is within n + 5 parts in 2^52 of the exact time (n entries in the map) and never decreases with k; time_to_tick of a time in the table returns a tick whose time is nearest up to one part in 2^51; time_to_tick(tick_to_time(k)) = k if no more than 2^45 ticks of any tempo in the map fit into the times of the table, in the table and beyond. Without that bound it fails: after 900 million ticks of the slowest tempo two ticks of the fastest one share a time.", "quantifier": "every file of tempo events, every resolution, every tick below 10^9, every time", "why_tests_cant": "Accumulated rounding over any number of tempo changes and up to 10^9 ticks.", "anchors": ["neural_graph_composer/custom_pretty_midi.py:CustomPrettyMIDI._load_tempo_changes", "neural_graph_composer/custom_pretty_midi.py:CustomPrettyMIDI._update_tick_to_time", "neural_graph_composer/custom_pretty_midi.py:CustomPrettyMIDI.tick_to_time", "neural_graph_composer/custom_pretty_midi.py:CustomPrettyMIDI.time_to_tick"]}
{"id": "C156", "title": "Loading and saving changes a tempo by at most a microsecond", "statement": "With every operation rounded to binary64, for every resolution up to 2^15 and every track of three-byte tempi: loading a file and saving it again never raises, and at every tick the saved tempo is the original one or one microsecond per quarter note less, never 0; after n rounds every tempo is at most n microseconds shorter and none is longer, so tick k comes at most n*k/(10^6*resolution) seconds earlier; from some round on nothing changes any more; get_tempo_changes reports 6e7/tempo up to 13 parts in 2^52. Defects: the tempo does get shorter (14761428 at 220 ticks loses a microsecond in each of 17 rounds), and a change between two tempi that differ by a microsecond can vanish.", "quantifier": "every resolution, every track of tempo events, every number of rounds", "why_tests_cant": "Which tempi lose a microsecond depends on all bits of tempo and resolution; any number of saves.", "anchors": ["neural_graph_composer/custom_pretty_midi.py:CustomPrettyMIDI._load_tempo_changes", "neural_graph_composer/custom_pretty_midi.py:CustomPrettyMIDI.write", "neural_graph_composer/custom_pretty_midi.py:CustomPrettyMIDI.get_tempo_changes"]}
{"id": "C157", "title": "estimate_beat_start returns the best of the first onsets", "statement": "For every object with notes that begin before they end, a tempo map and well-behaved time signatures, every non-negative number of candidates and every tolerance up to a second, estimate_beat_start returns, among the first candidates + 1 onsets more than a millisecond after the one before, one whose score is largest, of several the earliest; the score is the sum of the velocities of the notes beginning in the window around time 0 or around a beat counted from that onset, divided by the number of beats; a note counts for no beat more than tolerance + 1 ms away and for every beat at most tolerance - 2 ms away. Without notes or with a negative number of candidates it raises ValueError. Defects: one candidate more than asked for is tried; with the windows in floats a note at 3 ms raises ValueError. Whatever the scores (nan and infinite ones included), the choice is the first of the largest, nan counting as largest.", "quantifier": "every object, number of candidates, tolerance", "why_tests_cant": "The score ranges over all notes and beats; the rounding defect appears at isolated times.", "anchors": ["neural_graph_composer/custom_pretty_midi.py:CustomPrettyMIDI.estimate_beat_start"]}
{"id": "C158", "title": "Notes on the grid stay there in floats, at some rates", "statement": "With every operation rounded to binary64: at a rate that is 1 or a sum of two powers of two (2, 3, 4, 5, 6, 8, 10, 12, 16, 20, 24, ...) quantize_to_nearest_step with amount 1 gives the float nearest to step k exactly step k, as a start and as an end, for every k below 2^52; at 1, 2, 4, 5, 10 and 20 steps per second quantize_in_place with amount 1 leaves the times of every fresh note on the grid as they are; with the default amount 1/2, at every rate that divides 100, the start stays and the end moves to the float nearest to the next step. Defect: at 25, 50 and 100 steps per second notes on the grid are moved off their step (0.29 at 100 becomes 0.28).", "quantifier": "every step below 2^52, every rate of that form, every fresh note on the grid", "why_tests_cant": "Whether (k/n)*n = k in floats holds for all k depends on n; 25 and 20 look alike in a test with few k.", "anchors": ["neural_graph_composer/midi/midi_note.py:MidiNote.quantize_to_nearest_step", "neural_graph_composer/midi/midi_note.py:MidiNote.quantize_in_place"]}
{"id": "C159", "title": "Score of the interval tree", "statement": "After any history of add, discard and clear of proper intervals, with n intervals stored and m added since the last clear (n <= m): with at most two stored score() is 0; otherwise it raises ZeroDivisionError exactly when n is the integer part of log2(m), and else it is the larger of (levels the kept nodes are too deep)/(n - floor(log2 m)) and (n-m)/(n-1). If nothing was discarded it raises nothing, is never negative, and is 0 exactly when no interval lies deeper than floor(log2 n)+1 levels. Defects: since discarded intervals stay in the nodes, adding 8 and discarding 5 makes score() raise, and a score can become negative.", "quantifier": "every history of adds, discards and clears", "why_tests_cant": "The score is a function of the whole history, and the failing histories are sparse (n = floor(log2 m)).", "anchors": ["neural_graph_composer/interval/intervaltree.py:FloatIntervalTree.score", "neural_graph_composer/interval/node.py:Node.depth_score"]}
{"id": "C160", "title": "Load and save in floats keep every event on its tick", "statement": "For every MIDI file that loads, whose tempi are at least 1024 microseconds per quarter note (below 58594 bpm) and which has fewer than 2^50 messages in track 0, with every float operation rounded to binary64: loading works and gives the object exact arithmetic gives, with each time replaced by a float within n+5 parts in 2^52 (n tempo changes), later ticks getting strictly later times; saving that object works and writes instrument tracks identical, message by message and tick by tick, to those of exact arithmetic; the first track has the same other messages at the same ticks, in order of time, and its tempi are at the same ticks, each equal to the exact one or one microsecond less.", "quantifier": "every file with such tempi, every resolution, every drum channel in 0..15, every comparison sort", "why_tests_cant": "All ticks of all tempo maps; a table whose rounded times collide at one tick would move notes only there.", "anchors": ["neural_graph_composer/custom_pretty_midi.py:CustomPrettyMIDI.from_file", "neural_graph_composer/custom_pretty_midi.py:CustomPrettyMIDI.serialize", "neural_graph_composer/custom_pretty_midi.py:CustomPrettyMIDI.time_to_tick", "neural_graph_composer/custom_pretty_midi.py:CustomPrettyMIDI._update_tick_to_time"]}
{"id": "C161", "title": "Shifting and stretching with floating-point rounding", "statement": "With every operation rounded to binary64: shift_time and stretch give each time up to one part in 2^53 and keep everything else of the note; no two times change places, so sorted notes stay sorted and no note ends before it starts; a note stays longer than nothing if it lasts more than one part in 2^52 of its (new) end; a shift and back gives the old times up to one part in 2^53 of the times involved, and exactly if all are on a common binary grid; k shifts drift by at most k parts in 2^52; stretching by a power of two is exact and can be undone. shift_times of a sequence raises ValueError exactly if all notes are quantized, moves every note and the total time, which keeps covering the notes. Defects: a valid short note silently gets length 0 by a large shift; two neighbouring times become one by stretching; ten shifts by 0.1 s are not one by 1 s; a shift by 0.2 s and back changes 0.1 s.", "quantifier": "every note and sequence, every offset and factor, any number of shifts", "why_tests_cant": "Rounding depends on all bits of the operands.", "anchors": ["neural_graph_composer/midi/midi_note.py:MidiNote.shift_time", "neural_graph_composer/midi/midi_note.py:MidiNote.stretch", "neural_graph_composer/midi/midi_sequence.py:MidiNoteSequence.shift_times", "neural_graph_composer/midi/midi_sequence.py:MidiNoteSequence.stretch", "neural_graph_composer/midi/midi_sequence.py:MidiNoteSequence.truncate_to_last_event"]}
{"id": "C162", "title": "Scaling velocities with floating-point rounding", "statement": "With every operation rounded to binary64: for every list of whole-number velocities (up to 2^30 in absolute value) and targets within 0..127, rescale_velocities gives exactly what exact arithmetic gives, so C46 holds of the program as it runs. scale_relative_velocities maps equal or greater velocities to equal or greater whole numbers in 0..127, the whole part of velocity*factor unless that product is within one part in 2^51 of a whole number, then at most one off; with factor 1 each MIDI velocity stays or becomes one less. Defect: scaling [1, 48] by 1 gives [0, 48], a silent note.", "quantifier": "every list of velocities, every target range and factor", "why_tests_cant": "Rounding depends on all bits of the operands and on the mean of the list.", "anchors": ["neural_graph_composer/midi_graph_builder.py:MidiGraphBuilder.rescale_velocities", "neural_graph_composer/midi_graph_builder.py:MidiGraphBuilder.scale_relative_velocities"]}
{"id": "C163", "title": "Comparing control changes, controllers and pitch bends", "statement": "== of control changes is an equivalence (for newly made ones: sameness in every respect) and != its negation. a < b orders by time, but by insertion number if the times are within a billionth of each other; it is irreflexive and asymmetric, and sorting gives time order (insertion order for equal times) if no two different times of the list are that close. Defects: with closer times the order can run in a circle so that no arrangement is sorted; for controller objects == compares number and description but != only numbers, so two can be neither equal nor different: exactly if same number, other description; a control change of a named controller and the table entry of its number are neither equal nor different; == across the classes is not transitive; base < change compares numbers while change < base raises AttributeError; the entries 120..127 share one text with an unfilled place holder. == of pitch bends is sameness, sorting them gives order of amount, not of time. Below 120 different controllers have different descriptions. The pedals 64..69 have their standard texts; marked as switches are exactly 64..69 without 68, and 80..83.", "quantifier": "every control change, controller object, pitch bend and list of them, every sorting function", "why_tests_cant": "Laws of an order speak of all triples and lists; the failing triples differ by nanoseconds.", "anchors": ["neural_graph_composer/midi/midi_control_change.py:MidiControlChange.__lt__", "neural_graph_composer/midi/midi_control_change.py:MidiControlChange.__eq__", "neural_graph_composer/midi/midi_control_change.py:MidiControlChange.__ne__", "neural_graph_composer/midi/midi_control_change.py:MidiBaseControlChange.__eq__", "neural_graph_composer/midi/midi_control_change.py:MidiBaseControlChange.__ne__", "neural_graph_composer/midi/midi_control_change.py:MidiBaseControlChange.__lt__", "neural_graph_composer/midi/midi_control_change.py:MidiBaseControlChange.__init__", "neural_graph_composer/midi/midi_pitch_bend.py:MidiPitchBend.__eq__", "neural_graph_composer/midi/midi_pitch_bend.py:MidiPitchBend.__lt__"]}
{"id": "C164", "title": "The interval dictionary as a mutable mapping", "statement": "After every history of assignments, deletions, setdefault, pop, popitem, clear and update with keys of any kind, a SortedIntervalDict holds exactly what the assignments alone give, with keys in ascending order; membership and get agree with that map. Defect: nothing can ever be removed: deleting an interval, pop of a present one, popitem, clear and slice deletion of a non-empty dictionary all raise AttributeError, and an assigned key stays whatever is called. del d[a:b] picks by position, not by overlap like d[a:b]. Every slice is `in` the dictionary. Keys that are neither interval nor slice raise KeyError.", "quantifier": "every history of calls with every key", "why_tests_cant": "A statement about all histories; most methods are inherited and reach the failing one indirectly.", "anchors": ["neural_graph_composer/midi/sorted_interval_dict.py:SortedIntervalDict.__getitem__", "neural_graph_composer/midi/sorted_interval_dict.py:SortedIntervalDict.__setitem__", "neural_graph_composer/midi/sorted_interval_dict.py:SortedIntervalDict.__delitem__", "neural_graph_composer/midi/sorted_interval_dict.py:SortedIntervalDict.__iter__", "neural_graph_composer/midi/sorted_interval_dict.py:SortedIntervalDict.__init__"]}
{"id": "C165", "title": "Which malformed files are refused, and how", "statement": "For every MIDI file with non-negative deltas, loading decides in this order: no track raises IndexError; a resolution of zero or a tempo of zero in the first track raises ZeroDivisionError; an empty track, or a track whose deltas add up to 1000000000 or more, raises ValueError; any other file loads. A time signature with a numerator that is not positive or a denominator that is not a power of two makes MidiReader.read raise MidiReaderError. MidiReader.from_file raises nothing but ValueError, exactly when read raises. Loading in floats, as the program does, raises the same exceptions for the same files.", "quantifier": "every file and every resolution", "why_tests_cant": "The decision is about every file; a test can only try some malformed ones.", "anchors": ["neural_graph_composer/custom_pretty_midi.py:CustomPrettyMIDI.from_file", "neural_graph_composer/custom_pretty_midi.py:CustomPrettyMIDI._load_tempo_changes", "neural_graph_composer/midi_reader.py:MidiReader.read_time_signature", "neural_graph_composer/midi_reader.py:MidiReader.read", "neural_graph_composer/midi_reader.py:MidiReader.from_file"]}
{"id": "C166", "title": "The order in which chords enter a graph, with Python's floats and hashes", "statement": "build_sequence sorts the groups of notes by CPython's hash of their adjusted time (a float rounded to hundredths of a second). Two notes are in one group exactly when their adjusted times are the same number of hundredths: no two times below 2^31 seconds have the same hash. The groups are visited by the hundredths after the full second first: every chord that falls on x.00 before every chord on x.01, and so on, however many seconds later it is played; with equal hundredths, times whose seconds have the same number of binary digits are visited in playing order, others may be swapped (2.01 comes before 0.01). So in a whole piece of any length at most 99 of the steps that make the edges of the graph join chords that are not a whole number of seconds apart: the graph does not describe which chord follows which.", "quantifier": "every positive tolerance, every track with adjusted times below 2^31 seconds and every build option; every pair of times", "why_tests_cant": "A test with notes on whole seconds shows the playing order; the claim is about the hash of every float that is a rounded number of hundredths, billions of pairs, and about pieces of every length.", "anchors": ["neural_graph_composer/midi_graph_builder.py:MidiGraphBuilder.compute_data", "neural_graph_composer/midi_graph_builder.py:MidiGraphBuilder.build_sequence"]}
{"id": "C167", "title": "The graph convolution computes its formula", "statement": "For every graph, features, initial features, edge weights and parameters the layer returns, entry by entry, ((1-alpha) P X + alpha X0)((1-beta) I + beta Theta) where P X adds up at each node the rows of the sources of its incoming edges, times the edge weights if given (with two matrices: the sum of the two halves with their own matrices; equal matrices give the plain layer). The order of the edges is irrelevant, alpha = 1 makes the edges irrelevant, beta = 0 the matrix. theta and layer must be given together (AssertionError); for positive theta the strength beta is positive, at most theta/layer, below 1 for theta at most 1 and strictly decreasing with the layer.", "quantifier": "every finite graph with multi-edges and self loops, all real parameters and features", "why_tests_cant": "Equality of the in-place computation with the formula for all graphs and matrices; tests compare a few random tensors.", "anchors": ["minimum_example_node_classification.py:NgcGCN2Conv.forward", "minimum_example_node_classification.py:NgcGCN2Conv.message", "minimum_example_node_classification.py:NgcGCN2Conv.__init__"]}
{"id": "C168", "title": "The node classifier sees the graph only through its structure", "statement": "For every network: renaming the nodes renames the predictions and changes nothing else, whatever dropout factors are drawn; the order of edges is irrelevant; graphs put into one batch do not influence each other; the prediction for a node depends only on the features of nodes from which a walk of at most as many edges as there are layers leads to it (and that bound is attained); a node without incoming edges is judged as if it were alone; two nodes with the same features and the same predecessors always get the same predictions.", "quantifier": "every graph, every number of layers, all parameters, features and dropout factors", "why_tests_cant": "Statements about pairs of runs on all graphs and for all parameters.", "anchors": ["minimum_example_node_classification.py:NeuralGraphComposer.forward", "minimum_example_node_classification.py:NgcGCN2Conv.forward"]}
{"id": "C169", "title": "A cached layer keeps the edges of its first call", "statement": "With cached=True every call of every history is computed with the normalized edges of the first call, whatever edges and weights later calls pass, until reset_parameters; without it every call uses its own edges.", "quantifier": "every history of calls and every normalization", "why_tests_cant": "All histories of calls.", "anchors": ["minimum_example_node_classification.py:NgcGCN2Conv.forward", "minimum_example_node_classification.py:NgcGCN2Conv.reset_parameters"]}
{"id": "C170", "title": "The graph classifier and its use as a node classifier", "statement": "For every classifier (any row-wise networks) the prediction for a graph does not depend on the names and order of nodes and edges, and graphs of one batch do not influence each other. Defect: train_epoch and test of the example copy the output for graph number j of the batch to node number j, so that all nodes after the first (number of graphs) nodes are predicted as class 0 whatever the network and their graph.", "quantifier": "every graph, batch, number of layers and parameters", "why_tests_cant": "All graphs, renamings and batches.", "anchors": ["ngc_example05_gin.py:GinLike.forward", "ngc_example05_gin.py:Example01.train_epoch", "ngc_example05_gin.py:Example01.test"]}
{"id": "C171", "title": "From raw MIDI files to the graphs of a dataset", "statement": "For every list of raw MIDI files within the value ranges (no two note-ons of one channel and pitch at one tick, at most 128 instruments), accepted builder settings, tensor features, no graph filter and filter_single_notes=False: each file gives one track per part (track, program, channel) with exactly the notes of that part in seconds, a drum track exactly for channel 10. If the first file has a part other than drums with at least two notes, processing succeeds and the dataset has exactly one graph for each file with such a part, in file order; its nodes are chords of one such part of its file, all whose pitches are pitches of that part, and every note of the part is in one of its chords. If the first file has no such part, processing raises ValueError whatever the other files are.", "quantifier": "every list of MIDI files (any number of files, tracks, messages, notes), all settings named, all hash values, set orders and random permutations", "why_tests_cant": "The whole chain from messages to graphs for all files; tests run a few files.", "anchors": ["neural_graph_composer/midi_dataset.py:MidiDataset._mask_per_instrument", "neural_graph_composer/midi_graph_builder.py:MidiGraphBuilder.build", "neural_graph_composer/midi/midi_reader.py:MidiReader.read", "neural_graph_composer/midi/midi_sequences.py:MidiNoteSequences.__getitem__"]}
{"id": "C172", "title": "The loop over the tracks of a song", "statement": "`for s in song: \u2026 song[s] \u2026`, the loop of build, runs over a live list to which song[s] may add. It always ends. In a song filled by create_track and get_track, or made of imported sequences with instrument numbers 0 to 127, it visits every track exactly once in ascending order and leaves the song as it was, so that build of the song is build of its tracks. Otherwise: an imported instrument number above 127 makes the loop raise ValueError; after accesses song[i] alone the loop visits every number 0 to the largest accessed one, creating empty tracks for the numbers in between; after assignments song[i] = track alone it never visits an assigned track, so that build makes no graph, and if the assigned numbers are 0 to n-1 it raises ValueError.", "quantifier": "every history of accesses of the kind named, every loop body, every builder and settings", "why_tests_cant": "Concerns all histories of a song and a loop over a list that changes while the loop runs.", "anchors": ["neural_graph_composer/midi_graph_builder.py:MidiGraphBuilder.build", "neural_graph_composer/midi/midi_sequences.py:MidiNoteSequences.__getitem__", "neural_graph_composer/midi/midi_sequences.py:MidiNoteSequences.__iter__", "neural_graph_composer/midi/midi_sequences.py:MidiNoteSequences.__setitem__", "neural_graph_composer/midi/sorted_dict.py:SortedDict.__setitem__"]}
{"id": "C173", "title": "as_note_seq lists the pitches in order of time", "statement": "as_note_seq returns the pitches of all visible notes of the sequence, each as often as it occurs, in order of start time, notes that start together in stored order. The notes are afterwards stored in that order; nothing else of the sequence changes.", "quantifier": "every sequence (any number of notes, any times)", "why_tests_cant": "A statement about order, ties and completeness for all sequences.", "anchors": ["neural_graph_composer/midi/midi_sequence.py:MidiNoteSequence.as_note_seq"]}
{"id": "C174", "title": "Velocities in the feature vectors of a graph", "statement": "With velocities and tensor features, every node of a freshly built graph carries two rows of the requested size: the pitches of a chord with the node's number, and below each pitch the rescaled velocity of the loudest note of that pitch in the time group of that chord; the rescaling is one monotone function per chord with whole values 0 to 127. The rest of both rows is zero.", "quantifier": "every track, all settings with velocities and tensor features, all hash values and set orders", "why_tests_cant": "Concerns every node of every graph and ties between notes of one pitch.", "anchors": ["neural_graph_composer/midi_graph_builder.py:MidiGraphBuilder.build_sequence", "neural_graph_composer/midi_graph_builder.py:MidiGraphBuilder.rescale_velocities", "neural_graph_composer/midi_graph_builder.py:MidiGraphBuilder.create_tensor"]}
{"id": "C175", "title": "The graph convolution networks of the examples", "statement": "A graph convolution layer gives node i the sum, over its predecessors and itself, of the transformed rows divided by the roots of the numbers of links of both ends, plus the bias; self loops in the input are irrelevant, repeated edges count. The classifiers with two and three layers and the four encoders depend on the graph only through its structure: renumbering, the order of the edges and other graphs in the batch change nothing; a node hears only of nodes at most as many edges away as there are layers (two layers do reach two edges); nodes with equal features and equal predecessors get equal results. Classifier outputs are logarithms of probabilities.", "quantifier": "all graphs, features and parameters, any activation function", "why_tests_cant": "All graphs and all real parameters.", "anchors": ["example01_node_classification.py:GCN2", "example01_node_classification.py:GCN3", "example03_lstm.py:GCN3", "example04_gae.py:GCNEncoder", "example04_gae.py:LinearEncoder"]}
{"id": "C176", "title": "Predicting a link", "statement": "predict_link(a, b) equals predict_link(b, a) - it cannot tell a transition from its reverse -, lies strictly between 0 and 1, exceeds one half exactly if the scalar product of the two embeddings is positive, and is at least one half for a node with itself. Nodes with equal features and equal predecessors are predicted linked (at least one half) and are linked alike to every other node, whatever the training. Renumbering and other graphs of the batch change nothing. A variational model predicts links like the plain model with its layer of means.", "quantifier": "all graphs, node pairs, features, parameters and all four encoders", "why_tests_cant": "All real parameters and graphs.", "anchors": ["example04_gae.py:VariationGae.predict_link", "example04_gae.py:GCNEncoder"]}
{"id": "C177", "title": "Accuracy and loss of the autoencoder", "statement": "The accuracy of test is the share of the given pairs decided rightly, between 0 and 1; without pairs it is ZeroDivisionError. If the negative pairs are the positive pairs reversed, it is exactly one half, whatever was learned. The divergence part of the loss is never negative and 0 exactly for standard parameters; the reconstruction part is at least -2e-15. Training a plain model with the variational flag raises AttributeError; for a variational model the flag never makes the loss smaller. In training, the rows of a variational model are its means plus noise times exp(min(deviation, 10)), a factor of at most e^10.", "quantifier": "all embeddings, all lists of pairs, all parameters and noise", "why_tests_cant": "All real embeddings and pair lists.", "anchors": ["example04_gae.py:VariationGae.test", "example04_gae.py:VariationGae.train"]}
{"id": "C178", "title": "The attention networks of the examples", "statement": "An attention layer gives each node a weighted mean of the projected rows of its predecessors and itself, with positive weights, plus a bias: the result lies between the least and greatest of these rows, and if all predecessors look like the node their number is irrelevant. Edge attributes and the switch use_edge_weights have no effect (a defect). Renumbering, edge order and other graphs of the batch change nothing, also after pooling; two layers see at most two edges far. The activations grow with their argument, keep its sign and leave positive numbers as they are.", "quantifier": "all graphs, features, parameters and numbers of heads", "why_tests_cant": "All graphs and real parameters.", "anchors": ["gat_test.py:GAT", "example01_node_classification.py:GAT", "example03_lstm.py:GAT"]}
{"id": "C179", "title": "The sequence model reads from left to right", "statement": "On every non-empty sequence the LSTM gives one output per input with every entry strictly between -1 and 1, for any parameters, number of layers and initial state. Reading a sequence in two parts, passing the state on, gives the same outputs and state as reading it at once, so no output depends on later inputs. An empty sequence raises RuntimeError. A layer computes the standard recurrence of four gates.", "quantifier": "all sequences, parameters, states and numbers of layers", "why_tests_cant": "All lengths and real parameters.", "anchors": ["example03_lstm.py:GraphLSTM.forward"]}
{"id": "C180", "title": "Generating new rows", "statement": "generate_new_nodes_edges(edges, n) returns n rows for n > 0; the i-th is the decoded last output after reading the given edges i times from scratch, so what was generated is never read back (a defect). Asking for more rows only adds rows at the end. No edges, or n = 0, is RuntimeError.", "quantifier": "all edge rows, numbers of rows and parameters", "why_tests_cant": "All numbers of rows; a statement about the loop with its carried state.", "anchors": ["example03_lstm.py:GraphGenerationModel.generate_new_nodes_edges"]}
{"id": "C181", "title": "Which rows the decoder takes", "statement": "The decoder built for n classes takes exactly rows of width n, 2n and 2, returns rows of width n, and raises RuntimeError for all others. Rows of nodes go through one linear map, rows of the sequence model through two with relu between. Defect: with exactly two classes rows of nodes go through the wrong pair of maps.", "quantifier": "all numbers of classes, widths and parameters", "why_tests_cant": "All widths and class numbers.", "anchors": ["example03_lstm.py:Decoder"]}
{"id": "C182", "title": "Counts and scores of training", "statement": "In train_gcn the true and false positives of a class are together the nodes predicted so, the true positives and false negatives together the nodes of the class, once per epoch, and all true positives together are the right predictions. Accuracy is the share of right predictions; precision, recall and F1 of every class are right over predicted, right over present and their harmonic mean, in [0, 1) because of a constant in the denominators. No epochs or no nodes is ZeroDivisionError. Defect: the accuracy of train_lstm divides entries by sequences and can be any product of length and width.", "quantifier": "all labels, predictions, numbers of epochs and classes", "why_tests_cant": "All histories of predictions.", "anchors": ["example03_lstm.py:GraphGenerationModel.train_gcn", "example03_lstm.py:GraphGenerationModel.train_lstm"]}
{"id": "C183", "title": "A training of the autoencoder that runs to its end", "statement": "After any history of processes, killed at any point or not, a process that can load and saves every freq >= 1 epochs trains the epochs 0 to epochs - one more than asked for -, each with the weights the one before left. It records one number per epoch: the means over the batches of accuracy, area and precision, but half the mean loss (a defect: batches are counted twice). It reports the greatest accuracy and the first epoch that reached it. No batches, or a save interval of 0, is ZeroDivisionError in the first epoch, after training it and before saving.", "quantifier": "all histories of processes, batches, losses, numbers of epochs and save intervals", "why_tests_cant": "All histories and crash points.", "anchors": ["example04_gae.py:VariationGae.trainer"]}
{"id": "C184", "title": "Training with checkpoints, killed and started again", "statement": "After any history, let a new process find the weights s of epoch m. If it stops, killed or at its end, after saving some epoch not below m, the next process finds the weights of the last epoch it saved; otherwise, however long it trained, the next finds s again: its work is lost (a defect: epochs are counted from 0 again but the newest number is loaded). Killed inside a save below m, only its own work is lost; from m on no process can load any more and none changes the directory. Processes that all run to their end add up, minus the epochs after the last save each time.", "quantifier": "all histories of processes and all crash points, also inside a save, any order of the directory listing", "why_tests_cant": "All crash points and histories.", "anchors": ["example04_gae.py:VariationGae.trainer", "ngc_shared.py:Experiments.save_checkpoint", "ngc_shared.py:Experiments.load_checkpoint"]}
{"id": "C185", "title": "The order of intervals with arbitrary data", "statement": "a < c exactly if c > a and never both a < c and c < a, unless both have the same ends and carry frozensets neither of which contains the other: then each is greater than the other (a defect). Neither a < c nor a > c exactly if a == c or both carry different objects of one class without an order. Among intervals carrying None, numbers, strings or objects of classes whose name lies outside bool...int, < is a strict order by begin, then end, then data (numbers by value, True being 1, strings by text, frozensets by inclusion, else class names). Defect: with integers, floats and chords together there is a circle, 1 < 2.0 < {60} < 1.", "quantifier": "all intervals and data of the kinds None, bool, int, float, str, frozenset and unordered object", "why_tests_cant": "All triples of intervals with data of all types.", "anchors": ["neural_graph_composer/interval/interval.py:FloatInterval.__cmp__", "neural_graph_composer/interval/interval.py:FloatInterval.__lt__", "neural_graph_composer/interval/interval.py:FloatInterval.__gt__", "neural_graph_composer/interval/interval.py:FloatInterval.__eq__"]}
{"id": "C186", "title": "Names of notes", "statement": "from_name accepts a text exactly if it is a letter A-G of either case, any accidentals, an optional octave and optional signed hundredths; the pitch is 12 (octave + 1) (octave 0 if missing) plus letter and accidentals plus hundredths, rounded to the nearest and limited to 0..127. Another text is ParameterError whatever the times; times that do not increase are AssertionError. The order of accidentals is irrelevant. The name of every pitch reads back as this pitch. Defect: assigning a pitch leaves the old name; only a copy renews it. The given name is the semitone with a sharp for black keys and the octave in decimal, negative for the lowest twelve pitches only.", "quantifier": "all texts, pitches, times and further arguments", "why_tests_cant": "All texts.", "anchors": ["neural_graph_composer/midi/midi_note.py:MidiNote.from_name", "neural_graph_composer/midi/midi_note.py:MidiNote.__init__", "neural_graph_composer/midi/midi_note.py:MidiNote.pitch", "neural_graph_composer/midi/midi_note.py:MidiNote.make_copy"]}
{"id": "C187", "title": "The second reader of tempo events", "statement": "_load_tempo_changes2 on a track in order without zero tempos raises AttributeError exactly if there is a tempo event at tick 0 but the first event of the track is not a tempo event (a defect), ZeroDivisionError for resolution 0, and otherwise yields a tempo map: at every tick the last tempo up to there that differs from the opening tempo. So it agrees with the tempo in force, and with the other reader, exactly where the opening tempo has not come back after another one (a defect: returns are lost).", "quantifier": "all tracks with ticks in order, all resolutions and ticks", "why_tests_cant": "All tracks and ticks.", "anchors": ["neural_graph_composer/custom_pretty_midi.py:CustomPrettyMIDI._load_tempo_changes2", "neural_graph_composer/custom_pretty_midi.py:CustomPrettyMIDI._load_tempo_changes"]}
{"id": "C188", "title": "The checks of a batch", "statement": "check_edge_index raises IndexError exactly if a masked node has a number for which there is no edge; otherwise it accepts exactly if no node is in two masks, the edges with the numbers of masked nodes end in nodes, and there are as many edges as entries of masks; everything else is AssertionError. Defect: on a good batch - masks dividing the nodes, edges between nodes - it accepts exactly if there are as many edges as nodes. check_masking accepts exactly if targets and labels agree at every masked node, else AssertionError.", "quantifier": "all batches, masks, edges, targets and labels", "why_tests_cant": "All batches.", "anchors": ["example_read_complex_midi.py:check_edge_index", "example_read_complex_midi.py:check_masking"]}
{"id": "C189", "title": "A graph builder made from a file", "statement": "from_file accepts a path exactly if it is a file, what follows its last slash (trailing / and /. do not count) is a stem followed by .mid or .midi in small letters, the reader accepts it, and the feature size is missing or 1..127. Not a file, another name or another size is ValueError, the first two without reading; errors of the reader are passed on. Defect: is_include_velocity sets is_instrument_graph, velocities stay off; and no argument changes what build makes: it makes what a plain builder makes of the song read.", "quantifier": "all paths, file systems, readers, feature sizes, flags and later build options", "why_tests_cant": "All paths and songs.", "anchors": ["neural_graph_composer/midi_graph_builder.py:MidiGraphBuilder.from_file", "neural_graph_composer/midi_graph_builder.py:MidiGraphBuilder.__init__", "neural_graph_composer/midi_graph_builder.py:MidiGraphBuilder.build"]}
{"id": "C190", "title": "A node of a dataset leads back to its pitches", "statement": "For every graph built from a fresh start with tensor features without velocities, after any further builds of the same builder, unless two recorded chords share a hash: y of a node leads through index_to_hash and hash_to_notes to a chord of at most the feature width, and x of the node is exactly the pitches of that chord filled up with zeros. index_to_hash of ngc_small_graph reports exactly the selected rows that are not so, plus (too few zeros are added) rows that need more zeros than rows are selected; so it reports nothing when at least as many rows are selected as the width. An unknown label is KeyError; the mask of the first graph of several is IndexError. Defect: index_checker (cut at 5) and the sanity checker of the dataset (cut at the number of rows) report every row unless the width happens to be that number.", "quantifier": "all songs, histories of builds, masks, feature widths and, for the checks, all data", "why_tests_cant": "All histories of builds, all masks.", "anchors": ["ngc_small_graph.py:index_to_hash", "ngc_small_graph.py:index_checker", "neural_graph_composer/midi_dataset.py:MidiDataset", "neural_graph_composer/midi_graph_builder.py:MidiGraphBuilder.build_sequence", "neural_graph_composer/midi_graph_builder.py:MidiGraphBuilder.graphs"]}
{"id": "C191", "title": "Statistics of a dataset", "statement": "compute_statistics returns the sums over the graphs of nodes, edges and different labels of each graph; graphs are unchanged. The number of labels is at least that of different labels in the dataset, equal exactly when no label occurs in two graphs; for graphs handed out by builders it is always just the number of nodes. get_graph_id is the last index asked for, in range or not: after compute_statistics it is the number of graphs, the index of none.", "quantifier": "all datasets and indices", "why_tests_cant": "All datasets.", "anchors": ["neural_graph_composer/midi_dataset.py:MidiDataset.compute_statistics", "neural_graph_composer/midi_dataset.py:MidiDataset.get_graph_id", "neural_graph_composer/midi_dataset.py:MidiDataset.__getitem__"]}
{"id": "C192", "title": "The automatic tolerance in floats", "statement": "compute_tolerance in binary64, for every track of float start times and every percentile 0 to 100: never negative; 0 for a drum track or at most two notes; never below the smallest and never above the largest distance of consecutive start times (as floats), so for evenly spaced notes exactly the distance; and within M*n/2^50 of the exact percentile, n the number of distances and M a bound on them. With it, compute_data still raises exactly when an audible melodic note starts before 0, and two notes of one group start at most the tolerance plus a hundredth of a second apart, up to rounding.", "quantifier": "all tracks, percentiles and float start times", "why_tests_cant": "Every rounding of every interpolation.", "anchors": ["neural_graph_composer/midi_graph_builder.py:MidiGraphBuilder.compute_tolerance", "neural_graph_composer/midi_graph_builder.py:MidiGraphBuilder.instrument_time_differences", "neural_graph_composer/midi_graph_builder.py:MidiGraphBuilder.compute_data"]}
{"id": "C193", "title": "Generators of graphs under every schedule", "statement": "For every history of builds, calls of graphs(), next and close of any number of generators of one builder, in any interleaving: a generator hands out at most one graph, whatever is built in between; what it hands out is the first graph held at that time, labelled in place with the tables of that time. Resuming a generator that handed out a graph raises StopIteration and drops every graph and sub graph that the builder holds, those built since included (defect). As long as nobody resumes one, every generator hands out the same first graph again and everything stays held (defect). A graph handed out twice has the same targets y both times; only label may be missing. With per-instrument builds next raises only StopIteration and, first advanced with no chord recorded, ValueError - never KeyError. A build appends and does not look at the graphs held. A loop that runs to its end sees what C53 says.", "quantifier": "all histories of builds, generators, next and close on one builder", "why_tests_cant": "The outcome depends on the interleaving of generators and builds; tests run one loop.", "anchors": ["neural_graph_composer/midi_graph_builder.py:MidiGraphBuilder.graphs", "neural_graph_composer/midi_graph_builder.py:MidiGraphBuilder.build", "neural_graph_composer/midi_graph_builder.py:MidiGraphBuilder.pyg_data", "neural_graph_composer/midi_graph_builder.py:MidiGraphBuilder.__iter__"]}
{"id": "C194", "title": "Datasets with the sanity check", "statement": "Defect: MidiDataset(do_sanity_check=True) can never be processed. For all raw files, settings, filters and random numbers processing raises before anything is written: with playable songs AttributeError when the first readable song has a chord (without the check processing succeeds then), ValueError when it has none, IndexError when no file can be read.", "quantifier": "all lists of raw files, settings, filters and permutations", "why_tests_cant": "It must hold for every collection of files.", "anchors": ["neural_graph_composer/midi_dataset.py:MidiDataset._mask_per_instrument", "neural_graph_composer/midi_dataset.py:MidiDataset.process", "neural_graph_composer/midi_graph_builder.py:MidiGraphBuilder.graphs"]}
{"id": "C195", "title": "Chord numbers do not depend on options", "statement": "The four dictionaries between chords, hashes and numbers after any history of one builder depend only on the songs built, in order, and for each on the feature size and the filter for single notes: not on tolerance, buckets, kind of features, velocities, one graph per instrument or not, graphs taken in between, or graphs built before. Building the same songs again leaves all four as they are, even with hash collisions; so the dictionaries saved with a dataset, in both files, are those of any fresh builder that builds the same songs. What one build makes or raises is the same on any two builders. The first graph of a fresh builder has the numbers 1, 2, 3, \u2026 in node order for ever; defect: looking its features up by number, as index_checker does, gives the next node's row, and none for the last node.", "quantifier": "all histories of builds and graphs() on one builder, all songs, options, datasets and hash functions", "why_tests_cant": "It must hold for every history and every song, and with hash collisions.", "anchors": ["neural_graph_composer/midi_graph_builder.py:MidiGraphBuilder.build", "neural_graph_composer/midi_graph_builder.py:MidiGraphBuilder.build_sequence", "neural_graph_composer/midi_graph_builder.py:MidiGraphBuilder.graphs", "neural_graph_composer/midi_dataset.py:MidiDataset.process", "ngc_small_graph.py:index_checker"]}
{"id": "C196", "title": "Rescaling velocities to a range", "statement": "For velocities between 0 and 127 that are not all the same, and a target range within 0..127 (64..127 by default), rescale_velocities gives each velocity v the number target_min + (v \u2212 lowest)\u00b7(target_max \u2212 target_min) / (highest \u2212 lowest), rounded down, and floating point makes no difference. So the lowest becomes target_min, the highest target_max, all others lie between, the order of loudness is kept, and different velocities stay different if the target range is at least as wide as that of the list. An empty list is a ValueError. Defect: if all velocities are the same, also if there is only one, no note gets a number (0/0).", "quantifier": "all lists of velocities and all target ranges", "why_tests_cant": "It must hold for every list and range, and for every rounding of the two float operations.", "anchors": ["ngc_small_graph.py:rescale_velocities"]}
{"id": "C197", "title": "Scaling velocities by a factor", "statement": "scale_relative_velocities divides by the average velocity, multiplies by the factor and then by the average again. In exact arithmetic the average cancels: each velocity v that is not negative becomes the factor times v, rounded down and cut at 127, whatever the other velocities are. In floating point the result is at most one off that, is exactly that unless the product is within a millionth of a whole number, and keeps the order of loudness. Defects: the default factor 1 changes velocities (of 1 and 48 the first becomes 0, silent), and if all velocities are 0 no note gets a number.", "quantifier": "all lists of velocities and all factors that are not negative", "why_tests_cant": "It must hold for every list and factor, and for every rounding of the float operations.", "anchors": ["ngc_small_graph.py:scale_relative_velocities"]}
{"id": "C198", "title": "Labels of the nodes of a graph", "statement": "Every node of every graph that build() adds, one per instrument or one for the song, has a label. The label is the node's own hash exactly if no edge from another node enters the node; such a node is the first of its graph. Every other node has as label the set of names of all notes of a group of notes of a track that start together, and the chord of the node is part of that group. So a song that comes back to its first chord along a new edge overwrites the label of the first node, and one that comes back along an edge it has used in the other direction does not.", "quantifier": "all songs, builders, options and hash functions", "why_tests_cant": "It must hold for every song and every order of its chords, whatever the hashes are.", "anchors": ["neural_graph_composer/midi_graph_builder.py:MidiGraphBuilder.build_sequence", "neural_graph_composer/midi_graph_builder.py:MidiGraphBuilder.build"]}
{"id": "C199", "title": "The plot script", "statement": "Defect: create_graph_from_file of ngc_plot_sample.py raises ValueError for every path, whatever files there are and whatever the reader reads, because it calls MidiGraphBuilder.from_file with a keyword that function does not have; so main() ends with ValueError for every path. And given a graph that build() added, naming its nodes as both drawing functions do raises TypeError if no edge from another node enters the first node; otherwise each node gets the name of a note of a track.", "quantifier": "all file systems, readers, paths, and all graphs that builders make", "why_tests_cant": "It must hold for every path, file and graph.", "anchors": ["ngc_plot_sample.py:create_graph_from_file", "ngc_plot_sample.py:draw_midi_note_graph_matplotlib", "ngc_plot_sample.py:draw_midi_note_graph_plotly", "ngc_plot_sample.py:main", "neural_graph_composer/midi_graph_builder.py:MidiGraphBuilder.from_file"]}
{"id": "C200", "title": "The quantizers of midi_utils in floats", "statement": "With Python's floats: ft_quantize_to_nearest_step multiplies the time by the rate once (rounded) and returns one of the two whole numbers around the product; a later time never gets an earlier step, negative times are mirrored, and whenever rate times threshold is at least 1 (from two steps per second on with the default) nothing is rounded up. At a rate that is a sum of two powers of two the float nearest to the time of step k gets step k; at 100 steps per second 0.29 gets 28. quantize_note_to_step_grid is exact if the step is a power of two of a second and the grid a whole number of steps: the nearest steps, within half a step, in order. Defect: with steps of 0.1 and a grid of 0.3 seconds int(0.3/0.1) is 2 and every time k/10 is moved to about (k + k//2)/10. frames_from_times (occupancy 0) returns a first frame that is the floor or the ceiling of the exact product and likewise a last one; a note longer than a frame never fails, and at frame rates that are sums of two powers of two the times of the frames i < j give exactly i and j. The module's own check_grid_quantization passes; check_for_nearest gets 15 of the 17 results it announces.", "quantifier": "all float times, rates, thresholds, steps, grids and frame rates (products up to 2^52)", "why_tests_cant": "Rounding depends on every bit of the arguments; a test tries a few times.", "anchors": ["neural_graph_composer/midi/midi_utils.py:ft_quantize_to_nearest_step", "neural_graph_composer/midi/midi_utils.py:quantize_note_to_step_grid", "neural_graph_composer/midi/midi_utils.py:frames_from_times", "neural_graph_composer/midi/midi_utils.py:check_grid_quantization", "neural_graph_composer/midi/midi_utils.py:check_for_nearest"]}
{"id": "C201", "title": "Scores of an epoch of the first example", "statement": "Whatever the network predicts, train_epoch of the first example returns: as accuracy the share of right predictions among the nodes of all masks of all batches; as F1 the mean over the labels that occur; accuracy and F1 are in [0, 1] and each is 1 exactly if every node is right. Precision and recall are about class 1 only, in [0, 1), and count only nodes of (predicted) class 0 against it. Defect: with more classes precision can be 1/(1 + 1e-9) while all but one of any number of nodes predicted as 1 are wrong. The loss lies between the losses of the splits. Without splits it is a RuntimeError; if the masks fit and every batch has a graph there is no error.", "quantifier": "all batches, masks, labels, predictions and losses", "why_tests_cant": "It must hold for every prediction of every network.", "anchors": ["example01_node_classification.py:ExampleNodeClassification.train_epoch"]}
{"id": "C202", "title": "The first example never gets past an evaluation", "statement": "Defect: evaluate of the first example returns only if the test loader has batches and none has a split, for every kind of network, mask, label and prediction; otherwise it raises. So the first call of train() trains one epoch and raises, and each later call on the same object trains up to the next epoch that is a multiple of an evaluation interval and raises there. If the interval of saving is a multiple of one of these intervals, as with the defaults 10, 20 and 100, no checkpoint is ever written, however often train() is called and whatever training does.", "quantifier": "all networks, batches, predictions, intervals, numbers of epochs and histories of calls", "why_tests_cant": "It must hold for every history of calls and every outcome of training.", "anchors": ["example01_node_classification.py:ExampleNodeClassification.evaluate", "example01_node_classification.py:ExampleNodeClassification.train"]}
{"id": "C203", "title": "What the second example reports", "statement": "Defect: the accuracy example02 prints is the sum over the batches of the share of right predictions, divided by the number of test nodes; it is at most batches per test node, and exactly that for a perfect network, so below 1 as soon as there are more test nodes than batches. Without test nodes it is a ZeroDivisionError. The printed loss is a weighted mean of the losses of the batches if the batches hold the dataset. train() runs one epoch fewer than asked for, each printed once and in order.", "quantifier": "all batches, masks, labels, predictions, losses and numbers of epochs", "why_tests_cant": "It must hold for every prediction of every network.", "anchors": ["example02.py:Example02.train_epoch", "example02.py:Example02.train", "example02.py:Example02.test"]}
{"id": "C204", "title": "The attention script", "statement": "gat_test.py logs in every epoch its own training and validation accuracy and the test accuracy of the first epoch with the greatest validation accuracy so far, if some validation node is predicted right in the first epoch. Defect: otherwise it ends with NameError in the first epoch. An empty training mask is a ZeroDivisionError in the first epoch.", "quantifier": "all labels, masks and sequences of predictions", "why_tests_cant": "It must hold for every course of the training.", "anchors": ["gat_test.py:test", "gat_test.py:train"]}
{"id": "C205", "title": "What the pooling experiment keeps of a graph", "statement": "The attention of the nodes is positive, adds up to 1 and orders them as the first feature does; the other features stay. The pooling never empties a graph, keeps the nodes in order, and with a node every node that scores at least as much. If some node scores 0.0500001 or more, those above 0.05 are kept, at most 19; otherwise those within 1e-7 of the best. Graphs of at most 19 nodes are cut at 0.05, graphs of equal nodes kept whole. The edges between kept nodes stay, renumbered to the places of the kept nodes.", "quantifier": "all graphs, features and weights", "why_tests_cant": "The networks are trained, so it must hold for every weight and graph.", "anchors": ["dataset_checker.py:HandleNodeAttention", "dataset_checker.py:ModelTokPoolingTest.__init__", "dataset_checker.py:ModelTokPoolingTest.forward"]}
{"id": "C206", "title": "What the loss of the pooling experiment measures", "statement": "Defect: all losses of an epoch are computed with the labels of the graph drawn before the loop; the labels of the batches change nothing. A loss is the squared distance of the output from the mean of those labels plus their variance plus 100 times the attention loss, so the best answer to every graph is that mean. With k nodes kept the attention loss is at least -1/k - 1e-14, at least -1e-14 if all are kept, and at most log 20 / k if some node scores 0.0500001; defect: it is below 0 whenever no kept node has more attention than score.", "quantifier": "all graphs, labels, networks and sequences of networks", "why_tests_cant": "It must hold for every course of the training.", "anchors": ["dataset_checker.py:ModelTokPoolingTest.forward", "dataset_checker.py:topk_test"]}
{"id": "C207", "title": "What the plot of the metrics shows", "statement": "After any history of updates plot_metrics returns exactly if every training score was recorded as often as the losses or never, and, where validation (or each of the four test scores) was recorded, the interval is not 0 and the other lists fit; otherwise it is a ValueError and no file is written. The k-th loss (from 0) stands at k + 1, the k-th validation at (k + 1) times the interval; title and file carry the model's name. Defect: for the graph autoencoder the plot is the line of the losses and nothing else: accuracy, AUC and AP are never drawn.", "quantifier": "all histories of updates, intervals and names", "why_tests_cant": "It must hold for every history.", "anchors": ["ngc_shared.py:Experiments.plot_metrics", "ngc_shared.py:Experiments.update_metrics", "ngc_shared.py:Experiments.update_val_metric", "ngc_shared.py:Experiments.update_test_metric", "example04_gae.py:VariationGae.trainer"]}
{"id": "C208", "title": "Creating sequences by counter", "statement": "_create_new_midi_seq refuses a program outside 0..255 with ValueError; otherwise it stores the new sequence under a counter, maps the program to that number whatever it was mapped to, changes nothing else and counts up by one; for a program up to 127, [program] then gives the new sequence. Defect: the counter ignores the tracks that are there: after any history of the other track methods, k calls replace the tracks 0 to k - 1.", "quantifier": "all histories of track methods, calls, names and programs", "why_tests_cant": "It must hold for every history.", "anchors": ["neural_graph_composer/midi/midi_sequences.py:MidiNoteSequences._create_new_midi_seq"]}
{"id": "C209", "title": "The average tempo", "statement": "Defect: average_qpm never averages: a list is a TypeError (it is cached by its arguments), a tuple of tempo signatures an AttributeError, whatever their tempi and the total time; only the empty tuple gives a number, 120.", "quantifier": "all signatures, lists, tuples and total times", "why_tests_cant": "It must hold for every argument.", "anchors": ["neural_graph_composer/midi/midi_time_signature.py:MidiTempoSignature.average_qpm"]}
