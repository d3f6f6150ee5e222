{
 "claims": [
  {
   "property": "C01",
   "status": "proved",
   "theorems": [
    "NGC.C01_construct_iff",
    "NGC.C01_construct_valid",
    "NGC.C01_construct_clamps"
   ],
   "note": "Exact success condition and result of the constructor; clamping of every field."
  },
  {
   "property": "C02",
   "status": "proved",
   "theorems": [
    "NGC.C02_setters_keep_valid",
    "NGC.C02_setters_exact",
    "NGC.C02_step_order_not_checked",
    "NGC.C02_setters_refused"
   ],
   "note": "Over every finite history of checked setters. C02_step_order_not_checked records that the order of the two quantized steps is not part of the checked ranges."
  },
  {
   "property": "C03",
   "status": "proved",
   "theorems": [
    "NGC.C03_copy",
    "NGC.C03_copy_fails",
    "NGC.C03_copy_override"
   ],
   "note": "Exact condition for the copy (C03_copy), overriding (C03_copy_override), and the refutation for denominators above 128 (C03_copy_fails)."
  },
  {
   "property": "C04",
   "status": "proved",
   "theorems": [
    "NGC.C04_eq_iff",
    "NGC.C04_eq_refl_symm",
    "NGC.C04_eq_not_transitive"
   ],
   "note": "Exact characterisation of ==; also not transitive (C04_eq_not_transitive)."
  },
  {
   "property": "C05",
   "status": "proved",
   "theorems": [
    "NGC.C05_lt_asymm",
    "NGC.C05_lt_lex",
    "NGC.C05_lt_trans",
    "NGC.C05_lt_not_transitive",
    "NGC.C05_le_total"
   ],
   "note": "All parts proved, including the cycle that shows the separation hypothesis cannot be dropped."
  },
  {
   "property": "C06",
   "status": "proved",
   "theorems": [
    "NGC.C06_overlaps_iff",
    "NGC.C06_overlaps_laws"
   ],
   "note": "Overlap iff a common instant in the half-open spans, with the derived laws."
  },
  {
   "property": "C07",
   "status": "proved",
   "theorems": [
    "NGC.C07_step_raises_iff",
    "NGC.C07_step_nonneg_mono",
    "NGC.C07_floor_nearest",
    "NGC.C07_ceil_overshoots"
   ],
   "note": "Raise condition, monotonicity, distance bounds for all rationals."
  },
  {
   "property": "C08",
   "status": "proved",
   "theorems": [
    "NGC.C08_quantize_total",
    "NGC.C08_min_step"
   ],
   "note": "Total on all fresh non-negative notes, 0 < amount <= 1."
  },
  {
   "property": "C09",
   "status": "proved",
   "theorems": [
    "NGC.C09_grid_fixed",
    "NGC.C09_default_amount_grows",
    "NGC.C09_rate_three"
   ],
   "note": "Fixed points proved for all grid notes at amount 1 and rates dividing 100; the expectation at the default amount refuted for all grid notes (C09_default_amount_grows) and at rate 3 (C09_rate_three)."
  },
  {
   "property": "C10",
   "status": "proved",
   "theorems": [
    "NGC.C10_shift_laws",
    "NGC.C10_stretch_laws",
    "NGC.C10_stretch_nonpos"
   ],
   "note": "Shift/stretch laws; C10_stretch_nonpos covers non-positive factors."
  },
  {
   "property": "C11",
   "status": "proved",
   "theorems": [
    "NGC.C11_equal_tempered",
    "NGC.C11_named_pitch_sharp",
    "NGC.C11_documented_examples",
    "NGC.C11_named_octave"
   ],
   "note": "Proved over the reals (float rounding not modelled)."
  },
  {
   "property": "C12",
   "status": "proved",
   "theorems": [
    "NGC.C12_round_trip",
    "NGC.C12_optional_missing",
    "NGC.C12_missing_optional_raises"
   ],
   "note": "Round trip and the outcome for every missing key proved."
  },
  {
   "property": "C13",
   "status": "proved",
   "theorems": [
    "NGC.C13_construct",
    "NGC.C13_conversions",
    "NGC.C13_setter_unchecked",
    "NGC.C13_tempo_to_qpm"
   ],
   "note": "All parts proved, including the unchecked setter."
  },
  {
   "property": "C14",
   "status": "proved",
   "theorems": [
    "NGC.C14_construct",
    "NGC.C14_beats_value",
    "NGC.C14_beats_documented_iff",
    "NGC.C14_beats_documented_false",
    "NGC.C14_measure_length"
   ],
   "note": "Exact construction condition and exact value; documented number refuted for 6/8 and 2/2."
  },
  {
   "property": "C15",
   "status": "proved",
   "theorems": [
    "NGC.C15_construct",
    "NGC.C15_family",
    "NGC.C15_round_trip",
    "NGC.C15_eq_hash_lt",
    "NGC.C15_missing_keys"
   ],
   "note": "Table facts by evaluation of the whole finite table, lifted to all numbers."
  },
  {
   "property": "C16",
   "status": "proved",
   "theorems": [
    "NGC.C16_construct",
    "NGC.C16_assign",
    "NGC.C16_history"
   ],
   "note": "Constructor condition and all setter histories."
  },
  {
   "property": "C17",
   "status": "proved",
   "theorems": [
    "NGC.C17_clamps",
    "NGC.C17_copy_equal_iff",
    "NGC.C17_copy_drops_drum"
   ],
   "note": "Clamping and the exact condition for the copy to be equal proved."
  },
  {
   "property": "C18",
   "status": "proved",
   "theorems": [
    "NGC.C18_quantize_always_raises",
    "NGC.C18_step_nearest",
    "NGC.C18_setters"
   ],
   "note": "Proved for all control changes, rates and amounts."
  },
  {
   "property": "C19",
   "status": "proved",
   "theorems": [
    "NGC.C19_total_time_covers",
    "NGC.C19_total_time_exact"
   ],
   "note": "Over every finite history of the listed operations; exact value after assignment/construct (C19_total_time_exact)."
  },
  {
   "property": "C20",
   "status": "proved",
   "theorems": [
    "NGC.C20_add_note_raises_iff",
    "NGC.C20_add_note_appends",
    "NGC.C20_add_note_hidden"
   ],
   "note": "Raise condition exact, both outcomes proved."
  },
  {
   "property": "C21",
   "status": "proved",
   "theorems": [
    "NGC.C21_merge_raises_iff",
    "NGC.C21_merge_multiset",
    "NGC.C21_merge_sorted"
   ],
   "note": "Proved for any sort function that meets the contract of list.sort on comparators that are strict weak orders."
  },
  {
   "property": "C22",
   "status": "proved",
   "theorems": [
    "NGC.C22_insert_perm",
    "NGC.C22_insert_sorted",
    "NGC.C22_insert_unsorted"
   ],
   "note": "All three parts proved."
  },
  {
   "property": "C23",
   "status": "proved",
   "theorems": [
    "NGC.C23_truncate",
    "NGC.C23_truncate_twice",
    "NGC.C23_truncate_resolution"
   ],
   "note": "Notes, total, instrument, composition and the reset resolution proved."
  },
  {
   "property": "C24",
   "status": "proved",
   "theorems": [
    "NGC.C24_slice_window",
    "NGC.C24_slice_not_clipped",
    "NGC.C24_slice_raises_iff",
    "NGC.C24_slice_foreign_note"
   ],
   "note": "Exact raise condition, exact notes; clipping refuted for every note that starts in the window and ends after it."
  },
  {
   "property": "C25",
   "status": "proved",
   "theorems": [
    "NGC.C25_shift",
    "NGC.C25_shift_undo",
    "NGC.C25_shift_not_undone",
    "NGC.C25_shift_empty_raises"
   ],
   "note": "Exact outcome, inverse and the counterexample proved."
  },
  {
   "property": "C26",
   "status": "proved",
   "theorems": [
    "NGC.C26_extract_raises",
    "NGC.C26_extract_empty",
    "NGC.C26_arguments"
   ],
   "note": "Complete case analysis of the outcome."
  },
  {
   "property": "C27",
   "status": "proved",
   "theorems": [
    "NGC.C27_clone",
    "NGC.C27_clone_drum_empty",
    "NGC.C27_clone_empty"
   ],
   "note": "Proved, including the loss of all notes for drum sequences."
  },
  {
   "property": "C28",
   "status": "proved",
   "theorems": [
    "NGC.C28_add_only_empty"
   ],
   "note": "Exact condition proved."
  },
  {
   "property": "C29",
   "status": "proved",
   "theorems": [
    "NGC.C29_quantize",
    "NGC.C29_total_steps_stale",
    "NGC.C29_control_change_raises"
   ],
   "note": "All parts proved."
  },
  {
   "property": "C30",
   "status": "proved",
   "theorems": [
    "NGC.C30_intervals",
    "NGC.C30_multiplicity",
    "NGC.C30_duplicates",
    "NGC.C30_split_no_pieces"
   ],
   "note": "Sortedness, membership, exact multiplicity and the behaviour of split proved."
  },
  {
   "property": "C31",
   "status": "proved",
   "theorems": [
    "NGC.C31_min_step"
   ],
   "note": "Exact minimum over consecutive disjoint notes in start order."
  },
  {
   "property": "C32",
   "status": "proved",
   "theorems": [
    "NGC.C32_brackets",
    "NGC.C32_create_track",
    "NGC.C32_bracket_destroys",
    "NGC.C32_default_track"
   ],
   "note": "Both homogeneous histories proved for all lengths; mixing refuted by concrete histories (C32_bracket_destroys)."
  },
  {
   "property": "C33",
   "status": "proved",
   "theorems": [
    "NGC.C33_iteration"
   ],
   "note": "Every history of track assignments: keys strictly increasing, each once, len counts them."
  },
  {
   "property": "C34",
   "status": "proved",
   "theorems": [
    "NGC.C34_history",
    "NGC.C34_drift_loses",
    "NGC.C34_empty_raises"
   ],
   "note": "Proved for all such histories; both boundaries shown to be necessary."
  },
  {
   "property": "C35",
   "status": "proved",
   "theorems": [
    "NGC.C35_lookup",
    "NGC.C35_lookup_at_start",
    "NGC.C35_lookup_at_zero",
    "NGC.C35_lookup_wraps",
    "NGC.C35_memo_fresh",
    "NGC.C35_initial_tempo_stale",
    "NGC.C35_initial_tempo_first"
   ],
   "note": "Exact outcome of the lookup for all non-negative times; so 'returns the last signature with midi_time <= t' is refuted at start times."
  },
  {
   "property": "C36",
   "status": "proved",
   "theorems": [
    "NGC.C36_import"
   ],
   "note": "Multiset of notes and instrument grouping after importing any list of sequences."
  },
  {
   "property": "C37",
   "status": "proved",
   "theorems": [
    "NGC.C37_is_quantized_always",
    "NGC.C37_trim_noop",
    "NGC.C37_truncate_from_start",
    "NGC.C37_truncate"
   ],
   "note": "Each method's outcome proved for all track sets."
  },
  {
   "property": "C38",
   "status": "proved",
   "theorems": [
    "NGC.C38_refines_map"
   ],
   "note": "Refinement to a finite map over every history of assignments and deletions."
  },
  {
   "property": "C39",
   "status": "proved",
   "theorems": [
    "NGC.C39_slice"
   ],
   "note": "Slice returns exactly the overlapping entries."
  },
  {
   "property": "C40",
   "status": "proved",
   "theorems": [
    "NGC.C40_set_semantics",
    "NGC.C40_order"
   ],
   "note": "Set semantics and lexicographic order for all integer intervals."
  },
  {
   "property": "C41",
   "status": "proved",
   "theorems": [
    "NGC.C41_set_semantics",
    "NGC.C41_null_rejected",
    "NGC.C41_add_twice",
    "NGC.C41_never_raises"
   ],
   "note": "For every history of add/discard/remove/clear; never raises for intervals that are not point-like, given recursion limit above four times the history length."
  },
  {
   "property": "C42",
   "status": "proved",
   "theorems": [
    "NGC.C42_nodes_hold_stored",
    "NGC.C42_stored_in_nodes",
    "NGC.C42_built_tree",
    "NGC.C42_built_null",
    "NGC.C42_built_tree_total",
    "NGC.C42_short_interval_recursion"
   ],
   "note": "Proved for all histories within the stated recursion limit."
  },
  {
   "property": "C43",
   "status": "proved",
   "theorems": [
    "NGC.C43_remove_always_raises",
    "NGC.C43_missing",
    "NGC.C43_discard_leaves_node"
   ],
   "note": "Proved; the expectation that a stored interval can be removed is refuted for all such histories."
  },
  {
   "property": "C44",
   "status": "proved",
   "theorems": [
    "NGC.C44_search_raises",
    "NGC.C44_point_never_found",
    "NGC.C44_empty"
   ],
   "note": "Proved for all histories; the expected query semantics is refuted."
  },
  {
   "property": "C45",
   "status": "proved",
   "theorems": [
    "NGC.C45_partition",
    "NGC.C45_filter_single",
    "NGC.C45_raises",
    "NGC.C45_same_start_same_group",
    "NGC.C45_group_width"
   ],
   "note": "Partition, first-occurrence order, group sizes; C45_raises gives the exact failure."
  },
  {
   "property": "C46",
   "status": "proved",
   "theorems": [
    "NGC.C46_rescale",
    "NGC.C46_extremes"
   ],
   "note": "Length, range and monotonicity for all lists; extremes reach the ends."
  },
  {
   "property": "C47",
   "status": "proved",
   "theorems": [
    "NGC.C47_weights"
   ],
   "note": "Weights count transitions, total = number of steps."
  },
  {
   "property": "C48",
   "status": "proved",
   "theorems": [
    "NGC.C48_edges",
    "NGC.C48_playing_order_lost",
    "NGC.C48_time_order"
   ],
   "note": "Edges exact for every sequence; playing order under the monotonicity hypothesis; refutation without it."
  },
  {
   "property": "C49",
   "status": "proved",
   "theorems": [
    "NGC.C49_index_bijection",
    "NGC.C49_labels_start_at_one",
    "NGC.C49_index_stable",
    "NGC.C49_notes_inverse",
    "NGC.C49_collision"
   ],
   "note": "Proved for every build history; expectation 0..n-1 refuted."
  },
  {
   "property": "C50",
   "status": "proved",
   "theorems": [
    "NGC.C50_nodes",
    "NGC.C50_complete"
   ],
   "note": "Nodes are the distinct chords, all attributes present."
  },
  {
   "property": "C51",
   "status": "proved",
   "theorems": [
    "NGC.C51_pitch_vector",
    "NGC.C51_velocity_rows",
    "NGC.C51_too_many_velocities"
   ],
   "note": "Exact vector; too many velocities raise."
  },
  {
   "property": "C52",
   "status": "proved",
   "theorems": [
    "NGC.C52_merge",
    "NGC.C52_in_edges_lost",
    "NGC.C52_raises"
   ],
   "note": "Complete description of the result; in-edge redirection refuted for every graph."
  },
  {
   "property": "C53",
   "status": "proved",
   "theorems": [
    "NGC.C53_only_first_graph",
    "NGC.C53_nothing_built"
   ],
   "note": "Proved for every builder state; 'yields each built graph once' is refuted."
  },
  {
   "property": "C54",
   "status": "proved",
   "theorems": [
    "NGC.C54_split"
   ],
   "note": "Chunks of at most feature_vec_size pitches whose union is the chord."
  },
  {
   "property": "C55",
   "status": "proved",
   "theorems": [
    "NGC.C55_roundtrip",
    "NGC.C55_absolute_is_sum",
    "NGC.C55_order",
    "NGC.C55_serialized_deltas"
   ],
   "note": "Both directions, sums, order; C55_serialized_deltas: every serialized file has non-negative deltas, for any sort meeting IsCmpSort."
  },
  {
   "property": "C56",
   "status": "proved",
   "theorems": [
    "NGC.C56_tick_to_time",
    "NGC.C56_increasing",
    "NGC.C56_fresh",
    "NGC.C56_history",
    "NGC.C56_table_covers_file"
   ],
   "note": "Also for any history of queries and, at file level, every event tick is in the table."
  },
  {
   "property": "C57",
   "status": "proved",
   "theorems": [
    "NGC.C57_nearest",
    "NGC.C57_inverse"
   ],
   "note": "Nearest tick for every time, inverse below 10^9."
  },
  {
   "property": "C58",
   "status": "proved",
   "theorems": [
    "NGC.C58_exact_no_stack",
    "NGC.C58_one_note_per_note_on",
    "NGC.C58_start_lt_end",
    "NGC.C58_overlap_truncates",
    "NGC.C58_stacked_note_lost",
    "NGC.C58_no_end_drops",
    "NGC.C58_exact"
   ],
   "note": "C58_exact: exact multiset of notes for every file with ticks in order (stacked note-ons included). C58_overlap_truncates, C58_stacked_note_lost, C58_no_end_drops refute the naive pairing."
  },
  {
   "property": "C59",
   "status": "proved",
   "theorems": [
    "NGC.C59_comparator_consistent",
    "NGC.C59_track_name_inconsistent",
    "NGC.C59_sorted_order",
    "NGC.C59_instrument_track",
    "NGC.C59_bends_reordered",
    "NGC.C59_zero_length_reversed"
   ],
   "note": "Proved for any sort meeting the contract of functools.cmp_to_key sorting on consistent comparators."
  },
  {
   "property": "C60",
   "status": "proved",
   "theorems": [
    "NGC.C60_tempo_map",
    "NGC.C60_loaded_clock"
   ],
   "note": "For non-negative ordered ticks and non-zero tempos."
  },
  {
   "property": "C61",
   "status": "proved",
   "theorems": [
    "NGC.C61_notes_read",
    "NGC.C61_all_notes_kept",
    "NGC.C61_note_kept_iff",
    "NGC.C61_note_lost"
   ],
   "note": "C61_notes_read exact for every readable object; C61_all_notes_kept, C61_note_kept_iff and C61_note_lost are the consequences. Objects outside Spec.Readable (out-of-range data) are covered only by C62_bad_key_raises."
  },
  {
   "property": "C62",
   "status": "proved",
   "theorems": [
    "NGC.C62_key_round_trip",
    "NGC.C62_bad_key_raises",
    "NGC.C62_keys_round_trip",
    "NGC.C62_example"
   ],
   "note": "C62_key_round_trip per number, C62_bad_key_raises, C62_keys_round_trip for the list."
  },
  {
   "property": "C63",
   "status": "proved",
   "theorems": [
    "NGC.C63_get_index",
    "NGC.C63_bijection",
    "NGC.C63_indices",
    "NGC.C63_stable"
   ],
   "note": "History = any tree of add/merge starting from empty mappers."
  },
  {
   "property": "C64",
   "status": "proved",
   "theorems": [
    "NGC.C64_partition"
   ],
   "note": "Ratio times number of nodes is exact; Python rounds the product to a float before int()."
  },
  {
   "property": "C65",
   "status": "proved",
   "theorems": [
    "NGC.C65_per_instrument_crash_safe",
    "NGC.C65_fresh_result",
    "NGC.C65_whole_file_holds_instrument_graphs",
    "NGC.C65_crash_in_second_save",
    "NGC.C65_other_crash_points"
   ],
   "note": "torch.save is two effects: the file exists but is incomplete, then it is complete. Crash points are between effects. The statement says what really holds, including the two defects."
  },
  {
   "property": "C66",
   "status": "proved",
   "theorems": [
    "NGC.C66_resume",
    "NGC.C66_no_checkpoint"
   ],
   "note": "A save is atomic here except for the explicit interrupted saves. int() of a name suffix accepts decimal digits only."
  },
  {
   "property": "C67",
   "status": "proved",
   "theorems": [
    "NGC.C67_remove",
    "NGC.C67_remove_invalid",
    "NGC.C67_not_renumbered",
    "NGC.C67_remaining",
    "NGC.C67_node_drop",
    "NGC.C67_drop_count",
    "NGC.C67_node_drop_no_attr",
    "NGC.C67_remove_count",
    "NGC.C67_node_drop_labels"
   ],
   "note": "Edge endpoints are natural numbers (negative tensor indices are not modelled). The statement says what really holds, including the defects."
  },
  {
   "property": "C68",
   "status": "proved",
   "theorems": [
    "NGC.C68_notes",
    "NGC.C68_transpose",
    "NGC.C68_modes",
    "NGC.C68_accepts",
    "NGC.C68_tables",
    "NGC.C68_triads",
    "NGC.C68_triad_types",
    "NGC.C68_extended",
    "NGC.C68_scale_texts"
   ],
   "note": "Every root, scale and set iteration order. Refutations included: lower-case and numeric roots are refused, the triad types of four scales are wrong, the extended chord list ignores the scale."
  },
  {
   "property": "C69",
   "status": "proved",
   "theorems": [
    "NGC.C69_round_trip",
    "NGC.C69_compound",
    "NGC.C69_bases",
    "NGC.C69_inverse_refuted"
   ],
   "note": "Includes the refutation of inversion."
  },
  {
   "property": "C70",
   "status": "proved",
   "theorems": [
    "NGC.C70_injective",
    "NGC.C70_parts"
   ],
   "note": "All integers."
  },
  {
   "property": "C71",
   "status": "proved",
   "theorems": [
    "NGC.C71_sound",
    "NGC.C71_round_trip",
    "NGC.C71_lookups",
    "NGC.C71_pitches",
    "NGC.C71_transpose",
    "NGC.C71_text_refuted",
    "NGC.C71_tables",
    "NGC.C71_tables_disagree",
    "NGC.C71_chord_from_scale",
    "NGC.C71_list_of_chords",
    "NGC.C71_interval_texts",
    "NGC.C71_refusals"
   ],
   "note": "Exceptions are stated exactly: aug7/M7, the five names on which the tables differ, text intervals."
  },
  {
   "property": "C72",
   "status": "proved",
   "theorems": [
    "NGC.C72_agree",
    "NGC.C72_meaning",
    "NGC.C72_linear",
    "NGC.C72_round_trip",
    "NGC.C72_np"
   ],
   "note": "Includes the refutation of the round trip with default arguments."
  },
  {
   "property": "C73",
   "status": "proved",
   "theorems": [
    "NGC.C73_ft_odd",
    "NGC.C73_ft_nearest",
    "NGC.C73_ft_default_truncates",
    "NGC.C73_ft_mono",
    "NGC.C73_ft_errors",
    "NGC.C73_nearest",
    "NGC.C73_step_unit",
    "NGC.C73_alt_nearest",
    "NGC.C73_alt_half",
    "NGC.C73_vector",
    "NGC.C73_vector_empty",
    "NGC.C73_vector_idem",
    "NGC.C73_snap_raises",
    "NGC.C73_grid_nearest",
    "NGC.C73_grid_drift",
    "NGC.C73_grid_order",
    "NGC.C73_grid_errors",
    "NGC.C73_interpolate"
   ],
   "note": "Each quantizer characterised exactly, with the conditions under which it is a nearest-step quantizer and counterexamples otherwise."
  },
  {
   "property": "C74",
   "status": "proved",
   "theorems": [
    "NGC.C74_covers",
    "NGC.C74_errors",
    "NGC.C74_occupancy",
    "NGC.C74_start",
    "NGC.C74_negative_frame"
   ],
   "note": "With and without occupancy; defects stated as theorems."
  },
  {
   "property": "C75",
   "status": "proved",
   "theorems": [
    "NGC.C75_onehot",
    "NGC.C75_onehot_injective",
    "NGC.C75_roll",
    "NGC.C75_roll_short_lost",
    "NGC.C75_roll_marks",
    "NGC.C75_roll_empty",
    "NGC.C75_roll_width",
    "NGC.C75_roll_total"
   ],
   "note": "np_onehot and the piano roll, all inputs. midi_labels is a demo without result and event_one_hot.py is an abstract interface; neither has behaviour to model."
  },
  {
   "property": "C76",
   "status": "proved",
   "theorems": [
    "NGC.C76_edge_drop",
    "NGC.C76_label_edges"
   ],
   "note": "The mask is any boolean list of the right length."
  },
  {
   "property": "C77",
   "status": "proved",
   "theorems": [
    "NGC.C77_ppq_to_qpm_ignores_tempo"
   ],
   "note": "Exact value proved for all non-zero arguments."
  },
  {
   "property": "C78",
   "status": "proved",
   "theorems": [
    "NGC.C78_sig_order",
    "NGC.C78_sig_order_cycle",
    "NGC.C78_sig_order_trans",
    "NGC.C78_key_mode"
   ],
   "note": "All parts proved."
  },
  {
   "property": "C79",
   "status": "proved",
   "theorems": [
    "NGC.C79_named_iff",
    "NGC.C79_missing"
   ],
   "note": "Exact table proved for all integers."
  },
  {
   "property": "C80",
   "status": "proved",
   "theorems": [
    "NGC.C80_cut_in_place",
    "NGC.C80_cut",
    "NGC.C80_cut_total_too_small"
   ],
   "note": "Notes and total times proved exactly; the insufficient total of cut shown."
  },
  {
   "property": "C81",
   "status": "proved",
   "theorems": [
    "NGC.C81_construct_raises",
    "NGC.C81_clear_stale"
   ],
   "note": "Proved for every dictionary and collection."
  },
  {
   "property": "C82",
   "status": "proved",
   "theorems": [
    "NGC.C82_received_order_reversed",
    "NGC.C82_in_order"
   ],
   "note": "Proved for all such histories; the general expectation is refuted."
  },
  {
   "property": "C83",
   "status": "proved",
   "theorems": [
    "NGC.C83_assigned_not_read",
    "NGC.C83_assigned_get_track"
   ],
   "note": "Proved for every history (get_track) and every valid index ([])."
  },
  {
   "property": "C84",
   "status": "proved",
   "theorems": [
    "NGC.C84_tolerance_ignored"
   ],
   "note": "Proved for every sequence, table state and options."
  },
  {
   "property": "C85",
   "status": "proved",
   "theorems": [
    "NGC.C85_is_connected_direction",
    "NGC.C85_played_pair_reversed"
   ],
   "note": "Proved for all graphs and all builds; the expected direction is refuted."
  },
  {
   "property": "C86",
   "status": "proved",
   "theorems": [
    "NGC.C86_one_hot",
    "NGC.C86_pitch_127_raises"
   ],
   "note": "Exact condition proved; the expectation for the full MIDI range refuted."
  },
  {
   "property": "C87",
   "status": "proved",
   "theorems": [
    "NGC.C87_scale_relative"
   ],
   "note": "Exact values; a zero mean returns None (outside the theorem)."
  },
  {
   "property": "C88",
   "status": "proved",
   "theorems": [
    "NGC.C88_tolerance_bounds",
    "NGC.C88_few_notes",
    "NGC.C88_even"
   ],
   "note": "For every percentile in 0..100."
  },
  {
   "property": "C89",
   "status": "proved",
   "theorems": [
    "NGC.C89_conversion"
   ],
   "note": "For every graph the builder produces; tensors' packing itself is not modelled."
  },
  {
   "property": "C90",
   "status": "proved",
   "theorems": [
    "NGC.C90_single_note_track_dropped",
    "NGC.C90_track_adds_graph"
   ],
   "note": "Both halves proved for all track lists."
  },
  {
   "property": "C95",
   "status": "proved",
   "theorems": [
    "NGC.C95_tempo_roundtrip",
    "NGC.C95_written_tempo"
   ],
   "note": "Whole tempos exactly; other tempos: C95_written_tempo gives the rounding."
  },
  {
   "property": "C96",
   "status": "proved",
   "theorems": [
    "NGC.C96_note_roundtrip"
   ],
   "note": "Under the stated provisos, for unnamed instruments, files below 10^9 ticks."
  },
  {
   "property": "C97",
   "status": "proved",
   "theorems": [
    "NGC.C97_metadata_roundtrip"
   ],
   "note": "Same hypotheses as C96 with tick times."
  },
  {
   "property": "C98",
   "status": "proved",
   "theorems": [
    "NGC.C98_shared_control",
    "NGC.C98_silent_channel_lost",
    "NGC.C98_single_owner",
    "NGC.C98_owners",
    "NGC.C98_own_events_kept"
   ],
   "note": "C98_owners is the exact rule for every file; C98_own_events_kept and C98_single_owner are consequences; C98_shared_control and C98_silent_channel_lost refute the naive single-owner claim."
  },
  {
   "property": "C99",
   "status": "proved",
   "theorems": [
    "NGC.C99_tempo_changes"
   ],
   "note": "Exact list for every object with a correct clock."
  },
  {
   "property": "C100",
   "status": "proved",
   "theorems": [
    "NGC.C100_events_read",
    "NGC.C100_events_lost",
    "NGC.C100_lowest_bend_raises"
   ],
   "note": "Exact filter; C100_events_lost and C100_lowest_bend_raises show the consequences on concrete objects."
  },
  {
   "property": "C101",
   "status": "proved",
   "theorems": [
    "NGC.C101_tempos_read",
    "NGC.C101_times_read",
    "NGC.C101_example",
    "NGC.C101_tempo_example"
   ],
   "note": "Tempo and time signature lists; examples with a change at time 2 / 4."
  },
  {
   "property": "C102",
   "status": "proved",
   "theorems": [
    "NGC.C102_file_notes",
    "NGC.C102_example",
    "NGC.C102_from_file"
   ],
   "note": "End to end from messages to song notes; uses C56, C58, C60 and readSong_eq. Example file with tempo change, drum note and pitch bend."
  },
  {
   "property": "C103",
   "status": "proved",
   "theorems": [
    "NGC.C103_accepted"
   ],
   "note": "Type checks are not modelled."
  },
  {
   "property": "C104",
   "status": "proved",
   "theorems": [
    "NGC.C104_names_spelt",
    "NGC.C104_file_names"
   ],
   "note": "The tolerance is its text str(tolerance)."
  },
  {
   "property": "C105",
   "status": "proved",
   "theorems": [
    "NGC.C105_cache_wins",
    "NGC.C105_other_settings"
   ],
   "note": "Settings that are not part of the file names only enter through what the passes produce."
  },
  {
   "property": "C106",
   "status": "proved",
   "theorems": [
    "NGC.C106_instrument_graphs",
    "NGC.C106_empty_file_fails"
   ],
   "note": "What a raw file produces is an arbitrary list of graphs and an optional exception."
  },
  {
   "property": "C107",
   "status": "proved",
   "theorems": [
    "NGC.C107_torn_newest",
    "NGC.C107_foreign_file",
    "NGC.C107_other_files"
   ],
   "note": "See C66."
  },
  {
   "property": "C108",
   "status": "proved",
   "theorems": [
    "NGC.C108_metrics_never_restored",
    "NGC.C108_train_metrics_never_saved",
    "NGC.C108_train_file_unreadable",
    "NGC.C108_validation_roundtrip",
    "NGC.C108_bare_directory",
    "NGC.C108_restore_train",
    "NGC.C108_restore_test",
    "NGC.C108_written_names",
    "NGC.C108_when_written"
   ],
   "note": "Paths are texts; os.path.join of a relative name."
  },
  {
   "property": "C109",
   "status": "proved",
   "theorems": [
    "NGC.C109_degree",
    "NGC.C109_degree_error",
    "NGC.C109_degree_sum"
   ],
   "note": "Features are exact rationals."
  },
  {
   "property": "C91",
   "status": "proved",
   "theorems": [
    "NGC.C91_balanced",
    "NGC.C91_default_limit"
   ],
   "note": "Recursion limit modelled as a fuel parameter compared with the depth of the Python call chain."
  },
  {
   "property": "C92",
   "status": "proved",
   "theorems": [
    "NGC.FIv.C92_strict_total"
   ],
   "note": "Python sort order of intervals, for any strict total order on data."
  },
  {
   "property": "C93",
   "status": "proved",
   "theorems": [
    "NGC.FIv.C93_inner_missed",
    "NGC.FIv.C93_touching_overlaps",
    "NGC.FIv.C93_distance",
    "NGC.FIv.C93_containment",
    "NGC.FIv.C93_length",
    "NGC.FIv.C93_compare"
   ],
   "note": "Includes the refutations of the expected meaning of overlaps, distance_to and le; isclose with its default relative tolerance on exact rationals."
  },
  {
   "property": "C94",
   "status": "proved",
   "theorems": [
    "NGC.C94_bulk",
    "NGC.C94_bulk_total",
    "NGC.C94_span",
    "NGC.C94_merge",
    "NGC.C94_split_raises"
   ],
   "note": "merge_overlaps / split_overlaps are proved to raise, as the code does."
  },
  {
   "property": "C110",
   "status": "proved",
   "theorems": [
    "NGC.C110_constructor",
    "NGC.C110_default",
    "NGC.C110_extend",
    "NGC.C110_from_notes"
   ],
   "note": "Constructor, bulk append, from_notes."
  },
  {
   "property": "C111",
   "status": "proved",
   "theorems": [
    "NGC.C111_steps",
    "NGC.C111_tempo",
    "NGC.C111_four_quarter",
    "NGC.C111_beat"
   ],
   "note": "Contains the refutation of the documented meaning of is_four_quarter_note."
  },
  {
   "property": "C112",
   "status": "proved",
   "theorems": [
    "NGC.C112_bend_order",
    "NGC.C112_cc_shift",
    "NGC.C112_same_start"
   ],
   "note": "Includes the self-comparison defect of same_start_time."
  },
  {
   "property": "C113",
   "status": "proved",
   "theorems": [
    "NGC.C113_values",
    "NGC.C113_single"
   ],
   "note": "Includes the swapped default tuple."
  },
  {
   "property": "C114",
   "status": "proved",
   "theorems": [
    "NGC.C114_checks",
    "NGC.C114_num_instruments"
   ],
   "note": "The unchecked create_track index is shown."
  },
  {
   "property": "C115",
   "status": "proved",
   "theorems": [
    "NGC.C115_split_sizes"
   ],
   "note": "Sizes only; the random permutation is torch."
  },
  {
   "property": "C116",
   "status": "proved",
   "theorems": [
    "NGC.C116_options",
    "NGC.C116_conversion"
   ],
   "note": "Argument validation of build_sequence and the conversion."
  },
  {
   "property": "C117",
   "status": "proved",
   "theorems": [
    "NGC.C117_copy_isolated",
    "NGC.C117_copy_safe",
    "NGC.C117_interleaved",
    "NGC.C117_copy_equal",
    "NGC.C117_reachable"
   ],
   "note": "Heap model of all methods of MidiNoteSequence; clients are arbitrary programs. C117_reachable: the hypothesis (no dangling references) holds in every reachable state. A clone of a drum sequence shows no notes (C117_copy_equal)."
  },
  {
   "property": "C118",
   "status": "proved",
   "theorems": [
    "NGC.C118_stretch_seen_everywhere",
    "NGC.C118_cut_shares",
    "NGC.C118_cut_breaks_total",
    "NGC.C118_slice_shares",
    "NGC.C118_constructor",
    "NGC.C118_from_notes_shares",
    "NGC.C118_merge_shares",
    "NGC.C118_self_merge",
    "NGC.C118_clone_shares_instrument"
   ],
   "note": "Exact effect of stretch on every other sequence; the C19 bound is broken through a shared cut (C118_cut_breaks_total)."
  },
  {
   "property": "C119",
   "status": "proved",
   "theorems": [
    "NGC.C119_values_suffice",
    "NGC.C119_same_results",
    "NGC.C119_constructed",
    "NGC.C119_not_when_repeated"
   ],
   "note": "Refinement of the heap model to Seq.lean; merge is excluded from histories (C118_merge_shares says what it does); refuted for repeated references."
  },
  {
   "property": "C120",
   "status": "proved",
   "theorems": [
    "NGC.C120_time_map",
    "NGC.C120_notes",
    "NGC.C120_notes_kept",
    "NGC.C120_no_new_overlap"
   ],
   "note": "Exact rationals; np.interp, np.unique and np.maximum.accumulate modelled. Arrays of equal length."
  },
  {
   "property": "C121",
   "status": "proved",
   "theorems": [
    "NGC.C121_events",
    "NGC.C121_in_force",
    "NGC.C121_controllers_lost"
   ],
   "note": "Any event type with a time. The last clause of the property (several controllers) is C121_controllers_lost."
  },
  {
   "property": "C122",
   "status": "proved",
   "theorems": [
    "NGC.C122_doubling_ends",
    "NGC.C122_onsets",
    "NGC.C122_tempi",
    "NGC.C122_estimate",
    "NGC.C122_steady",
    "NGC.C122_least_updated",
    "NGC.C122_end_time"
   ],
   "note": "np.argsort's order on ties is a parameter. C122_least_updated states the clustering defect."
  },
  {
   "property": "C123",
   "status": "proved",
   "theorems": [
    "NGC.C123_beats",
    "NGC.C123_order",
    "NGC.C123_on_signatures",
    "NGC.C123_unique",
    "NGC.C123_quarters",
    "NGC.C123_grid",
    "NGC.C123_example",
    "NGC.C123_early_tempo",
    "NGC.C123_double_beat"
   ],
   "note": "Exact rationals; np.isclose and pretty_midi's qpm_to_bpm modelled as documented. The loop runs on fuel; the theorem gives N with the same result for every fuel >= N. C123_early_tempo and C123_double_beat are the two defects; C123_unique shows the specification determines the list."
  },
  {
   "property": "C124",
   "status": "proved",
   "theorems": [
    "NGC.C124_downbeats",
    "NGC.C124_example",
    "NGC.C124_four",
    "NGC.C124_last_signature"
   ],
   "note": "Same model as C123. C124_last_signature is the defect for a time signature at the end time."
  },
  {
   "property": "C125",
   "status": "proved",
   "theorems": [
    "NGC.C125_tempo_map",
    "NGC.C125_notes_keep_ticks",
    "NGC.C125_one_moment",
    "NGC.C125_cut_out"
   ],
   "note": "Exact rationals. C125_tempo_map also covers original times between ticks (moved by the interpolation of the nearest ticks). Two points of the map on the same tick are not covered. C125_cut_out is the defect."
  },
  {
   "property": "C126",
   "status": "proved",
   "theorems": [
    "NGC.C126_metre"
   ],
   "note": "The downbeats are those of C124."
  },
  {
   "property": "C127",
   "status": "proved",
   "theorems": [
    "NGC.C127_defaults_fail",
    "NGC.C127_checks",
    "NGC.C127_existing_file",
    "NGC.C127_needs_pulse",
    "NGC.C127_assigned_never_written"
   ],
   "note": "Exact rationals; the library's `PrettyMIDI.write` is not modelled."
  },
  {
   "property": "C128",
   "status": "proved",
   "theorems": [
    "NGC.C128_notes",
    "NGC.C128_exact",
    "NGC.C128_events"
   ],
   "note": "Exact rationals. Bends and control changes for a warped song are C121."
  },
  {
   "property": "C129",
   "status": "proved",
   "theorems": [
    "NGC.C129_tempo_ticks",
    "NGC.C129_one_change",
    "NGC.C129_second_change_wrong",
    "NGC.C129_which",
    "NGC.C129_refused"
   ],
   "note": "Exact rationals."
  },
  {
   "property": "C130",
   "status": "proved",
   "theorems": [
    "NGC.C130_written",
    "NGC.C130_signatures"
   ],
   "note": "Exact rationals; the library's final `write` is not modelled."
  },
  {
   "property": "C131",
   "status": "proved",
   "theorems": [
    "NGC.C131_read_write"
   ],
   "note": "Exact rationals; the library's final `write` is not modelled."
  },
  {
   "property": "C132",
   "status": "proved",
   "theorems": [
    "NGC.C132_intersection",
    "NGC.C132_symmetric_difference"
   ],
   "note": "Interval bounds are exact rationals; the recursion limit is an argument of the model."
  },
  {
   "property": "C133",
   "status": "proved",
   "theorems": [
    "NGC.C133_search",
    "NGC.C133_verify",
    "NGC.C133_node_verify",
    "NGC.C133_merge_equals",
    "NGC.C133_merge_neighbors"
   ],
   "note": "Interval bounds are exact rationals; the recursion limit is an argument of the model."
  },
  {
   "property": "C134",
   "status": "proved",
   "theorems": [
    "NGC.C134_visits",
    "NGC.C134_nearest_first",
    "NGC.C134_unweighted"
   ],
   "note": "heapq is modelled by its contract (the least entry is popped); edge_attr is one number per edge. Rounds are bounded by a number that the theorem shows sufficient."
  },
  {
   "property": "C135",
   "status": "proved",
   "theorems": [
    "NGC.C135_roll",
    "NGC.C135_chroma",
    "NGC.C135_histogram",
    "NGC.C135_normalised",
    "NGC.C135_transposed",
    "NGC.C135_transitions",
    "NGC.C135_no_transitions",
    "NGC.C135_short_note"
   ],
   "note": "Times and weights are exact rationals; per-instrument results are those of the library by its source, with normalize=False for transitions."
  },
  {
   "property": "C136",
   "status": "proved",
   "theorems": [
    "NGC.C136_neighbors",
    "NGC.C136_one_direction",
    "NGC.C136_argument",
    "NGC.C136_connect"
   ],
   "note": "Freshly built graphs, from an empty graph; hashing of frozensets is an arbitrary function with the assumptions of PyEnv."
  },
  {
   "property": "C137",
   "status": "proved",
   "theorems": [
    "NGC.C137_accepted",
    "NGC.C137_settings_ignored",
    "NGC.C137_defaults",
    "NGC.C137_feature_size",
    "NGC.C137_factories"
   ],
   "note": "Files and printing are left out; sorting of notes is an argument."
  },
  {
   "property": "C138",
   "status": "proved",
   "theorems": [
    "NGC.C138_self_check"
   ],
   "note": "Histories of per-instrument builds by one builder."
  },
  {
   "property": "C139",
   "status": "proved",
   "theorems": [
    "NGC.C139_experiments",
    "NGC.C139_rejected",
    "NGC.C139_examples"
   ],
   "note": "Values are classified by what the constructor asks of them."
  },
  {
   "property": "C140",
   "status": "proved",
   "theorems": [
    "NGC.C140_scores",
    "NGC.C140_share",
    "NGC.C140_empty_mask"
   ],
   "note": "Exact rationals; scikit-learn scores by their definition for average='micro'."
  },
  {
   "property": "C141",
   "status": "proved",
   "theorems": [
    "NGC.C141_report",
    "NGC.C141_empty_mask"
   ],
   "note": "Exact rationals; the predictions of every epoch are arbitrary."
  },
  {
   "property": "C142",
   "status": "proved",
   "theorems": [
    "NGC.C142_bpm",
    "NGC.C142_seconds",
    "NGC.C142_seconds_back",
    "NGC.C142_nearest",
    "NGC.C142_four_eighth",
    "NGC.C142_four_eighth_never"
   ],
   "note": "Exact rationals and reals."
  },
  {
   "property": "C143",
   "status": "proved",
   "theorems": [
    "NGC.C143_round_trip",
    "NGC.C143_marker",
    "NGC.C143_keywords",
    "NGC.C143_fails"
   ],
   "note": "Parsed documents; the text level of JSON is not modelled."
  },
  {
   "property": "C144",
   "status": "proved",
   "theorems": [
    "NGC.C144_instruments",
    "NGC.C144_metadata",
    "NGC.C144_off_grid"
   ],
   "note": "Python's sort is any stable sort of the track's messages by the project's comparison (IsTrackSort, met by insertion sort)."
  },
  {
   "property": "C145",
   "status": "proved",
   "theorems": [
    "NGC.C145_written_object",
    "NGC.C145_save_and_read",
    "NGC.C145_on_grid",
    "NGC.C145_raises",
    "NGC.C145_only_notes",
    "NGC.C145_overlap_cut",
    "NGC.C145_silent_lost"
   ],
   "note": "The library's PrettyMIDI.write is taken to be the project's copy of it, CustomPrettyMIDI.serialize; Python's sort as in C144; files shorter than 999999999 ticks."
  },
  {
   "property": "C146",
   "status": "proved",
   "theorems": [
    "NGC.C146_initial_tempo",
    "NGC.C146_last_event",
    "NGC.C146_resolution",
    "NGC.C146_order",
    "NGC.C146_is_sorted"
   ],
   "note": "Object identity is a number; times are rationals as in C19."
  },
  {
   "property": "C147",
   "status": "proved",
   "theorems": [
    "NGC.C147_set_sequence",
    "NGC.C147_set_sequence_defects",
    "NGC.C147_listing",
    "NGC.C147_from_file"
   ],
   "note": "The reader of from_file is a parameter; MidiReader returns a MidiNoteSequences (C61)."
  },
  {
   "property": "C148",
   "status": "proved",
   "theorems": [
    "NGC.C148_graphs",
    "NGC.C148_labels",
    "NGC.C148_consistent",
    "NGC.C148_classes",
    "NGC.C148_masks"
   ],
   "note": "pre_transform is left out; reading a file is a parameter (C61, C62, C99-C102 say what it gives)."
  },
  {
   "property": "C149",
   "status": "proved",
   "theorems": [
    "NGC.C149_same_files",
    "NGC.C149_succeeds",
    "NGC.C149_first_song",
    "NGC.C149_no_song",
    "NGC.C149_equal"
   ],
   "note": "Success is proved for tensor features; other feature types are covered by C84-C90."
  },
  {
   "property": "C150",
   "status": "proved",
   "theorems": [
    "NGC.C150_names",
    "NGC.C150_copied",
    "NGC.C150_same_name",
    "NGC.C150_missing",
    "NGC.C150_untouched"
   ],
   "note": "Paths are lists of names; '..', '~' and links are left out, and so are directories inside the raw directory named like a given file."
  },
  {
   "property": "C151",
   "status": "proved",
   "theorems": [
    "NGC.C151_ready",
    "NGC.C151_absolute",
    "NGC.C151_same_list",
    "NGC.C151_web"
   ],
   "note": "_download and raw_paths of PyTorch Geometric are modelled from their documentation; archives are left out."
  },
  {
   "property": "C152",
   "status": "proved",
   "theorems": [
    "NGC.C152_own",
    "NGC.C152_subset",
    "NGC.C152_shows"
   ],
   "note": "Dataset.__getitem__ of PyTorch Geometric is modelled: numbers give a graph, anything else a shallow copy."
  },
  {
   "property": "C153",
   "status": "proved",
   "theorems": [
    "NGC.C153_step_raises_iff",
    "NGC.C153_step_nonneg_mono",
    "NGC.C153_agrees",
    "NGC.C153_floor_nearest",
    "NGC.C153_grid",
    "NGC.C153_not_nearest",
    "NGC.C153_control_change",
    "NGC.C153_quantize_total",
    "NGC.C153_short_note_raises"
   ],
   "note": "Rounding is to nearest, ties to even; overflow, numbers below 2^-1022, infinities and NaN are left out. quantize_in_place is modelled in floats for a note that is not quantized yet and without min_step."
  },
  {
   "property": "C154",
   "status": "proved",
   "theorems": [
    "NGC.C154_check",
    "NGC.C154_sizes",
    "NGC.C154_partition",
    "NGC.C154_examples"
   ],
   "note": "Same float model as C153."
  },
  {
   "property": "C155",
   "status": "proved",
   "theorems": [
    "NGC.C155_tempo_map",
    "NGC.C155_tick_to_time",
    "NGC.C155_order",
    "NGC.C155_nearest",
    "NGC.C155_round_trip",
    "NGC.C155_file_times",
    "NGC.C155_round_trip_fails"
   ],
   "note": "Same float model as C153. mido delivers tempi of three bytes (below 2^24)."
  },
  {
   "property": "C156",
   "status": "proved",
   "theorems": [
    "NGC.C156_one_tempo",
    "NGC.C156_tempo_reported",
    "NGC.C156_no_tempo",
    "NGC.C156_round",
    "NGC.C156_rounds",
    "NGC.C156_settles",
    "NGC.C156_drift_17",
    "NGC.C156_change_lost"
   ],
   "note": "Float model as in C153; the time in the last claim is the exact time of the written tempi."
  },
  {
   "property": "C157",
   "status": "proved",
   "theorems": [
    "NGC.C157_window",
    "NGC.C157_choice",
    "NGC.C157_choice_example",
    "NGC.C157_best",
    "NGC.C157_errors",
    "NGC.C157_one_too_many",
    "NGC.C157_float_raises",
    "NGC.C157_wide_tolerance"
   ],
   "note": "The claim of the largest score is for exact arithmetic (notes, beats and windows); C157_float_raises is with the windows in floats. beats are those of C123."
  },
  {
   "property": "C158",
   "status": "proved",
   "theorems": [
    "NGC.C158_grid_steps",
    "NGC.C158_grid_fixed",
    "NGC.C158_default_grows",
    "NGC.C158_grid_lost"
   ],
   "note": "Float model as in C153."
  },
  {
   "property": "C159",
   "status": "proved",
   "theorems": [
    "NGC.C159_score",
    "NGC.C159_fresh",
    "NGC.C159_zero_div",
    "NGC.C159_negative"
   ],
   "note": "floor(log(m, 2)) is taken without float error (exact for the m for which math.log is accurate)."
  },
  {
   "property": "C160",
   "status": "proved",
   "theorems": [
    "NGC.C160_loaded",
    "NGC.C160_saved"
   ],
   "note": "Float model as in C155 and C156. The exact program (C55-C60, C95-C98, C144) is the same generic code with exact arithmetic (serialize_exact). Without the bound on tempi ticks can collide: C155_round_trip_fails."
  },
  {
   "property": "C161",
   "status": "proved",
   "theorems": [
    "NGC.C161_accuracy",
    "NGC.C161_order",
    "NGC.C161_stays_valid",
    "NGC.C161_shift_back",
    "NGC.C161_exact",
    "NGC.C161_drift",
    "NGC.C161_sequence",
    "NGC.C161_sequence_stretch",
    "NGC.C161_last_event",
    "NGC.C161_defects"
   ],
   "note": "Rounding is that of IEEE 754 without overflow and subnormal numbers; times are floats given as exact rationals."
  },
  {
   "property": "C162",
   "status": "proved",
   "theorems": [
    "NGC.C162_rescale",
    "NGC.C162_relative",
    "NGC.C162_identity",
    "NGC.C162_identity_fails"
   ],
   "note": "The mean is modelled as one rounded division of the exact sum, which is what numpy computes as long as partial sums stay below 2^53. A zero mean (nan) is left out."
  },
  {
   "property": "C163",
   "status": "proved",
   "theorems": [
    "NGC.C163_cc_equality",
    "NGC.C163_cc_equality_new",
    "NGC.C163_cc_order",
    "NGC.C163_cc_sorted",
    "NGC.C163_cc_cycle",
    "NGC.C163_cc_undecided",
    "NGC.C163_base_equality",
    "NGC.C163_mixed",
    "NGC.C163_mixed_not_transitive",
    "NGC.C163_entries",
    "NGC.C163_texts",
    "NGC.C163_switches",
    "NGC.C163_against_table",
    "NGC.C163_bends",
    "NGC.C163_bends_time"
   ],
   "note": "Python's choice of the answering method for mixed comparisons is modelled from the language rules (the subclass is asked first, NotImplemented passes on). isclose is read exactly."
  },
  {
   "property": "C164",
   "status": "proved",
   "theorems": [
    "NGC.C164_history",
    "NGC.C164_nothing_removed",
    "NGC.C164_outcomes",
    "NGC.C164_delete_slice",
    "NGC.C164_membership"
   ],
   "note": "The methods inherited from collections.abc.MutableMapping are modelled from their definition in the standard library. items, values and the view objects are those of C38."
  },
  {
   "property": "C165",
   "status": "proved",
   "theorems": [
    "NGC.C165_load_decision",
    "NGC.C165_bad_meter",
    "NGC.C165_from_file_value_error",
    "NGC.C165_float_refusals",
    "NGC.C165_load_decision_float"
   ],
   "note": "Files are lists of messages as mido delivers them; parsing of bytes is mido's and not modelled."
  },
  {
   "property": "C166",
   "status": "proved",
   "theorems": [
    "NGC.C166_centi_order",
    "NGC.C166_same_hundredth",
    "NGC.C166_no_collision",
    "NGC.C166_groups",
    "NGC.C166_visit_order",
    "NGC.C166_steps_whole_seconds",
    "NGC.C166_half_seconds",
    "NGC.C166_same_hundredth_disordered",
    "NGC.C166_options"
   ],
   "note": "The tolerance is any positive number (what compute_tolerance returned is an argument); floats are binary64 with rounding to nearest even, the hash is CPython's on 64 bit platforms. Hash collisions are excluded by a structural lemma (seconds plus binary places cut at a position given by the digits of the seconds) and a complete table over hundredths and digits."
  },
  {
   "property": "C167",
   "status": "proved",
   "theorems": [
    "NGC.C167_formula",
    "NGC.C167_shared",
    "NGC.C167_invariance",
    "NGC.C167_beta",
    "NGC.C167_refused"
   ],
   "note": "Exact arithmetic in every ordered field (reals for the logarithm) instead of float32; propagate, Linear and addmm as the libraries document them. NeuralGraphComposer uses the library's GCN2Conv, of which NgcGCN2Conv is a copy."
  },
  {
   "property": "C168",
   "status": "proved",
   "theorems": [
    "NGC.C168_equivariant",
    "NGC.C168_edge_order",
    "NGC.C168_batch",
    "NGC.C168_local",
    "NGC.C168_isolated",
    "NGC.C168_twins",
    "NGC.C168_formula",
    "NGC.C168_local_tight"
   ],
   "note": "Exact arithmetic; dropout as arbitrary factors for the renaming claim, evaluation mode for the others. The network passes no edge weights on."
  },
  {
   "property": "C169",
   "status": "proved",
   "theorems": [
    "NGC.C169_cached",
    "NGC.C169_not_cached",
    "NGC.C169_stale"
   ],
   "note": "The normalization of the library is an arbitrary function; edges as tensor (not SparseTensor, whose cache works alike)."
  },
  {
   "property": "C170",
   "status": "proved",
   "theorems": [
    "NGC.C170_invariant",
    "NGC.C170_batch",
    "NGC.C170_node_classes"
   ],
   "note": "Exact arithmetic, evaluation mode; GINConv, MLP and global_add_pool as the library documents them. The trainer of this example cannot be constructed as the file stands (C139)."
  },
  {
   "property": "C171",
   "status": "proved",
   "theorems": [
    "NGC.C171_parts",
    "NGC.C171_dataset"
   ],
   "note": "Times are exact (the rounding of the chain is bounded in C160 and C166). A file is its list of messages; the library parser below is not modelled. Which part of the file (the first usable track of the song) is given by C148."
  },
  {
   "property": "C172",
   "status": "proved",
   "theorems": [
    "NGC.C172_loop_ends",
    "NGC.C172_created",
    "NGC.C172_imported",
    "NGC.C172_imported_large",
    "NGC.C172_brackets",
    "NGC.C172_assigned",
    "NGC.C172_assigned_raises",
    "NGC.C172_assigned_build",
    "NGC.C172_assigned_build_raises",
    "NGC.C172_brackets_build",
    "NGC.C172_created_build",
    "NGC.C172_imported_build"
   ],
   "note": "The loop is modelled with a position in the live list and fuel that is proved to suffice. Songs read from files are covered by C171. Histories that mix the kinds of access are covered only by C172_loop_ends."
  },
  {
   "property": "C173",
   "status": "proved",
   "theorems": [
    "NGC.C173_as_note_seq"
   ],
   "note": "Times are exact rationals (every float is one)."
  },
  {
   "property": "C174",
   "status": "proved",
   "theorems": [
    "NGC.C174_velocities"
   ],
   "note": "Exact arithmetic; the float version of the rescaling is C162."
  },
  {
   "property": "C175",
   "status": "proved",
   "theorems": [
    "NGC.C175_formula",
    "NGC.C175_loops",
    "NGC.C175_contained",
    "NGC.C175_renumber",
    "NGC.C175_batch",
    "NGC.C175_local",
    "NGC.C175_twins",
    "NGC.C175_probabilities",
    "NGC.ExNets.C175_local_tight"
   ],
   "note": "Real numbers instead of float32; the library layers are taken to compute their documented formulas (listed in the module head)."
  },
  {
   "property": "C176",
   "status": "proved",
   "theorems": [
    "NGC.C176_symmetric",
    "NGC.C176_twins",
    "NGC.C176_contained",
    "NGC.C176_means"
   ],
   "note": "Real numbers instead of float32; the library layers are taken to compute their documented formulas (listed in the module head)."
  },
  {
   "property": "C177",
   "status": "proved",
   "theorems": [
    "NGC.C177_noise",
    "NGC.C177_accuracy",
    "NGC.C177_bounds",
    "NGC.C177_reversed",
    "NGC.C177_kl",
    "NGC.C177_recon",
    "NGC.C177_flag"
   ],
   "note": "Real numbers instead of float32; the library layers are taken to compute their documented formulas (listed in the module head). The scores computed by scikit-learn are not modelled."
  },
  {
   "property": "C178",
   "status": "proved",
   "theorems": [
    "NGC.C178_formula",
    "NGC.C178_between",
    "NGC.C178_alike",
    "NGC.C178_attributes",
    "NGC.C178_contained",
    "NGC.C178_pool",
    "NGC.C178_pooled",
    "NGC.C178_local",
    "NGC.C178_activations"
   ],
   "note": "Real numbers instead of float32; the library layers are taken to compute their documented formulas (listed in the module head). The 1e-16 the library adds to the softmax denominator is left out."
  },
  {
   "property": "C179",
   "status": "proved",
   "theorems": [
    "NGC.C179_bounded",
    "NGC.C179_split",
    "NGC.C179_recurrence",
    "NGC.C179_causal"
   ],
   "note": "Real numbers instead of float32; the library layers are taken to compute their documented formulas (listed in the module head)."
  },
  {
   "property": "C180",
   "status": "proved",
   "theorems": [
    "NGC.C180_generated",
    "NGC.C180_prefix",
    "NGC.C180_refused"
   ],
   "note": "Real numbers instead of float32; the library layers are taken to compute their documented formulas (listed in the module head)."
  },
  {
   "property": "C181",
   "status": "proved",
   "theorems": [
    "NGC.C181_widths",
    "NGC.C181_branches"
   ],
   "note": "Any ordered field; the width test and the choice of maps are modelled as written."
  },
  {
   "property": "C182",
   "status": "proved",
   "theorems": [
    "NGC.C182_counts",
    "NGC.C182_bounds",
    "NGC.C182_scores",
    "NGC.C182_lstm_accuracy",
    "NGC.C182_lstm_quotient"
   ],
   "note": "Counts and scores in exact arithmetic; the predictions of each epoch are arbitrary, so the optimizer is not modelled. These methods belong to trainers whose constructor fails (C139)."
  },
  {
   "property": "C183",
   "status": "proved",
   "theorems": [
    "NGC.C183_session",
    "NGC.C183_zero_division"
   ],
   "note": "What an epoch computes and the batches it reports are arbitrary; the optimizer is not modelled. The saved files are those of C66 and C107."
  },
  {
   "property": "C184",
   "status": "proved",
   "theorems": [
    "NGC.C184_next",
    "NGC.C184_late",
    "NGC.C184_first",
    "NGC.C184_killed_saving",
    "NGC.C184_repeated",
    "NGC.C184_examples"
   ],
   "note": "A save that is cut short leaves a file that cannot be loaded; the loader is that of C66 and C107."
  },
  {
   "property": "C185",
   "status": "proved",
   "theorems": [
    "NGC.C185_reversed",
    "NGC.C185_ties",
    "NGC.C185_order",
    "NGC.C185_data",
    "NGC.C185_circle"
   ],
   "note": "Ends and floats are rational numbers, without nan. Lists and tuples as data are not modelled."
  },
  {
   "property": "C186",
   "status": "proved",
   "theorems": [
    "NGC.C186_reads",
    "NGC.C186_spelling",
    "NGC.C186_round_trip",
    "NGC.C186_from_name",
    "NGC.C186_defaults",
    "NGC.C186_accidentals",
    "NGC.C186_stale"
   ],
   "note": "note_to_midi and midi_to_note of librosa are modelled from their documented behaviour, with ASCII digits and exact hundredths."
  },
  {
   "property": "C187",
   "status": "proved",
   "theorems": [
    "NGC.C187_raises",
    "NGC.C187_read",
    "NGC.C187_agree"
   ],
   "note": "The method is not called by the constructor; exact arithmetic as in C60."
  },
  {
   "property": "C188",
   "status": "proved",
   "theorems": [
    "NGC.C188_edges",
    "NGC.C188_good_batch",
    "NGC.C188_masking"
   ],
   "note": "Tensors are lists; printing is left out."
  },
  {
   "property": "C189",
   "status": "proved",
   "theorems": [
    "NGC.C189_name",
    "NGC.C189_accepts",
    "NGC.C189_arguments"
   ],
   "note": "Which paths are files and what the reader returns is arbitrary; name and suffix of a path are those of pathlib for POSIX, Python 3.8 to 3.13."
  },
  {
   "property": "C190",
   "status": "proved",
   "theorems": [
    "NGC.C190_reported",
    "NGC.C190_raises",
    "NGC.C190_false_alarms",
    "NGC.C190_round_trip"
   ],
   "note": "Pitches and zeros are compared as rationals (whole numbers, exact in float32). Printed text is left out."
  },
  {
   "property": "C191",
   "status": "proved",
   "theorems": [
    "NGC.C191_sums",
    "NGC.C191_unlabelled",
    "NGC.C191_labels",
    "NGC.C191_labels_are_nodes",
    "NGC.C191_graph_id"
   ],
   "note": "Iteration uses __getitem__ until IndexError, as Python does for a class without __iter__; num_nodes is the number of rows."
  },
  {
   "property": "C192",
   "status": "proved",
   "theorems": [
    "NGC.C192_between",
    "NGC.C192_even",
    "NGC.C192_close",
    "NGC.C192_raises",
    "NGC.C192_group_width"
   ],
   "note": "np.percentile is numpy 1.22 or later, method linear, modelled operation by operation; round of a np.float64 is np.around. The width of a group assumes adjusted times below 2^31 seconds, where the hash of C166 separates hundredths."
  },
  {
   "property": "C193",
   "status": "proved",
   "theorems": [
    "NGC.C193_at_most_one",
    "NGC.C193_first_held",
    "NGC.C193_resuming_drops",
    "NGC.C193_same_graph",
    "NGC.C193_same_labels",
    "NGC.C193_exceptions",
    "NGC.C193_build_appends",
    "NGC.C193_loop"
   ],
   "note": "List and graph objects have an identity. is_sanity_check=True and builds that raise are left out (a history ends there). C193_exceptions is for per-instrument builds."
  },
  {
   "property": "C194",
   "status": "proved",
   "theorems": [
    "NGC.C194_never",
    "NGC.C194_first_song",
    "NGC.C194_no_song"
   ],
   "note": "The label list holds Python integers, whose .item does not exist; that is the only fact about torch used. A dataset whose processed files are there already is loaded without the check."
  },
  {
   "property": "C195",
   "status": "proved",
   "theorems": [
    "NGC.C195_options",
    "NGC.C195_again",
    "NGC.C195_dataset",
    "NGC.C195_past",
    "NGC.C195_first",
    "NGC.C195_lookup"
   ],
   "note": "The tolerance argument of build has no say because build_sequence computes its own. The lookup defect is stated for graphs per instrument, the first of a fresh builder."
  },
  {
   "property": "C196",
   "status": "proved",
   "theorems": [
    "NGC.C196_formula",
    "NGC.C196_order",
    "NGC.C196_degenerate",
    "NGC.C196_example"
   ],
   "note": "The sum of integers inside is taken to be exact, as in numpy; nan to int is left open."
  },
  {
   "property": "C197",
   "status": "proved",
   "theorems": [
    "NGC.C197_exact",
    "NGC.C197_float",
    "NGC.C197_factor_one",
    "NGC.C197_example",
    "NGC.C197_silence"
   ],
   "note": "The sum of velocities is taken to be exact, as in numpy below 2^53; nan to int is left open. An average that is not 0 is assumed in the main theorems: some velocity is positive."
  },
  {
   "property": "C198",
   "status": "proved",
   "theorems": [
    "NGC.C198_labels"
   ],
   "note": "Stated with the edges of the finished graph. Iterating over a set of pitches yields each member once (PyEnv.IterOk)."
  },
  {
   "property": "C199",
   "status": "proved",
   "theorems": [
    "NGC.C199_never",
    "NGC.C199_names"
   ],
   "note": "The drawing itself (matplotlib, plotly) is not modelled; the order in which a set of names is iterated is arbitrary."
  },
  {
   "property": "C200",
   "status": "proved",
   "theorems": [
    "NGC.C200_ft_mono",
    "NGC.C200_ft_odd",
    "NGC.C200_ft_truncates",
    "NGC.C200_ft_grid",
    "NGC.C200_ft_errors",
    "NGC.C200_ft_defects",
    "NGC.C200_grid_exact",
    "NGC.C200_grid_lost",
    "NGC.C200_grid_errors",
    "NGC.C200_check_passes",
    "NGC.C200_frames",
    "NGC.C200_frames_ok",
    "NGC.C200_frames_grid"
   ],
   "note": "C73 and C74 say the same of exact arithmetic. The frame occupancy other than 0 is only covered exactly (C74)."
  },
  {
   "property": "C201",
   "status": "proved",
   "theorems": [
    "NGC.C201_scores",
    "NGC.C201_loss",
    "NGC.C201_perfect",
    "NGC.C201_errors",
    "NGC.C201_precision_defect"
   ],
   "note": "About the methods: the constructor raises (C139). An epoch without any masked node (numpy: NaN) is left out."
  },
  {
   "property": "C202",
   "status": "proved",
   "theorems": [
    "NGC.C202_evaluate",
    "NGC.C202_first_call",
    "NGC.C202_never_saved",
    "NGC.C202_next_call"
   ],
   "note": "About the methods: the constructor raises (C139), and the module this file imports Experiments from does not exist in the repository. Loading of checkpoints is C108."
  },
  {
   "property": "C203",
   "status": "proved",
   "theorems": [
    "NGC.C203_accuracy",
    "NGC.C203_bound",
    "NGC.C203_empty",
    "NGC.C203_epochs",
    "NGC.C203_loss"
   ],
   "note": "A batch without test nodes (NaN in torch) is excluded. About the methods: the constructor raises (C139)."
  },
  {
   "property": "C204",
   "status": "proved",
   "theorems": [
    "NGC.C204_script",
    "NGC.C204_empty_mask"
   ],
   "note": "The network itself is C178; training only decides what is predicted."
  },
  {
   "property": "C205",
   "status": "proved",
   "theorems": [
    "NGC.C205_attention",
    "NGC.C205_kept",
    "NGC.C205_few",
    "NGC.C205_edges",
    "NGC.C205_ratio"
   ],
   "note": "Reals for floats; the convolutions are arbitrary functions; one graph per batch, as the loader has it."
  },
  {
   "property": "C206",
   "status": "proved",
   "theorems": [
    "NGC.C206_divergence",
    "NGC.C206_forward",
    "NGC.C206_labels",
    "NGC.C206_best",
    "NGC.C206_ignored"
   ],
   "note": "As C205; a sampled graph without labels (mean of nothing, NaN) is excluded."
  },
  {
   "property": "C207",
   "status": "proved",
   "theorems": [
    "NGC.C207_when",
    "NGC.C207_lines",
    "NGC.C207_autoencoder"
   ],
   "note": "That plt.plot and range raise ValueError on different lengths and step 0 is taken from the library."
  },
  {
   "property": "C208",
   "status": "proved",
   "theorems": [
    "NGC.C208_one",
    "NGC.C208_many",
    "NGC.C208_destroys",
    "NGC.C208_read"
   ],
   "note": "A call that raises leaves the collection as it was. Nothing in the repository calls the method."
  },
  {
   "property": "C209",
   "status": "proved",
   "theorems": [
    "NGC.C209_average"
   ],
   "note": "That a list has no hash and that the signatures have no attribute tempo_ticks is read off the code and the language."
  }
 ]
}