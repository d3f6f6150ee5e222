'NGC.C01_construct_iff' depends on axioms: [propext, Classical.choice, Quot.sound]
'NGC.C01_construct_valid' depends on axioms: [propext, Classical.choice, Quot.sound]
'NGC.C01_construct_clamps' depends on axioms: [propext, Classical.choice, Quot.sound]
'NGC.C02_setters_keep_valid' depends on axioms: [propext, Classical.choice, Quot.sound]
'NGC.C02_setters_exact' depends on axioms: [propext, Classical.choice, Quot.sound]
'NGC.C02_step_order_not_checked' depends on axioms: [propext, Classical.choice, Quot.sound]
'NGC.C02_setters_refused' depends on axioms: [propext, Classical.choice, Quot.sound]
'NGC.C03_copy' depends on axioms: [propext, Classical.choice, Quot.sound]
'NGC.C03_copy_fails' depends on axioms: [propext, Quot.sound]
'NGC.C03_copy_override' depends on axioms: [propext, Classical.choice, Quot.sound]
'NGC.C04_eq_iff' depends on axioms: [propext, Classical.choice, Quot.sound]
'NGC.C04_eq_refl_symm' depends on axioms: [propext, Classical.choice, Quot.sound]
'NGC.C04_eq_not_transitive' depends on axioms: [propext, Classical.choice, Quot.sound]
'NGC.C05_lt_asymm' depends on axioms: [propext, Classical.choice, Quot.sound]
'NGC.C05_lt_lex' depends on axioms: [propext, Classical.choice, Quot.sound]
'NGC.C05_lt_trans' depends on axioms: [propext, Classical.choice, Quot.sound]
'NGC.C05_lt_not_transitive' depends on axioms: [propext, Classical.choice, Quot.sound]
'NGC.C05_le_total' depends on axioms: [propext, Classical.choice, Quot.sound]
'NGC.C06_overlaps_iff' depends on axioms: [propext, Classical.choice, Quot.sound]
'NGC.C06_overlaps_laws' depends on axioms: [propext, Classical.choice, Quot.sound]
'NGC.C07_step_raises_iff' depends on axioms: [propext, Classical.choice, Quot.sound]
'NGC.C07_step_nonneg_mono' depends on axioms: [propext, Classical.choice, Quot.sound]
'NGC.C07_floor_nearest' depends on axioms: [propext, Classical.choice, Quot.sound]
'NGC.C07_ceil_overshoots' depends on axioms: [propext, Classical.choice, Quot.sound]
'NGC.C08_quantize_total' depends on axioms: [propext, Classical.choice, Quot.sound]
'NGC.C08_min_step' depends on axioms: [propext, Classical.choice, Quot.sound]
'NGC.C09_grid_fixed' depends on axioms: [propext, Classical.choice, Quot.sound]
'NGC.C09_default_amount_grows' depends on axioms: [propext, Classical.choice, Quot.sound]
'NGC.C09_rate_three' depends on axioms: [propext, Classical.choice, Quot.sound]
'NGC.C10_shift_laws' depends on axioms: [propext, Classical.choice, Quot.sound]
'NGC.C10_stretch_laws' depends on axioms: [propext, Classical.choice, Quot.sound]
'NGC.C10_stretch_nonpos' depends on axioms: [propext, Classical.choice, Quot.sound]
'NGC.C11_equal_tempered' depends on axioms: [propext, Classical.choice, Quot.sound]
'NGC.C11_named_pitch_sharp' depends on axioms: [propext, Classical.choice, Quot.sound]
'NGC.C11_documented_examples' depends on axioms: [propext, Classical.choice, Quot.sound]
'NGC.C11_named_octave' depends on axioms: [propext, Classical.choice, Quot.sound]
'NGC.C12_round_trip' depends on axioms: [propext, Classical.choice, Quot.sound]
'NGC.C12_optional_missing' depends on axioms: [propext, Classical.choice, Quot.sound]
'NGC.C12_missing_optional_raises' depends on axioms: [propext, Classical.choice, Quot.sound]
'NGC.C13_construct' depends on axioms: [propext, Classical.choice, Quot.sound]
'NGC.C13_conversions' depends on axioms: [propext, Classical.choice, Quot.sound]
'NGC.C13_setter_unchecked' depends on axioms: [propext, Classical.choice, Quot.sound]
'NGC.C13_tempo_to_qpm' depends on axioms: [propext, Classical.choice, Quot.sound]
'NGC.C14_construct' depends on axioms: [propext, Classical.choice, Quot.sound]
'NGC.C14_beats_value' depends on axioms: [propext, Classical.choice, Quot.sound]
'NGC.C14_beats_documented_iff' depends on axioms: [propext, Classical.choice, Quot.sound]
'NGC.C14_beats_documented_false' depends on axioms: [propext, Classical.choice, Quot.sound]
'NGC.C14_measure_length' depends on axioms: [propext, Classical.choice, Quot.sound]
'NGC.C15_construct' depends on axioms: [propext, Classical.choice, Quot.sound]
'NGC.C15_family' depends on axioms: [propext, Classical.choice, Quot.sound]
'NGC.C15_round_trip' depends on axioms: [propext, Classical.choice, Quot.sound]
'NGC.C15_eq_hash_lt' depends on axioms: [propext, Classical.choice, Quot.sound]
'NGC.C15_missing_keys' depends on axioms: [propext, Classical.choice, Quot.sound]
'NGC.C16_construct' depends on axioms: [propext, Classical.choice, Quot.sound]
'NGC.C16_assign' depends on axioms: [propext, Classical.choice, Quot.sound]
'NGC.C16_history' depends on axioms: [propext, Classical.choice, Quot.sound]
'NGC.C17_clamps' depends on axioms: [propext, Classical.choice, Quot.sound]
'NGC.C17_copy_equal_iff' depends on axioms: [propext, Classical.choice, Quot.sound]
'NGC.C17_copy_drops_drum' depends on axioms: [propext, Quot.sound]
'NGC.C18_quantize_always_raises' depends on axioms: [propext, Classical.choice, Quot.sound]
'NGC.C18_step_nearest' depends on axioms: [propext, Classical.choice, Quot.sound]
'NGC.C18_setters' depends on axioms: [propext, Classical.choice, Quot.sound]
'NGC.C19_total_time_covers' depends on axioms: [propext, Classical.choice, Quot.sound]
'NGC.C19_total_time_exact' depends on axioms: [propext, Classical.choice, Quot.sound]
'NGC.C20_add_note_raises_iff' depends on axioms: [propext, Classical.choice, Quot.sound]
'NGC.C20_add_note_appends' depends on axioms: [propext, Classical.choice, Quot.sound]
'NGC.C20_add_note_hidden' depends on axioms: [propext, Classical.choice, Quot.sound]
'NGC.C21_merge_raises_iff' depends on axioms: [propext, Classical.choice, Quot.sound]
'NGC.C21_merge_multiset' depends on axioms: [propext, Classical.choice, Quot.sound]
'NGC.C21_merge_sorted' depends on axioms: [propext, Classical.choice, Quot.sound]
'NGC.C22_insert_perm' depends on axioms: [propext, Classical.choice, Quot.sound]
'NGC.C22_insert_sorted' depends on axioms: [propext, Classical.choice, Quot.sound]
'NGC.C22_insert_unsorted' depends on axioms: [propext, Classical.choice, Quot.sound]
'NGC.C23_truncate' depends on axioms: [propext, Quot.sound]
'NGC.C23_truncate_twice' depends on axioms: [propext, Classical.choice, Quot.sound]
'NGC.C23_truncate_resolution' depends on axioms: [propext, Quot.sound]
'NGC.C24_slice_window' depends on axioms: [propext, Classical.choice, Quot.sound]
'NGC.C24_slice_not_clipped' depends on axioms: [propext, Classical.choice, Quot.sound]
'NGC.C24_slice_raises_iff' depends on axioms: [propext, Classical.choice, Quot.sound]
'NGC.C24_slice_foreign_note' depends on axioms: [propext, Quot.sound]
'NGC.C25_shift' depends on axioms: [propext, Classical.choice, Quot.sound]
'NGC.C25_shift_undo' depends on axioms: [propext, Classical.choice, Quot.sound]
'NGC.C25_shift_not_undone' depends on axioms: [propext, Classical.choice, Quot.sound]
'NGC.C25_shift_empty_raises' depends on axioms: [propext, Classical.choice, Quot.sound]
'NGC.C26_extract_raises' depends on axioms: [propext, Classical.choice, Quot.sound]
'NGC.C26_extract_empty' depends on axioms: [propext, Classical.choice, Quot.sound]
'NGC.C26_arguments' depends on axioms: [propext, Classical.choice, Quot.sound]
'NGC.C27_clone' depends on axioms: [propext, Classical.choice, Quot.sound]
'NGC.C27_clone_drum_empty' depends on axioms: [propext, Quot.sound]
'NGC.C27_clone_empty' depends on axioms: [propext, Classical.choice, Quot.sound]
'NGC.C28_add_only_empty' depends on axioms: [propext, Classical.choice, Quot.sound]
'NGC.C29_quantize' depends on axioms: [propext, Classical.choice, Quot.sound]
'NGC.C29_total_steps_stale' depends on axioms: [propext, Classical.choice, Quot.sound]
'NGC.C29_control_change_raises' depends on axioms: [propext, Classical.choice, Quot.sound]
'NGC.C30_intervals' depends on axioms: [propext, Classical.choice, Quot.sound]
'NGC.C30_multiplicity' depends on axioms: [propext, Classical.choice, Quot.sound]
'NGC.C30_duplicates' depends on axioms: [propext, Classical.choice, Quot.sound]
'NGC.C30_split_no_pieces' depends on axioms: [propext, Classical.choice, Quot.sound]
'NGC.C31_min_step' depends on axioms: [propext, Classical.choice, Quot.sound]
'NGC.C32_brackets' depends on axioms: [propext, Classical.choice, Quot.sound]
'NGC.C32_create_track' depends on axioms: [propext, Classical.choice, Quot.sound]
'NGC.C32_bracket_destroys' depends on axioms: [propext]
'NGC.C32_default_track' depends on axioms: [propext, Classical.choice, Quot.sound]
'NGC.C33_iteration' depends on axioms: [propext, Classical.choice, Quot.sound]
'NGC.C34_history' depends on axioms: [propext, Classical.choice, Quot.sound]
'NGC.C34_drift_loses' depends on axioms: [propext, Classical.choice, Quot.sound]
'NGC.C34_empty_raises' depends on axioms: [propext, Classical.choice, Quot.sound]
'NGC.C35_lookup' depends on axioms: [propext, Classical.choice, Quot.sound]
'NGC.C35_lookup_at_start' depends on axioms: [propext, Classical.choice, Quot.sound]
'NGC.C35_lookup_at_zero' depends on axioms: [propext, Classical.choice, Quot.sound]
'NGC.C35_lookup_wraps' depends on axioms: [propext, Classical.choice, Quot.sound]
'NGC.C35_memo_fresh' depends on axioms: [propext, Classical.choice, Quot.sound]
'NGC.C35_initial_tempo_stale' depends on axioms: [propext, Classical.choice, Quot.sound]
'NGC.C35_initial_tempo_first' depends on axioms: [propext, Classical.choice, Quot.sound]
'NGC.C36_import' depends on axioms: [propext, Classical.choice, Quot.sound]
'NGC.C37_is_quantized_always' depends on axioms: [propext, Quot.sound]
'NGC.C37_trim_noop' depends on axioms: [propext, Quot.sound]
'NGC.C37_truncate_from_start' depends on axioms: [propext, Classical.choice, Quot.sound]
'NGC.C37_truncate' depends on axioms: [propext, Classical.choice, Quot.sound]
'NGC.C38_refines_map' depends on axioms: [propext, Classical.choice, Quot.sound]
'NGC.C39_slice' depends on axioms: [propext, Classical.choice, Quot.sound]
'NGC.C40_set_semantics' depends on axioms: [propext, Classical.choice, Quot.sound]
'NGC.C40_order' depends on axioms: [propext, Classical.choice, Quot.sound]
'NGC.C41_set_semantics' depends on axioms: [propext, Classical.choice, Quot.sound]
'NGC.C41_null_rejected' depends on axioms: [propext, Classical.choice, Quot.sound]
'NGC.C41_add_twice' depends on axioms: [propext, Classical.choice, Quot.sound]
'NGC.C41_never_raises' depends on axioms: [propext, Classical.choice, Quot.sound]
'NGC.C42_nodes_hold_stored' depends on axioms: [propext, Classical.choice, Quot.sound]
'NGC.C42_stored_in_nodes' depends on axioms: [propext, Classical.choice, Quot.sound]
'NGC.C42_built_tree' depends on axioms: [propext, Classical.choice, Quot.sound]
'NGC.C42_built_null' depends on axioms: [propext, Classical.choice, Quot.sound]
'NGC.C42_built_tree_total' depends on axioms: [propext, Classical.choice, Quot.sound]
'NGC.C42_short_interval_recursion' depends on axioms: [propext, Classical.choice, Quot.sound]
'NGC.C43_remove_always_raises' depends on axioms: [propext, Classical.choice, Quot.sound]
'NGC.C43_missing' depends on axioms: [propext, Classical.choice, Quot.sound]
'NGC.C43_discard_leaves_node' depends on axioms: [propext, Classical.choice, Quot.sound]
'NGC.C44_search_raises' depends on axioms: [propext, Classical.choice, Quot.sound]
'NGC.C44_point_never_found' depends on axioms: [propext, Classical.choice, Quot.sound]
'NGC.C44_empty' depends on axioms: [propext, Classical.choice, Quot.sound]
'NGC.C45_partition' depends on axioms: [propext, Classical.choice, Quot.sound]
'NGC.C45_filter_single' depends on axioms: [propext, Classical.choice, Quot.sound]
'NGC.C45_raises' depends on axioms: [propext, Classical.choice, Quot.sound]
'NGC.C45_same_start_same_group' depends on axioms: [propext, Classical.choice, Quot.sound]
'NGC.C45_group_width' depends on axioms: [propext, Classical.choice, Quot.sound]
'NGC.C46_rescale' depends on axioms: [propext, Classical.choice, Quot.sound]
'NGC.C46_extremes' depends on axioms: [propext, Classical.choice, Quot.sound]
'NGC.C47_weights' depends on axioms: [propext, Classical.choice, Quot.sound]
'NGC.C48_edges' depends on axioms: [propext, Classical.choice, Quot.sound]
'NGC.C48_playing_order_lost' depends on axioms: [propext, Classical.choice, Quot.sound]
'NGC.C48_time_order' depends on axioms: [propext, Classical.choice, Quot.sound]
'NGC.C49_index_bijection' depends on axioms: [propext, Classical.choice, Quot.sound]
'NGC.C49_labels_start_at_one' depends on axioms: [propext, Classical.choice, Quot.sound]
'NGC.C49_index_stable' depends on axioms: [propext, Classical.choice, Quot.sound]
'NGC.C49_notes_inverse' depends on axioms: [propext, Classical.choice, Quot.sound]
'NGC.C49_collision' depends on axioms: [propext, Classical.choice, Quot.sound]
'NGC.C50_nodes' depends on axioms: [propext, Classical.choice, Quot.sound]
'NGC.C50_complete' depends on axioms: [propext, Classical.choice, Quot.sound]
'NGC.C51_pitch_vector' depends on axioms: [propext, Quot.sound]
'NGC.C51_velocity_rows' depends on axioms: [propext, Classical.choice, Quot.sound]
'NGC.C51_too_many_velocities' depends on axioms: [propext, Quot.sound]
'NGC.C52_merge' depends on axioms: [propext, Classical.choice, Quot.sound]
'NGC.C52_in_edges_lost' depends on axioms: [propext, Classical.choice, Quot.sound]
'NGC.C52_raises' depends on axioms: [propext, Classical.choice, Quot.sound]
'NGC.C53_only_first_graph' depends on axioms: [propext, Classical.choice, Quot.sound]
'NGC.C53_nothing_built' depends on axioms: [propext, Quot.sound]
'NGC.C54_split' depends on axioms: [propext, Classical.choice, Quot.sound]
'NGC.C55_roundtrip' depends on axioms: [propext, Quot.sound]
'NGC.C55_absolute_is_sum' depends on axioms: [propext, Classical.choice, Quot.sound]
'NGC.C55_order' depends on axioms: [propext, Quot.sound]
'NGC.C55_serialized_deltas' depends on axioms: [propext, Classical.choice, Quot.sound]
'NGC.C56_tick_to_time' depends on axioms: [propext, Classical.choice, Quot.sound]
'NGC.C56_increasing' depends on axioms: [propext, Classical.choice, Quot.sound]
'NGC.C56_fresh' depends on axioms: [propext, Classical.choice, Quot.sound]
'NGC.C56_history' depends on axioms: [propext, Classical.choice, Quot.sound]
'NGC.C56_table_covers_file' depends on axioms: [propext, Classical.choice, Quot.sound]
'NGC.C57_nearest' depends on axioms: [propext, Classical.choice, Quot.sound]
'NGC.C57_inverse' depends on axioms: [propext, Classical.choice, Quot.sound]
'NGC.C58_exact_no_stack' depends on axioms: [propext, Classical.choice, Quot.sound]
'NGC.C58_one_note_per_note_on' depends on axioms: [propext, Quot.sound]
'NGC.C58_start_lt_end' depends on axioms: [propext, Quot.sound]
'NGC.C58_overlap_truncates' depends on axioms: [propext, Quot.sound]
'NGC.C58_stacked_note_lost' depends on axioms: [propext, Quot.sound]
'NGC.C58_no_end_drops' depends on axioms: [propext]
'NGC.C58_exact' depends on axioms: [propext, Classical.choice, Quot.sound]
'NGC.C59_comparator_consistent' depends on axioms: [propext, Classical.choice, Quot.sound]
'NGC.C59_track_name_inconsistent' depends on axioms: [propext, Quot.sound]
'NGC.C59_sorted_order' depends on axioms: [propext, Classical.choice, Quot.sound]
'NGC.C59_instrument_track' depends on axioms: [propext, Classical.choice, Quot.sound]
'NGC.C59_bends_reordered' depends on axioms: [propext, Classical.choice, Quot.sound]
'NGC.C59_zero_length_reversed' depends on axioms: [propext, Classical.choice, Quot.sound]
'NGC.C60_tempo_map' depends on axioms: [propext, Classical.choice, Quot.sound]
'NGC.C60_loaded_clock' depends on axioms: [propext, Classical.choice, Quot.sound]
'NGC.C61_notes_read' depends on axioms: [propext, Classical.choice, Quot.sound]
'NGC.C61_all_notes_kept' depends on axioms: [propext, Classical.choice, Quot.sound]
'NGC.C61_note_kept_iff' depends on axioms: [propext, Classical.choice, Quot.sound]
'NGC.C61_note_lost' depends on axioms: [propext, Classical.choice, Quot.sound]
'NGC.C62_key_round_trip' depends on axioms: [propext, Quot.sound]
'NGC.C62_bad_key_raises' depends on axioms: [propext, Classical.choice, Quot.sound]
'NGC.C62_keys_round_trip' depends on axioms: [propext, Classical.choice, Quot.sound]
'NGC.C62_example' depends on axioms: [propext, Classical.choice, Quot.sound]
'NGC.C63_get_index' depends on axioms: [propext, Classical.choice, Quot.sound]
'NGC.C63_bijection' depends on axioms: [propext, Classical.choice, Quot.sound]
'NGC.C63_indices' depends on axioms: [propext, Classical.choice, Quot.sound]
'NGC.C63_stable' depends on axioms: [propext, Classical.choice, Quot.sound]
'NGC.C64_partition' depends on axioms: [propext, Classical.choice, Quot.sound]
'NGC.C65_per_instrument_crash_safe' depends on axioms: [propext, Classical.choice, Quot.sound]
'NGC.C65_fresh_result' depends on axioms: [propext, Classical.choice, Quot.sound]
'NGC.C65_whole_file_holds_instrument_graphs' depends on axioms: [propext, Classical.choice, Quot.sound]
'NGC.C65_crash_in_second_save' depends on axioms: [propext, Classical.choice, Quot.sound]
'NGC.C65_other_crash_points' depends on axioms: [propext, Classical.choice, Quot.sound]
'NGC.C66_resume' depends on axioms: [propext, Classical.choice, Quot.sound]
'NGC.C66_no_checkpoint' depends on axioms: [propext, Quot.sound]
'NGC.C67_remove' depends on axioms: [propext, Classical.choice, Quot.sound]
'NGC.C67_remove_invalid' depends on axioms: [propext, Classical.choice, Quot.sound]
'NGC.C67_not_renumbered' depends on axioms: [propext, Classical.choice, Quot.sound]
'NGC.C67_remaining' depends on axioms: [propext, Classical.choice, Quot.sound]
'NGC.C67_node_drop' depends on axioms: [propext, Classical.choice, Quot.sound]
'NGC.C67_drop_count' depends on axioms: [propext, Classical.choice, Quot.sound]
'NGC.C67_node_drop_no_attr' depends on axioms: [propext, Quot.sound]
'NGC.C67_remove_count' depends on axioms: [propext, Classical.choice, Quot.sound]
'NGC.C67_node_drop_labels' depends on axioms: [propext, Classical.choice, Quot.sound]
'NGC.C68_notes' depends on axioms: [propext, Classical.choice, Quot.sound]
'NGC.C68_transpose' depends on axioms: [propext, Classical.choice, Quot.sound]
'NGC.C68_modes' depends on axioms: [propext, Classical.choice, Quot.sound]
'NGC.C68_accepts' depends on axioms: [propext, Classical.choice, Quot.sound]
'NGC.C68_tables' depends on axioms: [propext, Classical.choice, Quot.sound]
'NGC.C68_triads' depends on axioms: [propext, Classical.choice, Quot.sound]
'NGC.C68_triad_types' depends on axioms: [propext, Classical.choice, Quot.sound]
'NGC.C68_extended' depends on axioms: [propext, Classical.choice, Quot.sound]
'NGC.C68_scale_texts' depends on axioms: [propext, Classical.choice, Quot.sound]
'NGC.C69_round_trip' depends on axioms: [propext, Quot.sound]
'NGC.C69_compound' depends on axioms: [propext, Classical.choice, Quot.sound]
'NGC.C69_bases' depends on axioms: [propext, Quot.sound]
'NGC.C69_inverse_refuted' depends on axioms: [propext, Quot.sound]
'NGC.C70_injective' depends on axioms: [propext, Classical.choice, Quot.sound]
'NGC.C70_parts' depends on axioms: [propext, Classical.choice, Quot.sound]
'NGC.C71_sound' depends on axioms: [propext, Quot.sound]
'NGC.C71_round_trip' depends on axioms: [propext]
'NGC.C71_lookups' depends on axioms: [propext, Classical.choice, Quot.sound]
'NGC.C71_pitches' depends on axioms: [propext, Classical.choice, Quot.sound]
'NGC.C71_transpose' depends on axioms: [propext, Classical.choice, Quot.sound]
'NGC.C71_text_refuted' depends on axioms: [propext, Classical.choice, Quot.sound]
'NGC.C71_tables' depends on axioms: [propext]
'NGC.C71_tables_disagree' depends on axioms: [propext]
'NGC.C71_chord_from_scale' depends on axioms: [propext, Classical.choice, Quot.sound]
'NGC.C71_list_of_chords' depends on axioms: [propext, Classical.choice, Quot.sound]
'NGC.C71_interval_texts' depends on axioms: [propext, Classical.choice, Quot.sound]
'NGC.C71_refusals' depends on axioms: [propext, Classical.choice, Quot.sound]
'NGC.C72_agree' depends on axioms: [propext, Classical.choice, Quot.sound]
'NGC.C72_meaning' depends on axioms: [propext, Classical.choice, Quot.sound]
'NGC.C72_linear' depends on axioms: [propext, Classical.choice, Quot.sound]
'NGC.C72_round_trip' depends on axioms: [propext, Classical.choice, Quot.sound]
'NGC.C72_np' depends on axioms: [propext, Classical.choice, Quot.sound]
'NGC.C73_ft_odd' depends on axioms: [propext, Classical.choice, Quot.sound]
'NGC.C73_ft_nearest' depends on axioms: [propext, Classical.choice, Quot.sound]
'NGC.C73_ft_default_truncates' depends on axioms: [propext, Classical.choice, Quot.sound]
'NGC.C73_ft_mono' depends on axioms: [propext, Classical.choice, Quot.sound]
'NGC.C73_ft_errors' depends on axioms: [propext, Classical.choice, Quot.sound]
'NGC.C73_nearest' depends on axioms: [propext, Classical.choice, Quot.sound]
'NGC.C73_step_unit' depends on axioms: [propext, Classical.choice, Quot.sound]
'NGC.C73_alt_nearest' depends on axioms: [propext, Classical.choice, Quot.sound]
'NGC.C73_alt_half' depends on axioms: [propext, Classical.choice, Quot.sound]
'NGC.C73_vector' depends on axioms: [propext, Classical.choice, Quot.sound]
'NGC.C73_vector_empty' does not depend on any axioms
'NGC.C73_vector_idem' depends on axioms: [propext, Classical.choice, Quot.sound]
'NGC.C73_snap_raises' does not depend on any axioms
'NGC.C73_grid_nearest' depends on axioms: [propext, Classical.choice, Quot.sound]
'NGC.C73_grid_drift' depends on axioms: [propext, Classical.choice, Quot.sound]
'NGC.C73_grid_order' depends on axioms: [propext, Classical.choice, Quot.sound]
'NGC.C73_grid_errors' depends on axioms: [propext, Classical.choice, Quot.sound]
'NGC.C73_interpolate' depends on axioms: [propext, Classical.choice, Quot.sound]
'NGC.C74_covers' depends on axioms: [propext, Classical.choice, Quot.sound]
'NGC.C74_errors' depends on axioms: [propext, Classical.choice, Quot.sound]
'NGC.C74_occupancy' depends on axioms: [propext, Classical.choice, Quot.sound]
'NGC.C74_start' depends on axioms: [propext, Classical.choice, Quot.sound]
'NGC.C74_negative_frame' depends on axioms: [propext, Classical.choice, Quot.sound]
'NGC.C75_onehot' depends on axioms: [propext, Classical.choice, Quot.sound]
'NGC.C75_onehot_injective' depends on axioms: [propext, Classical.choice, Quot.sound]
'NGC.C75_roll' depends on axioms: [propext, Classical.choice, Quot.sound]
'NGC.C75_roll_short_lost' depends on axioms: [propext, Classical.choice, Quot.sound]
'NGC.C75_roll_marks' depends on axioms: [propext, Classical.choice, Quot.sound]
'NGC.C75_roll_empty' depends on axioms: [propext, Classical.choice, Quot.sound]
'NGC.C75_roll_width' depends on axioms: [propext, Classical.choice, Quot.sound]
'NGC.C75_roll_total' depends on axioms: [propext, Classical.choice, Quot.sound]
'NGC.C76_edge_drop' depends on axioms: [propext, Quot.sound]
'NGC.C76_label_edges' depends on axioms: [propext, Quot.sound]
'NGC.C77_ppq_to_qpm_ignores_tempo' depends on axioms: [propext, Classical.choice, Quot.sound]
'NGC.C78_sig_order' depends on axioms: [propext, Classical.choice, Quot.sound]
'NGC.C78_sig_order_cycle' depends on axioms: [propext, Classical.choice, Quot.sound]
'NGC.C78_sig_order_trans' depends on axioms: [propext, Classical.choice, Quot.sound]
'NGC.C78_key_mode' depends on axioms: [propext, Classical.choice, Quot.sound]
'NGC.C79_named_iff' depends on axioms: [propext, Classical.choice, Quot.sound]
'NGC.C79_missing' depends on axioms: [propext, Classical.choice, Quot.sound]
'NGC.C80_cut_in_place' depends on axioms: [propext, Quot.sound]
'NGC.C80_cut' depends on axioms: [propext, Classical.choice, Quot.sound]
'NGC.C80_cut_total_too_small' depends on axioms: [propext, Classical.choice, Quot.sound]
'NGC.C81_construct_raises' depends on axioms: [propext]
'NGC.C81_clear_stale' depends on axioms: [propext, Quot.sound]
'NGC.C82_received_order_reversed' depends on axioms: [propext, Classical.choice, Quot.sound]
'NGC.C82_in_order' depends on axioms: [propext, Classical.choice, Quot.sound]
'NGC.C83_assigned_not_read' depends on axioms: [propext, Classical.choice, Quot.sound]
'NGC.C83_assigned_get_track' depends on axioms: [propext, Classical.choice, Quot.sound]
'NGC.C84_tolerance_ignored' depends on axioms: [propext, Classical.choice, Quot.sound]
'NGC.C85_is_connected_direction' depends on axioms: [propext, Classical.choice, Quot.sound]
'NGC.C85_played_pair_reversed' depends on axioms: [propext, Classical.choice, Quot.sound]
'NGC.C86_one_hot' depends on axioms: [propext, Quot.sound]
'NGC.C86_pitch_127_raises' depends on axioms: [propext, Classical.choice, Quot.sound]
'NGC.C87_scale_relative' depends on axioms: [propext, Classical.choice, Quot.sound]
'NGC.C88_tolerance_bounds' depends on axioms: [propext, Classical.choice, Quot.sound]
'NGC.C88_few_notes' depends on axioms: [propext, Classical.choice, Quot.sound]
'NGC.C88_even' depends on axioms: [propext, Classical.choice, Quot.sound]
'NGC.C89_conversion' depends on axioms: [propext, Classical.choice, Quot.sound]
'NGC.C90_single_note_track_dropped' depends on axioms: [propext, Classical.choice, Quot.sound]
'NGC.C90_track_adds_graph' depends on axioms: [propext, Classical.choice, Quot.sound]
'NGC.C95_tempo_roundtrip' depends on axioms: [propext, Classical.choice, Quot.sound]
'NGC.C95_written_tempo' depends on axioms: [propext, Classical.choice, Quot.sound]
'NGC.C96_note_roundtrip' depends on axioms: [propext, Classical.choice, Quot.sound]
'NGC.C97_metadata_roundtrip' depends on axioms: [propext, Classical.choice, Quot.sound]
'NGC.C98_shared_control' depends on axioms: [propext, Quot.sound]
'NGC.C98_silent_channel_lost' depends on axioms: [propext]
'NGC.C98_single_owner' depends on axioms: [propext, Classical.choice, Quot.sound]
'NGC.C98_owners' depends on axioms: [propext, Classical.choice, Quot.sound]
'NGC.C98_own_events_kept' depends on axioms: [propext, Classical.choice, Quot.sound]
'NGC.C99_tempo_changes' depends on axioms: [propext, Classical.choice, Quot.sound]
'NGC.C100_events_read' depends on axioms: [propext, Classical.choice, Quot.sound]
'NGC.C100_events_lost' depends on axioms: [propext, Classical.choice, Quot.sound]
'NGC.C100_lowest_bend_raises' depends on axioms: [propext, Classical.choice, Quot.sound]
'NGC.C101_tempos_read' depends on axioms: [propext, Classical.choice, Quot.sound]
'NGC.C101_times_read' depends on axioms: [propext, Classical.choice, Quot.sound]
'NGC.C101_example' depends on axioms: [propext, Classical.choice, Quot.sound]
'NGC.C101_tempo_example' depends on axioms: [propext, Classical.choice, Quot.sound]
'NGC.C102_file_notes' depends on axioms: [propext, Classical.choice, Quot.sound]
'NGC.C102_example' depends on axioms: [propext, Classical.choice, Quot.sound]
'NGC.C102_from_file' depends on axioms: [propext, Classical.choice, Quot.sound]
'NGC.C103_accepted' depends on axioms: [propext, Classical.choice, Quot.sound]
'NGC.C104_names_spelt' depends on axioms: [propext, Classical.choice, Quot.sound]
'NGC.C104_file_names' depends on axioms: [propext, Classical.choice, Quot.sound]
'NGC.C105_cache_wins' depends on axioms: [propext, Classical.choice, Quot.sound]
'NGC.C105_other_settings' depends on axioms: [propext, Classical.choice, Quot.sound]
'NGC.C106_instrument_graphs' depends on axioms: [propext]
'NGC.C106_empty_file_fails' depends on axioms: [propext]
'NGC.C107_torn_newest' depends on axioms: [propext, Classical.choice, Quot.sound]
'NGC.C107_foreign_file' depends on axioms: [propext, Quot.sound]
'NGC.C107_other_files' depends on axioms: [propext, Classical.choice, Quot.sound]
'NGC.C108_metrics_never_restored' depends on axioms: [propext, Classical.choice, Quot.sound]
'NGC.C108_train_metrics_never_saved' depends on axioms: [propext]
'NGC.C108_train_file_unreadable' depends on axioms: [propext, Classical.choice, Quot.sound]
'NGC.C108_validation_roundtrip' depends on axioms: [propext, Classical.choice, Quot.sound]
'NGC.C108_bare_directory' depends on axioms: [propext, Classical.choice, Quot.sound]
'NGC.C108_restore_train' does not depend on any axioms
'NGC.C108_restore_test' does not depend on any axioms
'NGC.C108_written_names' depends on axioms: [propext, Quot.sound]
'NGC.C108_when_written' depends on axioms: [propext, Classical.choice, Quot.sound]
'NGC.C109_degree' depends on axioms: [propext, Quot.sound]
'NGC.C109_degree_error' depends on axioms: [propext, Quot.sound]
'NGC.C109_degree_sum' depends on axioms: [propext, Quot.sound]
'NGC.C91_balanced' depends on axioms: [propext, Classical.choice, Quot.sound]
'NGC.C91_default_limit' depends on axioms: [propext, Classical.choice, Quot.sound]
'NGC.FIv.C92_strict_total' depends on axioms: [propext, Classical.choice, Quot.sound]
'NGC.FIv.C93_inner_missed' depends on axioms: [propext, Classical.choice, Quot.sound]
'NGC.FIv.C93_touching_overlaps' depends on axioms: [propext, Classical.choice, Quot.sound]
'NGC.FIv.C93_distance' depends on axioms: [propext, Classical.choice, Quot.sound]
'NGC.FIv.C93_containment' depends on axioms: [propext, Classical.choice, Quot.sound]
'NGC.FIv.C93_length' depends on axioms: [propext, Classical.choice, Quot.sound]
'NGC.FIv.C93_compare' depends on axioms: [propext, Classical.choice, Quot.sound]
'NGC.C94_bulk' depends on axioms: [propext, Classical.choice, Quot.sound]
'NGC.C94_bulk_total' depends on axioms: [propext, Classical.choice, Quot.sound]
'NGC.C94_span' depends on axioms: [propext, Classical.choice, Quot.sound]
'NGC.C94_merge' depends on axioms: [propext, Classical.choice, Quot.sound]
'NGC.C94_split_raises' depends on axioms: [propext, Classical.choice, Quot.sound]
'NGC.C110_constructor' depends on axioms: [propext, Classical.choice, Quot.sound]
'NGC.C110_default' depends on axioms: [propext, Quot.sound]
'NGC.C110_extend' depends on axioms: [propext, Classical.choice, Quot.sound]
'NGC.C110_from_notes' depends on axioms: [propext, Classical.choice, Quot.sound]
'NGC.C111_steps' depends on axioms: [propext, Classical.choice, Quot.sound]
'NGC.C111_tempo' depends on axioms: [propext, Classical.choice, Quot.sound]
'NGC.C111_four_quarter' depends on axioms: [propext, Classical.choice, Quot.sound]
'NGC.C111_beat' depends on axioms: [propext, Classical.choice, Quot.sound]
'NGC.C112_bend_order' depends on axioms: [propext, Quot.sound]
'NGC.C112_cc_shift' depends on axioms: [propext, Classical.choice, Quot.sound]
'NGC.C112_same_start' depends on axioms: [propext, Classical.choice, Quot.sound]
'NGC.C113_values' depends on axioms: [propext, Classical.choice, Quot.sound]
'NGC.C113_single' depends on axioms: [propext, Classical.choice, Quot.sound]
'NGC.C114_checks' depends on axioms: [propext, Classical.choice, Quot.sound]
'NGC.C114_num_instruments' depends on axioms: [propext, Classical.choice, Quot.sound]
'NGC.C115_split_sizes' depends on axioms: [propext, Classical.choice, Quot.sound]
'NGC.C116_options' depends on axioms: [propext, Classical.choice, Quot.sound]
'NGC.C116_conversion' depends on axioms: [propext, Quot.sound]
'NGC.C117_copy_isolated' depends on axioms: [propext, Classical.choice, Quot.sound]
'NGC.C117_copy_safe' depends on axioms: [propext, Classical.choice, Quot.sound]
'NGC.C117_interleaved' depends on axioms: [propext, Classical.choice, Quot.sound]
'NGC.C117_copy_equal' depends on axioms: [propext, Classical.choice, Quot.sound]
'NGC.C117_reachable' depends on axioms: [propext, Classical.choice, Quot.sound]
'NGC.C118_stretch_seen_everywhere' depends on axioms: [propext, Classical.choice, Quot.sound]
'NGC.C118_cut_shares' depends on axioms: [propext, Classical.choice, Quot.sound]
'NGC.C118_cut_breaks_total' depends on axioms: [propext, Classical.choice, Quot.sound]
'NGC.C118_slice_shares' depends on axioms: [propext, Classical.choice, Quot.sound]
'NGC.C118_constructor' depends on axioms: [propext, Classical.choice, Quot.sound]
'NGC.C118_from_notes_shares' depends on axioms: [propext, Quot.sound]
'NGC.C118_merge_shares' depends on axioms: [propext, Classical.choice, Quot.sound]
'NGC.C118_self_merge' depends on axioms: [propext, Classical.choice, Quot.sound]
'NGC.C118_clone_shares_instrument' depends on axioms: [propext, Quot.sound]
'NGC.C119_values_suffice' depends on axioms: [propext, Classical.choice, Quot.sound]
'NGC.C119_same_results' depends on axioms: [propext, Classical.choice, Quot.sound]
'NGC.C119_constructed' depends on axioms: [propext, Classical.choice, Quot.sound]
'NGC.C119_not_when_repeated' depends on axioms: [propext, Classical.choice, Quot.sound]
'NGC.C120_time_map' depends on axioms: [propext, Classical.choice, Quot.sound]
'NGC.C120_notes' depends on axioms: [propext, Classical.choice, Quot.sound]
'NGC.C120_notes_kept' depends on axioms: [propext, Classical.choice, Quot.sound]
'NGC.C120_no_new_overlap' depends on axioms: [propext, Classical.choice, Quot.sound]
'NGC.C121_events' depends on axioms: [propext, Classical.choice, Quot.sound]
'NGC.C121_in_force' depends on axioms: [propext, Classical.choice, Quot.sound]
'NGC.C121_controllers_lost' depends on axioms: [propext, Classical.choice, Quot.sound]
'NGC.C122_doubling_ends' depends on axioms: [propext, Classical.choice, Quot.sound]
'NGC.C122_onsets' depends on axioms: [propext, Classical.choice, Quot.sound]
'NGC.C122_tempi' depends on axioms: [propext, Classical.choice, Quot.sound]
'NGC.C122_estimate' depends on axioms: [propext, Classical.choice, Quot.sound]
'NGC.C122_steady' depends on axioms: [propext, Classical.choice, Quot.sound]
'NGC.C122_least_updated' depends on axioms: [propext, Classical.choice, Quot.sound]
'NGC.C122_end_time' depends on axioms: [propext, Classical.choice, Quot.sound]
'NGC.C123_beats' depends on axioms: [propext, Classical.choice, Quot.sound]
'NGC.C123_order' depends on axioms: [propext, Classical.choice, Quot.sound]
'NGC.C123_on_signatures' depends on axioms: [propext, Classical.choice, Quot.sound]
'NGC.C123_unique' depends on axioms: [propext, Classical.choice, Quot.sound]
'NGC.C123_quarters' depends on axioms: [propext, Classical.choice, Quot.sound]
'NGC.C123_grid' depends on axioms: [propext, Classical.choice, Quot.sound]
'NGC.C123_example' depends on axioms: [propext, Classical.choice, Quot.sound]
'NGC.C123_early_tempo' depends on axioms: [propext, Classical.choice, Quot.sound]
'NGC.C123_double_beat' depends on axioms: [propext, Classical.choice, Quot.sound]
'NGC.C124_downbeats' depends on axioms: [propext, Classical.choice, Quot.sound]
'NGC.C124_example' depends on axioms: [propext, Classical.choice, Quot.sound]
'NGC.C124_four' depends on axioms: [propext, Quot.sound]
'NGC.C124_last_signature' depends on axioms: [propext, Classical.choice, Quot.sound]
'NGC.C125_tempo_map' depends on axioms: [propext, Classical.choice, Quot.sound]
'NGC.C125_notes_keep_ticks' depends on axioms: [propext, Classical.choice, Quot.sound]
'NGC.C125_one_moment' depends on axioms: [propext, Classical.choice, Quot.sound]
'NGC.C125_cut_out' depends on axioms: [propext, Classical.choice, Quot.sound]
'NGC.C126_metre' depends on axioms: [propext, Classical.choice, Quot.sound]
'NGC.C127_defaults_fail' depends on axioms: [propext, Classical.choice, Quot.sound]
'NGC.C127_checks' depends on axioms: [propext, Classical.choice, Quot.sound]
'NGC.C127_existing_file' depends on axioms: [propext, Classical.choice, Quot.sound]
'NGC.C127_needs_pulse' depends on axioms: [propext, Classical.choice, Quot.sound]
'NGC.C127_assigned_never_written' depends on axioms: [propext, Classical.choice, Quot.sound]
'NGC.C128_notes' depends on axioms: [propext, Classical.choice, Quot.sound]
'NGC.C128_exact' depends on axioms: [propext, Classical.choice, Quot.sound]
'NGC.C128_events' depends on axioms: [propext, Classical.choice, Quot.sound]
'NGC.C129_tempo_ticks' depends on axioms: [propext, Classical.choice, Quot.sound]
'NGC.C129_one_change' depends on axioms: [propext, Classical.choice, Quot.sound]
'NGC.C129_second_change_wrong' depends on axioms: [propext, Classical.choice, Quot.sound]
'NGC.C129_which' depends on axioms: [propext, Classical.choice, Quot.sound]
'NGC.C129_refused' depends on axioms: [propext, Classical.choice, Quot.sound]
'NGC.C130_written' depends on axioms: [propext, Classical.choice, Quot.sound]
'NGC.C130_signatures' depends on axioms: [propext, Classical.choice, Quot.sound]
'NGC.C131_read_write' depends on axioms: [propext, Classical.choice, Quot.sound]
'NGC.C132_intersection' depends on axioms: [propext, Classical.choice, Quot.sound]
'NGC.C132_symmetric_difference' depends on axioms: [propext, Classical.choice, Quot.sound]
'NGC.C133_search' depends on axioms: [propext, Classical.choice, Quot.sound]
'NGC.C133_verify' depends on axioms: [propext, Classical.choice, Quot.sound]
'NGC.C133_node_verify' depends on axioms: [propext, Classical.choice, Quot.sound]
'NGC.C133_merge_equals' depends on axioms: [propext, Classical.choice, Quot.sound]
'NGC.C133_merge_neighbors' depends on axioms: [propext, Classical.choice, Quot.sound]
'NGC.C134_visits' depends on axioms: [propext, Classical.choice, Quot.sound]
'NGC.C134_nearest_first' depends on axioms: [propext, Classical.choice, Quot.sound]
'NGC.C134_unweighted' depends on axioms: [propext, Classical.choice, Quot.sound]
'NGC.C135_roll' depends on axioms: [propext, Classical.choice, Quot.sound]
'NGC.C135_chroma' depends on axioms: [propext, Classical.choice, Quot.sound]
'NGC.C135_histogram' depends on axioms: [propext, Classical.choice, Quot.sound]
'NGC.C135_normalised' depends on axioms: [propext, Classical.choice, Quot.sound]
'NGC.C135_transposed' depends on axioms: [propext, Classical.choice, Quot.sound]
'NGC.C135_transitions' depends on axioms: [propext, Classical.choice, Quot.sound]
'NGC.C135_no_transitions' depends on axioms: [propext, Classical.choice, Quot.sound]
'NGC.C135_short_note' depends on axioms: [propext, Classical.choice, Quot.sound]
'NGC.C136_neighbors' depends on axioms: [propext, Classical.choice, Quot.sound]
'NGC.C136_one_direction' depends on axioms: [propext, Classical.choice, Quot.sound]
'NGC.C136_argument' depends on axioms: [propext, Classical.choice, Quot.sound]
'NGC.C136_connect' depends on axioms: [propext, Classical.choice, Quot.sound]
'NGC.C137_accepted' depends on axioms: [propext, Classical.choice, Quot.sound]
'NGC.C137_settings_ignored' depends on axioms: [propext, Classical.choice, Quot.sound]
'NGC.C137_defaults' depends on axioms: [propext, Classical.choice, Quot.sound]
'NGC.C137_feature_size' depends on axioms: [propext, Classical.choice, Quot.sound]
'NGC.C137_factories' depends on axioms: [propext, Classical.choice, Quot.sound]
'NGC.C138_self_check' depends on axioms: [propext, Classical.choice, Quot.sound]
'NGC.C139_experiments' depends on axioms: [propext, Quot.sound]
'NGC.C139_rejected' depends on axioms: [propext, Quot.sound]
'NGC.C139_examples' depends on axioms: [propext, Quot.sound]
'NGC.C140_scores' depends on axioms: [propext, Classical.choice, Quot.sound]
'NGC.C140_share' depends on axioms: [propext, Classical.choice, Quot.sound]
'NGC.C140_empty_mask' depends on axioms: [propext, Classical.choice, Quot.sound]
'NGC.C141_report' depends on axioms: [propext, Classical.choice, Quot.sound]
'NGC.C141_empty_mask' depends on axioms: [propext, Classical.choice, Quot.sound]
'NGC.C142_bpm' depends on axioms: [propext, Classical.choice, Quot.sound]
'NGC.C142_seconds' depends on axioms: [propext, Classical.choice, Quot.sound]
'NGC.C142_seconds_back' depends on axioms: [propext, Classical.choice, Quot.sound]
'NGC.C142_nearest' depends on axioms: [propext, Classical.choice, Quot.sound]
'NGC.C142_four_eighth' depends on axioms: [propext, Classical.choice, Quot.sound]
'NGC.C142_four_eighth_never' depends on axioms: [propext, Classical.choice, Quot.sound]
'NGC.C143_round_trip' depends on axioms: [propext, Classical.choice, Quot.sound]
'NGC.C143_marker' depends on axioms: [propext, Classical.choice, Quot.sound]
'NGC.C143_keywords' depends on axioms: [propext, Quot.sound]
'NGC.C143_fails' depends on axioms: [propext, Quot.sound]
'NGC.C144_instruments' depends on axioms: [propext, Classical.choice, Quot.sound]
'NGC.C144_metadata' depends on axioms: [propext, Classical.choice, Quot.sound]
'NGC.C144_off_grid' depends on axioms: [propext, Classical.choice, Quot.sound]
'NGC.C145_written_object' depends on axioms: [propext, Classical.choice, Quot.sound]
'NGC.C145_save_and_read' depends on axioms: [propext, Classical.choice, Quot.sound]
'NGC.C145_on_grid' depends on axioms: [propext, Classical.choice, Quot.sound]
'NGC.C145_raises' depends on axioms: [propext, Classical.choice, Quot.sound]
'NGC.C145_only_notes' depends on axioms: [propext, Classical.choice, Quot.sound]
'NGC.C145_overlap_cut' depends on axioms: [propext, Classical.choice, Quot.sound]
'NGC.C145_silent_lost' depends on axioms: [propext, Classical.choice, Quot.sound]
'NGC.C146_initial_tempo' depends on axioms: [propext, Classical.choice, Quot.sound]
'NGC.C146_last_event' depends on axioms: [propext, Classical.choice, Quot.sound]
'NGC.C146_resolution' depends on axioms: [propext, Classical.choice, Quot.sound]
'NGC.C146_order' depends on axioms: [propext, Classical.choice, Quot.sound]
'NGC.C146_is_sorted' depends on axioms: [propext, Classical.choice, Quot.sound]
'NGC.C147_set_sequence' depends on axioms: [propext, Classical.choice, Quot.sound]
'NGC.C147_set_sequence_defects' depends on axioms: [propext, Classical.choice, Quot.sound]
'NGC.C147_listing' depends on axioms: [propext, Classical.choice, Quot.sound]
'NGC.C147_from_file' depends on axioms: [propext, Classical.choice, Quot.sound]
'NGC.C148_graphs' depends on axioms: [propext, Classical.choice, Quot.sound]
'NGC.C148_labels' depends on axioms: [propext, Classical.choice, Quot.sound]
'NGC.C148_consistent' depends on axioms: [propext, Classical.choice, Quot.sound]
'NGC.C148_classes' depends on axioms: [propext, Classical.choice, Quot.sound]
'NGC.C148_masks' depends on axioms: [propext, Classical.choice, Quot.sound]
'NGC.C149_same_files' depends on axioms: [propext, Classical.choice, Quot.sound]
'NGC.C149_succeeds' depends on axioms: [propext, Classical.choice, Quot.sound]
'NGC.C149_first_song' depends on axioms: [propext, Classical.choice, Quot.sound]
'NGC.C149_no_song' depends on axioms: [propext, Classical.choice, Quot.sound]
'NGC.C149_equal' depends on axioms: [propext, Classical.choice, Quot.sound]
'NGC.C150_names' depends on axioms: [propext, Classical.choice, Quot.sound]
'NGC.C150_copied' depends on axioms: [propext, Quot.sound]
'NGC.C150_same_name' depends on axioms: [propext, Classical.choice, Quot.sound]
'NGC.C150_missing' depends on axioms: [propext, Quot.sound]
'NGC.C150_untouched' does not depend on any axioms
'NGC.C151_ready' depends on axioms: [propext, Classical.choice, Quot.sound]
'NGC.C151_absolute' depends on axioms: [propext, Classical.choice, Quot.sound]
'NGC.C151_same_list' depends on axioms: [propext, Classical.choice, Quot.sound]
'NGC.C151_web' depends on axioms: [propext, Quot.sound]
'NGC.C152_own' depends on axioms: [propext, Quot.sound]
'NGC.C152_subset' depends on axioms: [propext]
'NGC.C152_shows' depends on axioms: [propext]
'NGC.C153_step_raises_iff' depends on axioms: [propext, Classical.choice, Quot.sound]
'NGC.C153_step_nonneg_mono' depends on axioms: [propext, Classical.choice, Quot.sound]
'NGC.C153_agrees' depends on axioms: [propext, Classical.choice, Quot.sound]
'NGC.C153_floor_nearest' depends on axioms: [propext, Classical.choice, Quot.sound]
'NGC.C153_grid' depends on axioms: [propext, Classical.choice, Quot.sound]
'NGC.C153_not_nearest' depends on axioms: [propext, Classical.choice, Quot.sound]
'NGC.C153_control_change' depends on axioms: [propext, Classical.choice, Quot.sound]
'NGC.C153_quantize_total' depends on axioms: [propext, Classical.choice, Quot.sound]
'NGC.C153_short_note_raises' depends on axioms: [propext, Classical.choice, Quot.sound]
'NGC.C154_check' depends on axioms: [propext, Classical.choice, Quot.sound]
'NGC.C154_sizes' depends on axioms: [propext, Classical.choice, Quot.sound]
'NGC.C154_partition' depends on axioms: [propext, Classical.choice, Quot.sound]
'NGC.C154_examples' depends on axioms: [propext, Classical.choice, Quot.sound]
'NGC.C155_tempo_map' depends on axioms: [propext, Classical.choice, Quot.sound]
'NGC.C155_tick_to_time' depends on axioms: [propext, Classical.choice, Quot.sound]
'NGC.C155_order' depends on axioms: [propext, Classical.choice, Quot.sound]
'NGC.C155_nearest' depends on axioms: [propext, Classical.choice, Quot.sound]
'NGC.C155_round_trip' depends on axioms: [propext, Classical.choice, Quot.sound]
'NGC.C155_file_times' depends on axioms: [propext, Classical.choice, Quot.sound]
'NGC.C155_round_trip_fails' depends on axioms: [propext, Classical.choice, Quot.sound]
'NGC.C156_one_tempo' depends on axioms: [propext, Classical.choice, Quot.sound]
'NGC.C156_tempo_reported' depends on axioms: [propext, Classical.choice, Quot.sound]
'NGC.C156_no_tempo' depends on axioms: [propext, Classical.choice, Quot.sound]
'NGC.C156_round' depends on axioms: [propext, Classical.choice, Quot.sound]
'NGC.C156_rounds' depends on axioms: [propext, Classical.choice, Quot.sound]
'NGC.C156_settles' depends on axioms: [propext, Classical.choice, Quot.sound]
'NGC.C156_drift_17' depends on axioms: [propext, Classical.choice, Quot.sound]
'NGC.C156_change_lost' depends on axioms: [propext, Classical.choice, Quot.sound]
'NGC.C157_window' depends on axioms: [propext, Classical.choice, Quot.sound]
'NGC.C157_choice' depends on axioms: [propext, Classical.choice, Quot.sound]
'NGC.C157_choice_example' depends on axioms: [propext, Quot.sound]
'NGC.C157_best' depends on axioms: [propext, Classical.choice, Quot.sound]
'NGC.C157_errors' depends on axioms: [propext, Classical.choice, Quot.sound]
'NGC.C157_one_too_many' depends on axioms: [propext, Classical.choice, Quot.sound]
'NGC.C157_float_raises' depends on axioms: [propext, Classical.choice, Quot.sound]
'NGC.C157_wide_tolerance' depends on axioms: [propext, Classical.choice, Quot.sound]
'NGC.C158_grid_steps' depends on axioms: [propext, Classical.choice, Quot.sound]
'NGC.C158_grid_fixed' depends on axioms: [propext, Classical.choice, Quot.sound]
'NGC.C158_default_grows' depends on axioms: [propext, Classical.choice, Quot.sound]
'NGC.C158_grid_lost' depends on axioms: [propext, Classical.choice, Quot.sound]
'NGC.C159_score' depends on axioms: [propext, Classical.choice, Quot.sound]
'NGC.C159_fresh' depends on axioms: [propext, Classical.choice, Quot.sound]
'NGC.C159_zero_div' depends on axioms: [propext, Classical.choice, Quot.sound]
'NGC.C159_negative' depends on axioms: [propext, Classical.choice, Quot.sound]
'NGC.C160_loaded' depends on axioms: [propext, Classical.choice, Quot.sound]
'NGC.C160_saved' depends on axioms: [propext, Classical.choice, Quot.sound]
'NGC.C161_accuracy' depends on axioms: [propext, Classical.choice, Quot.sound]
'NGC.C161_order' depends on axioms: [propext, Classical.choice, Quot.sound]
'NGC.C161_stays_valid' depends on axioms: [propext, Classical.choice, Quot.sound]
'NGC.C161_shift_back' depends on axioms: [propext, Classical.choice, Quot.sound]
'NGC.C161_exact' depends on axioms: [propext, Classical.choice, Quot.sound]
'NGC.C161_drift' depends on axioms: [propext, Classical.choice, Quot.sound]
'NGC.C161_sequence' depends on axioms: [propext, Classical.choice, Quot.sound]
'NGC.C161_sequence_stretch' depends on axioms: [propext, Classical.choice, Quot.sound]
'NGC.C161_last_event' depends on axioms: [propext, Classical.choice, Quot.sound]
'NGC.C161_defects' depends on axioms: [propext, Classical.choice, Quot.sound]
'NGC.C162_rescale' depends on axioms: [propext, Classical.choice, Quot.sound]
'NGC.C162_relative' depends on axioms: [propext, Classical.choice, Quot.sound]
'NGC.C162_identity' depends on axioms: [propext, Classical.choice, Quot.sound]
'NGC.C162_identity_fails' depends on axioms: [propext, Classical.choice, Quot.sound]
'NGC.C163_cc_equality' depends on axioms: [propext, Quot.sound]
'NGC.C163_cc_equality_new' depends on axioms: [propext, Quot.sound]
'NGC.C163_cc_order' depends on axioms: [propext, Classical.choice, Quot.sound]
'NGC.C163_cc_sorted' depends on axioms: [propext, Classical.choice, Quot.sound]
'NGC.C163_cc_cycle' depends on axioms: [propext, Classical.choice, Quot.sound]
'NGC.C163_cc_undecided' depends on axioms: [propext, Classical.choice, Quot.sound]
'NGC.C163_base_equality' depends on axioms: [propext, Classical.choice, Quot.sound]
'NGC.C163_mixed' depends on axioms: [propext, Classical.choice, Quot.sound]
'NGC.C163_mixed_not_transitive' depends on axioms: [propext, Quot.sound]
'NGC.C163_entries' depends on axioms: [propext, Classical.choice, Quot.sound]
'NGC.C163_texts' depends on axioms: [propext, Classical.choice, Quot.sound]
'NGC.C163_switches' depends on axioms: [propext, Classical.choice, Quot.sound]
'NGC.C163_against_table' depends on axioms: [propext, Classical.choice, Quot.sound]
'NGC.C163_bends' depends on axioms: [propext, Quot.sound]
'NGC.C163_bends_time' depends on axioms: [propext, Classical.choice, Quot.sound]
'NGC.C164_history' depends on axioms: [propext, Classical.choice, Quot.sound]
'NGC.C164_nothing_removed' depends on axioms: [propext, Classical.choice, Quot.sound]
'NGC.C164_outcomes' depends on axioms: [propext, Classical.choice, Quot.sound]
'NGC.C164_delete_slice' depends on axioms: [propext, Quot.sound]
'NGC.C164_membership' depends on axioms: [propext, Classical.choice, Quot.sound]
'NGC.C165_load_decision' depends on axioms: [propext, Classical.choice, Quot.sound]
'NGC.C165_bad_meter' depends on axioms: [propext, Classical.choice, Quot.sound]
'NGC.C165_from_file_value_error' depends on axioms: [propext, Classical.choice, Quot.sound]
'NGC.C165_float_refusals' depends on axioms: [propext, Classical.choice, Quot.sound]
'NGC.C165_load_decision_float' depends on axioms: [propext, Classical.choice, Quot.sound]
'NGC.C166_centi_order' depends on axioms: [propext, Classical.choice, Quot.sound]
'NGC.C166_same_hundredth' depends on axioms: [propext, Classical.choice, Quot.sound]
'NGC.C166_no_collision' depends on axioms: [propext, Classical.choice, Quot.sound]
'NGC.C166_groups' depends on axioms: [propext, Classical.choice, Quot.sound]
'NGC.C166_visit_order' depends on axioms: [propext, Classical.choice, Quot.sound]
'NGC.C166_steps_whole_seconds' depends on axioms: [propext, Classical.choice, Quot.sound]
'NGC.C166_half_seconds' depends on axioms: [propext, Classical.choice, Quot.sound]
'NGC.C166_same_hundredth_disordered' depends on axioms: [propext, Classical.choice, Quot.sound]
'NGC.C166_options' depends on axioms: [propext, Classical.choice, Quot.sound]
'NGC.C167_formula' depends on axioms: [propext, Classical.choice, Quot.sound]
'NGC.C167_shared' depends on axioms: [propext, Classical.choice, Quot.sound]
'NGC.C167_invariance' depends on axioms: [propext, Classical.choice, Quot.sound]
'NGC.C167_beta' depends on axioms: [propext, Classical.choice, Quot.sound]
'NGC.C167_refused' depends on axioms: [propext, Classical.choice, Quot.sound]
'NGC.C168_equivariant' depends on axioms: [propext, Classical.choice, Quot.sound]
'NGC.C168_edge_order' depends on axioms: [propext, Classical.choice, Quot.sound]
'NGC.C168_batch' depends on axioms: [propext, Classical.choice, Quot.sound]
'NGC.C168_local' depends on axioms: [propext, Classical.choice, Quot.sound]
'NGC.C168_isolated' depends on axioms: [propext, Classical.choice, Quot.sound]
'NGC.C168_twins' depends on axioms: [propext, Classical.choice, Quot.sound]
'NGC.C168_formula' depends on axioms: [propext, Classical.choice, Quot.sound]
'NGC.C168_local_tight' depends on axioms: [propext, Classical.choice, Quot.sound]
'NGC.C169_cached' depends on axioms: [propext, Classical.choice, Quot.sound]
'NGC.C169_not_cached' depends on axioms: [propext, Classical.choice, Quot.sound]
'NGC.C169_stale' depends on axioms: [propext, Classical.choice, Quot.sound]
'NGC.C170_invariant' depends on axioms: [propext, Classical.choice, Quot.sound]
'NGC.C170_batch' depends on axioms: [propext, Classical.choice, Quot.sound]
'NGC.C170_node_classes' depends on axioms: [propext, Classical.choice, Quot.sound]
'NGC.C171_parts' depends on axioms: [propext, Classical.choice, Quot.sound]
'NGC.C171_dataset' depends on axioms: [propext, Classical.choice, Quot.sound]
'NGC.C172_loop_ends' depends on axioms: [propext, Classical.choice, Quot.sound]
'NGC.C172_created' depends on axioms: [propext, Classical.choice, Quot.sound]
'NGC.C172_imported' depends on axioms: [propext, Classical.choice, Quot.sound]
'NGC.C172_imported_large' depends on axioms: [propext, Classical.choice, Quot.sound]
'NGC.C172_brackets' depends on axioms: [propext, Classical.choice, Quot.sound]
'NGC.C172_assigned' depends on axioms: [propext, Classical.choice, Quot.sound]
'NGC.C172_assigned_raises' depends on axioms: [propext, Classical.choice, Quot.sound]
'NGC.C172_assigned_build' depends on axioms: [propext, Classical.choice, Quot.sound]
'NGC.C172_assigned_build_raises' depends on axioms: [propext, Classical.choice, Quot.sound]
'NGC.C172_brackets_build' depends on axioms: [propext, Classical.choice, Quot.sound]
'NGC.C172_created_build' depends on axioms: [propext, Classical.choice, Quot.sound]
'NGC.C172_imported_build' depends on axioms: [propext, Classical.choice, Quot.sound]
'NGC.C173_as_note_seq' depends on axioms: [propext, Classical.choice, Quot.sound]
'NGC.C174_velocities' depends on axioms: [propext, Classical.choice, Quot.sound]
'NGC.C175_formula' depends on axioms: [propext, Classical.choice, Quot.sound]
'NGC.C175_loops' depends on axioms: [propext, Classical.choice, Quot.sound]
'NGC.C175_contained' depends on axioms: [propext, Classical.choice, Quot.sound]
'NGC.C175_renumber' depends on axioms: [propext, Classical.choice, Quot.sound]
'NGC.C175_batch' depends on axioms: [propext, Classical.choice, Quot.sound]
'NGC.C175_local' depends on axioms: [propext, Classical.choice, Quot.sound]
'NGC.C175_twins' depends on axioms: [propext, Classical.choice, Quot.sound]
'NGC.C175_probabilities' depends on axioms: [propext, Classical.choice, Quot.sound]
'NGC.ExNets.C175_local_tight' depends on axioms: [propext, Classical.choice, Quot.sound]
'NGC.C176_symmetric' depends on axioms: [propext, Classical.choice, Quot.sound]
'NGC.C176_twins' depends on axioms: [propext, Classical.choice, Quot.sound]
'NGC.C176_contained' depends on axioms: [propext, Classical.choice, Quot.sound]
'NGC.C176_means' depends on axioms: [propext, Classical.choice, Quot.sound]
'NGC.C177_noise' depends on axioms: [propext, Classical.choice, Quot.sound]
'NGC.C177_accuracy' depends on axioms: [propext, Classical.choice, Quot.sound]
'NGC.C177_bounds' depends on axioms: [propext, Classical.choice, Quot.sound]
'NGC.C177_reversed' depends on axioms: [propext, Classical.choice, Quot.sound]
'NGC.C177_kl' depends on axioms: [propext, Classical.choice, Quot.sound]
'NGC.C177_recon' depends on axioms: [propext, Classical.choice, Quot.sound]
'NGC.C177_flag' depends on axioms: [propext, Classical.choice, Quot.sound]
'NGC.C178_formula' depends on axioms: [propext, Classical.choice, Quot.sound]
'NGC.C178_between' depends on axioms: [propext, Classical.choice, Quot.sound]
'NGC.C178_alike' depends on axioms: [propext, Classical.choice, Quot.sound]
'NGC.C178_attributes' depends on axioms: [propext, Classical.choice, Quot.sound]
'NGC.C178_contained' depends on axioms: [propext, Classical.choice, Quot.sound]
'NGC.C178_pool' depends on axioms: [propext, Classical.choice, Quot.sound]
'NGC.C178_pooled' depends on axioms: [propext, Classical.choice, Quot.sound]
'NGC.C178_local' depends on axioms: [propext, Classical.choice, Quot.sound]
'NGC.C178_activations' depends on axioms: [propext, Classical.choice, Quot.sound]
'NGC.C179_bounded' depends on axioms: [propext, Classical.choice, Quot.sound]
'NGC.C179_split' depends on axioms: [propext, Classical.choice, Quot.sound]
'NGC.C179_recurrence' depends on axioms: [propext, Classical.choice, Quot.sound]
'NGC.C179_causal' depends on axioms: [propext, Classical.choice, Quot.sound]
'NGC.C180_generated' depends on axioms: [propext, Classical.choice, Quot.sound]
'NGC.C180_prefix' depends on axioms: [propext, Classical.choice, Quot.sound]
'NGC.C180_refused' depends on axioms: [propext, Classical.choice, Quot.sound]
'NGC.C181_widths' depends on axioms: [propext, Quot.sound]
'NGC.C181_branches' depends on axioms: [propext, Quot.sound]
'NGC.C182_counts' depends on axioms: [propext, Classical.choice, Quot.sound]
'NGC.C182_bounds' depends on axioms: [propext, Classical.choice, Quot.sound]
'NGC.C182_scores' depends on axioms: [propext, Classical.choice, Quot.sound]
'NGC.C182_lstm_accuracy' depends on axioms: [propext, Classical.choice, Quot.sound]
'NGC.C182_lstm_quotient' depends on axioms: [propext, Classical.choice, Quot.sound]
'NGC.C183_session' depends on axioms: [propext, Classical.choice, Quot.sound]
'NGC.C183_zero_division' depends on axioms: [propext, Classical.choice, Quot.sound]
'NGC.C184_next' depends on axioms: [propext, Classical.choice, Quot.sound]
'NGC.C184_late' depends on axioms: [propext, Classical.choice, Quot.sound]
'NGC.C184_first' depends on axioms: [propext, Classical.choice, Quot.sound]
'NGC.C184_killed_saving' depends on axioms: [propext, Classical.choice, Quot.sound]
'NGC.C184_repeated' depends on axioms: [propext, Classical.choice, Quot.sound]
'NGC.C184_examples' depends on axioms: [propext, Classical.choice, Quot.sound]
'NGC.C185_reversed' depends on axioms: [propext, Classical.choice, Quot.sound]
'NGC.C185_ties' depends on axioms: [propext, Classical.choice, Quot.sound]
'NGC.C185_order' depends on axioms: [propext, Classical.choice, Quot.sound]
'NGC.C185_data' depends on axioms: [propext, Classical.choice, Quot.sound]
'NGC.C185_circle' depends on axioms: [propext, Classical.choice, Quot.sound]
'NGC.C186_reads' depends on axioms: [propext, Classical.choice, Quot.sound]
'NGC.C186_spelling' depends on axioms: [propext, Classical.choice, Quot.sound]
'NGC.C186_round_trip' depends on axioms: [propext, Classical.choice, Quot.sound]
'NGC.C186_from_name' depends on axioms: [propext, Classical.choice, Quot.sound]
'NGC.C186_defaults' depends on axioms: [propext, Classical.choice, Quot.sound]
'NGC.C186_accidentals' depends on axioms: [propext, Classical.choice, Quot.sound]
'NGC.C186_stale' depends on axioms: [propext, Classical.choice, Quot.sound]
'NGC.C187_raises' depends on axioms: [propext, Classical.choice, Quot.sound]
'NGC.C187_read' depends on axioms: [propext, Classical.choice, Quot.sound]
'NGC.C187_agree' depends on axioms: [propext, Classical.choice, Quot.sound]
'NGC.C188_edges' depends on axioms: [propext, Classical.choice, Quot.sound]
'NGC.C188_good_batch' depends on axioms: [propext, Classical.choice, Quot.sound]
'NGC.C188_masking' depends on axioms: [propext, Classical.choice, Quot.sound]
'NGC.C189_name' depends on axioms: [propext, Classical.choice, Quot.sound]
'NGC.C189_accepts' depends on axioms: [propext, Classical.choice, Quot.sound]
'NGC.C189_arguments' depends on axioms: [propext, Classical.choice, Quot.sound]
'NGC.C190_reported' depends on axioms: [propext, Classical.choice, Quot.sound]
'NGC.C190_raises' depends on axioms: [propext, Classical.choice, Quot.sound]
'NGC.C190_false_alarms' depends on axioms: [propext, Classical.choice, Quot.sound]
'NGC.C190_round_trip' depends on axioms: [propext, Classical.choice, Quot.sound]
'NGC.C191_sums' depends on axioms: [propext, Classical.choice, Quot.sound]
'NGC.C191_unlabelled' depends on axioms: [propext, Quot.sound]
'NGC.C191_labels' depends on axioms: [propext, Classical.choice, Quot.sound]
'NGC.C191_labels_are_nodes' depends on axioms: [propext, Classical.choice, Quot.sound]
'NGC.C191_graph_id' depends on axioms: [propext, Quot.sound]
'NGC.C192_between' depends on axioms: [propext, Classical.choice, Quot.sound]
'NGC.C192_even' depends on axioms: [propext, Classical.choice, Quot.sound]
'NGC.C192_close' depends on axioms: [propext, Classical.choice, Quot.sound]
'NGC.C192_raises' depends on axioms: [propext, Classical.choice, Quot.sound]
'NGC.C192_group_width' depends on axioms: [propext, Classical.choice, Quot.sound]
'NGC.C193_at_most_one' depends on axioms: [propext, Classical.choice, Quot.sound]
'NGC.C193_first_held' depends on axioms: [propext, Classical.choice, Quot.sound]
'NGC.C193_resuming_drops' depends on axioms: [propext, Classical.choice, Quot.sound]
'NGC.C193_same_graph' depends on axioms: [propext, Classical.choice, Quot.sound]
'NGC.C193_same_labels' depends on axioms: [propext, Classical.choice, Quot.sound]
'NGC.C193_exceptions' depends on axioms: [propext, Classical.choice, Quot.sound]
'NGC.C193_build_appends' depends on axioms: [propext, Classical.choice, Quot.sound]
'NGC.C193_loop' depends on axioms: [propext, Classical.choice, Quot.sound]
'NGC.C194_never' depends on axioms: [propext, Classical.choice, Quot.sound]
'NGC.C194_first_song' depends on axioms: [propext, Classical.choice, Quot.sound]
'NGC.C194_no_song' depends on axioms: [propext, Classical.choice, Quot.sound]
'NGC.C195_options' depends on axioms: [propext, Classical.choice, Quot.sound]
'NGC.C195_again' depends on axioms: [propext, Classical.choice, Quot.sound]
'NGC.C195_dataset' depends on axioms: [propext, Classical.choice, Quot.sound]
'NGC.C195_past' depends on axioms: [propext, Classical.choice, Quot.sound]
'NGC.C195_first' depends on axioms: [propext, Classical.choice, Quot.sound]
'NGC.C195_lookup' depends on axioms: [propext, Classical.choice, Quot.sound]
'NGC.C196_formula' depends on axioms: [propext, Classical.choice, Quot.sound]
'NGC.C196_order' depends on axioms: [propext, Classical.choice, Quot.sound]
'NGC.C196_degenerate' depends on axioms: [propext, Classical.choice, Quot.sound]
'NGC.C196_example' depends on axioms: [propext, Classical.choice, Quot.sound]
'NGC.C197_exact' depends on axioms: [propext, Classical.choice, Quot.sound]
'NGC.C197_float' depends on axioms: [propext, Classical.choice, Quot.sound]
'NGC.C197_factor_one' depends on axioms: [propext, Classical.choice, Quot.sound]
'NGC.C197_example' depends on axioms: [propext, Classical.choice, Quot.sound]
'NGC.C197_silence' depends on axioms: [propext, Classical.choice, Quot.sound]
'NGC.C198_labels' depends on axioms: [propext, Classical.choice, Quot.sound]
'NGC.C199_never' depends on axioms: [propext, Classical.choice, Quot.sound]
'NGC.C199_names' depends on axioms: [propext, Classical.choice, Quot.sound]
'NGC.C200_ft_mono' depends on axioms: [propext, Classical.choice, Quot.sound]
'NGC.C200_ft_odd' depends on axioms: [propext, Classical.choice, Quot.sound]
'NGC.C200_ft_truncates' depends on axioms: [propext, Classical.choice, Quot.sound]
'NGC.C200_ft_grid' depends on axioms: [propext, Classical.choice, Quot.sound]
'NGC.C200_ft_errors' depends on axioms: [propext, Classical.choice, Quot.sound]
'NGC.C200_ft_defects' depends on axioms: [propext, Classical.choice, Quot.sound]
'NGC.C200_grid_exact' depends on axioms: [propext, Classical.choice, Quot.sound]
'NGC.C200_grid_lost' depends on axioms: [propext, Classical.choice, Quot.sound]
'NGC.C200_grid_errors' depends on axioms: [propext, Classical.choice, Quot.sound]
'NGC.C200_check_passes' depends on axioms: [propext, Classical.choice, Quot.sound]
'NGC.C200_frames' depends on axioms: [propext, Classical.choice, Quot.sound]
'NGC.C200_frames_ok' depends on axioms: [propext, Classical.choice, Quot.sound]
'NGC.C200_frames_grid' depends on axioms: [propext, Classical.choice, Quot.sound]
'NGC.C201_scores' depends on axioms: [propext, Classical.choice, Quot.sound]
'NGC.C201_loss' depends on axioms: [propext, Classical.choice, Quot.sound]
'NGC.C201_perfect' depends on axioms: [propext, Classical.choice, Quot.sound]
'NGC.C201_errors' depends on axioms: [propext, Classical.choice, Quot.sound]
'NGC.C201_precision_defect' depends on axioms: [propext, Classical.choice, Quot.sound]
'NGC.C202_evaluate' depends on axioms: [propext, Quot.sound]
'NGC.C202_first_call' depends on axioms: [propext, Classical.choice, Quot.sound]
'NGC.C202_never_saved' depends on axioms: [propext, Classical.choice, Quot.sound]
'NGC.C202_next_call' depends on axioms: [propext, Classical.choice, Quot.sound]
'NGC.C203_accuracy' depends on axioms: [propext, Classical.choice, Quot.sound]
'NGC.C203_bound' depends on axioms: [propext, Classical.choice, Quot.sound]
'NGC.C203_empty' depends on axioms: [propext, Classical.choice, Quot.sound]
'NGC.C203_epochs' depends on axioms: [propext, Quot.sound]
'NGC.C203_loss' depends on axioms: [propext, Classical.choice, Quot.sound]
'NGC.C204_script' depends on axioms: [propext, Classical.choice, Quot.sound]
'NGC.C204_empty_mask' depends on axioms: [propext, Classical.choice, Quot.sound]
'NGC.C205_attention' depends on axioms: [propext, Classical.choice, Quot.sound]
'NGC.C205_kept' depends on axioms: [propext, Classical.choice, Quot.sound]
'NGC.C205_few' depends on axioms: [propext, Classical.choice, Quot.sound]
'NGC.C205_edges' depends on axioms: [propext, Classical.choice, Quot.sound]
'NGC.C205_ratio' depends on axioms: [propext, Classical.choice, Quot.sound]
'NGC.C206_divergence' depends on axioms: [propext, Classical.choice, Quot.sound]
'NGC.C206_forward' depends on axioms: [propext, Classical.choice, Quot.sound]
'NGC.C206_labels' depends on axioms: [propext, Classical.choice, Quot.sound]
'NGC.C206_best' depends on axioms: [propext, Classical.choice, Quot.sound]
'NGC.C206_ignored' depends on axioms: [propext, Classical.choice, Quot.sound]
'NGC.C207_when' depends on axioms: [propext, Classical.choice, Quot.sound]
'NGC.C207_lines' depends on axioms: [propext, Classical.choice, Quot.sound]
'NGC.C207_autoencoder' depends on axioms: [propext, Classical.choice, Quot.sound]
'NGC.C208_one' depends on axioms: [propext, Classical.choice, Quot.sound]
'NGC.C208_many' depends on axioms: [propext, Classical.choice, Quot.sound]
'NGC.C208_destroys' depends on axioms: [propext, Classical.choice, Quot.sound]
'NGC.C208_read' depends on axioms: [propext, Classical.choice, Quot.sound]
'NGC.C209_average' depends on axioms: [propext, Quot.sound]
