C85_alias : propext, Classical.choice, Quot.sound
C85_limits : propext, Classical.choice, Quot.sound
C85_line : propext, Classical.choice, Quot.sound
C85_resistor : propext, Classical.choice, Quot.sound
C85_sample : propext, Classical.choice, Quot.sound
C14_every_assignment_exactly_once : propext, Classical.choice, Quot.sound
C14_recorded_value_ignored_by_corners : propext, Classical.choice, Quot.sound
C14_run_r_is_corner_r : propext, Classical.choice, Quot.sound
C14_second_analysis_drifts : propext, Classical.choice, Quot.sound
C14_twelve_elements_nothing_simulated : propext, Classical.choice, Quot.sound
C17_one_element_per_run : propext, Classical.choice, Quot.sound
C46_corner : propext, Classical.choice, Quot.sound
C46_other_words : propext, Classical.choice, Quot.sound
C46_read_write : propext, Classical.choice, Quot.sound
C46_rotations : propext, Classical.choice, Quot.sound
C46_write_read : propext, Classical.choice, Quot.sound
C58_empty_value : propext, Classical.choice, Quot.sound
C58_load_save_load : propext, Classical.choice, Quot.sound
C58_nameless : propext, Classical.choice, Quot.sound
C58_ports_lost : propext, Classical.choice, Quot.sound
C58_rotation : propext, Classical.choice, Quot.sound
C58_round_trip : propext, Classical.choice, Quot.sound
C58_same_name : propext, Classical.choice, Quot.sound
C58_settled_eq : propext, Classical.choice, Quot.sound
C58_settled_same : propext
C58_stable : propext, Classical.choice, Quot.sound
C58_text_dropped : propext, Classical.choice, Quot.sound
C58_vertical_text_lost : propext, Classical.choice, Quot.sound
C47_add_command : propext, Classical.choice, Quot.sound
C47_add_other : propext, Classical.choice, Quot.sound
C47_add_refused : propext, Classical.choice, Quot.sound
C47_add_succeeds : propext, Classical.choice, Quot.sound
C47_at_most_one : propext, Classical.choice, Quot.sound
C47_comments : propext, Classical.choice, Quot.sound
C47_empty_directive : propext, Classical.choice, Quot.sound
C47_frame : propext, Classical.choice, Quot.sound
C47_newline : propext, Classical.choice, Quot.sound
C47_position : propext, Quot.sound
C47_remove : propext, Quot.sound
C47_removeX : propext, Classical.choice, Quot.sound
C47_second_line : propext, Classical.choice, Quot.sound
C47_still_saveable : propext, Classical.choice, Quot.sound
C108_accepted : propext, Classical.choice, Quot.sound
C108_params : propext, Classical.choice, Quot.sound
C108_rest : propext, Classical.choice, Quot.sound
C108_session : propext, Classical.choice, Quot.sound
C106_accepted : propext, Classical.choice, Quot.sound
C106_components : propext, Classical.choice, Quot.sound
C106_drawing : propext, Classical.choice, Quot.sound
C106_files : propext, Classical.choice, Quot.sound
C106_frame : propext, Classical.choice, Quot.sound
C106_one_analysis : propext, Classical.choice, Quot.sound
C106_params : propext, Classical.choice, Quot.sound
C106_session : propext, Classical.choice, Quot.sound
C106_texts : propext, Classical.choice, Quot.sound
C106_value : propext, Classical.choice, Quot.sound
C97_applies : propext, Classical.choice, Quot.sound
C97_block : propext, Classical.choice, Quot.sound
C97_cycle : propext, Classical.choice, Quot.sound
C97_is_subcircuit : propext, Classical.choice, Quot.sound
C97_kinds : propext, Classical.choice, Quot.sound
C97_library : propext, Classical.choice, Quot.sound
C97_limits : propext, Classical.choice, Quot.sound
C97_opened : propext, Classical.choice, Quot.sound
C97_opens : propext, Classical.choice, Quot.sound
C97_refused : propext, Classical.choice, Quot.sound
C97_sample : propext, Classical.choice, Quot.sound
C97_symbol : propext, Classical.choice, Quot.sound
C97_symbol_name : propext, Classical.choice, Quot.sound
C78_accepted : propext, Classical.choice, Quot.sound
C78_library : propext, Classical.choice, Quot.sound
C78_library_else : propext, Classical.choice, Quot.sound
C78_model : propext, Classical.choice, Quot.sound
C78_prefix_case : propext, Classical.choice, Quot.sound
C78_read : propext, Classical.choice, Quot.sound
C78_refused : propext, Classical.choice, Quot.sound
C78_sample : propext, Classical.choice, Quot.sound
C78_sample_lookups : propext, Classical.choice, Quot.sound
C78_subcircuit : propext, Classical.choice, Quot.sound
C78_unambiguous : propext, Classical.choice, Quot.sound
C82_accepted_iff : propext, Classical.choice, Quot.sound
C82_called : propext, Classical.choice, Quot.sound
C82_called_in_process : propext, Classical.choice, Quot.sound
C82_default_not_used : propext, Classical.choice, Quot.sound
C82_process_reserved_name : propext, Classical.choice, Quot.sound
C82_process_result : 
C82_refused_before_start : propext
C82_sample : propext, Classical.choice, Quot.sound
C82_starred_parameters : propext, Classical.choice, Quot.sound
C84_active_spared : propext, Classical.choice, Quot.sound
C84_clash_with_a_user_file : propext, Classical.choice, Quot.sound
C84_cleanup_exact : propext, Classical.choice, Quot.sound
C84_empty_name_deletes_the_original : propext, Classical.choice, Quot.sound
C84_given_name_escapes : propext, Classical.choice, Quot.sound
C84_given_names_clash : propext, Classical.choice, Quot.sound
C84_not_the_original : propext, Quot.sound
C84_nothing_left : propext, Classical.choice, Quot.sound
C84_others_untouched : propext, Classical.choice, Quot.sound
C84_placement : propext
C84_raw_of_failed_left : propext, Classical.choice, Quot.sound
C84_run_now_still_running : propext, Classical.choice, Quot.sound
C84_runs_apart : propext, Classical.choice, Quot.sound
C84_sample : propext, Classical.choice, Quot.sound
C84_session_sample : propext, Classical.choice, Quot.sound
C84_stays_in_the_folder : propext, Classical.choice, Quot.sound
C42_fetch : propext, Classical.choice, Quot.sound
C42_keyError_witness : propext
C42_next : propext, Classical.choice, Quot.sound
C42_refused_never_stops : propext, Classical.choice, Quot.sound
C42_stops : propext, Classical.choice, Quot.sound
C42_yields : propext, Classical.choice, Quot.sound
C74_command : propext, Classical.choice, Quot.sound
C74_dash : propext, Classical.choice, Quot.sound
C74_documented_switches : propext, Classical.choice, Quot.sound
C74_empty_argument : propext, Classical.choice, Quot.sound
C74_files : propext, Classical.choice, Quot.sound
C74_fixed : propext, Classical.choice, Quot.sound
C74_own_switches : propext, Classical.choice, Quot.sound
C74_parameters : propext, Classical.choice, Quot.sound
C74_parameters_sample : propext, Classical.choice, Quot.sound
C74_runner_switches : propext, Classical.choice, Quot.sound
C74_sample : propext, Classical.choice, Quot.sound
C74_shared_list : propext, Classical.choice, Quot.sound
C74_switches : propext, Classical.choice, Quot.sound
C74_unknown : propext, Classical.choice, Quot.sound
C74_valid_switch : propext, Classical.choice, Quot.sound
C63_blanks_normalised : propext, Classical.choice, Quot.sound
C63_braces_swallow_params : propext, Classical.choice, Quot.sound
C63_comment_in_param : propext, Classical.choice, Quot.sound
C63_comment_in_value : propext, Classical.choice, Quot.sound
C63_controlled_source_comment : propext, Classical.choice, Quot.sound
C63_flag_is_model : propext, Classical.choice, Quot.sound
C63_last_param_stays : propext, Classical.choice, Quot.sound
C63_lower_case_refused : propext, Classical.choice, Quot.sound
C63_prefix_cuts_value : propext, Classical.choice, Quot.sound
C63_read : propext, Classical.choice, Quot.sound
C63_renamed_marked : propext, Classical.choice, Quot.sound
C63_tab_cuts_value : propext, Classical.choice, Quot.sound
C63_two_lines_unsaved : propext, Classical.choice, Quot.sound
C63_untouched : propext, Classical.choice, Quot.sound
C63_write : propext, Classical.choice, Quot.sound
C63_write_read : propext, Classical.choice, Quot.sound
C63_write_value : propext, Classical.choice, Quot.sound
C35_bypasses : propext, Classical.choice, Quot.sound
C35_component_calls_denied : propext, Classical.choice, Quot.sound
C35_detached_component : propext, Classical.choice, Quot.sound
C35_instructions_denied : propext, Classical.choice, Quot.sound
C35_object_setters_denied : propext, Classical.choice, Quot.sound
C35_set_value_denied : propext, Quot.sound
C35_sub_add_instruction_bypasses : propext, Classical.choice, Quot.sound
C35_sub_removals_denied : propext, Classical.choice, Quot.sound
C55_add_after : propext, Classical.choice, Quot.sound
C55_add_before : propext, Classical.choice, Quot.sound
C55_add_default : propext, Classical.choice, Quot.sound
C55_add_keeps_others : propext, Classical.choice, Quot.sound
C55_add_then_remove : propext, Classical.choice, Quot.sound
C55_existing_not_replaced : propext, Classical.choice, Quot.sound
C55_remove : propext, Classical.choice, Quot.sound
C55_remove_missing : propext, Classical.choice, Quot.sound
C56_cleared_written_as_None : propext, Classical.choice, Quot.sound
C56_recorded : propext, Quot.sound
C56_set_parameters : propext, Classical.choice, Quot.sound
C56_unmentioned : propext
C63_coupling_expression_refused : propext, Classical.choice, Quot.sound
C63_short_blanks_removed : propext, Classical.choice, Quot.sound
C63_short_params_lost : propext, Classical.choice, Quot.sound
C63_short_read : propext, Classical.choice, Quot.sound
C63_short_untouched : propext, Classical.choice, Quot.sound
C63_short_write : propext, Classical.choice, Quot.sound
C87_add_rejects : propext, Classical.choice, Quot.sound
C87_limits : propext, Classical.choice, Quot.sound
C87_loaded : propext, Classical.choice, Quot.sound
C87_remove : propext, Classical.choice, Quot.sound
C87_remove_nothing : propext, Classical.choice, Quot.sound
C87_sample : propext, Classical.choice, Quot.sound
C79_converted : propext, Classical.choice, Quot.sound
C79_divider : propext, Classical.choice, Quot.sound
C79_divider_convertible : propext, Classical.choice, Quot.sound
C79_grid : propext, Classical.choice, Quot.sound
C79_own_symbols : propext, Classical.choice, Quot.sound
C79_symbol_not_found : propext, Classical.choice, Quot.sound
C79_symbol_refused : propext, Classical.choice, Quot.sound
C79_unnamed_nets_are_ground : propext, Classical.choice, Quot.sound
C79_pin_position : propext, Classical.choice, Quot.sound
C103_limit_blank : propext, Classical.choice, Quot.sound
C103_saved : propext, Classical.choice, Quot.sound
C103_untouched : propext, Classical.choice, Quot.sound
C103_values : propext, Classical.choice, Quot.sound
C48_file : propext, Classical.choice, Quot.sound
C48_header_not_read : propext, Classical.choice, Quot.sound
C48_header_read : propext, Classical.choice, Quot.sound
C48_no_equal_raises : propext, Classical.choice, Quot.sound
C48_no_steps : propext, Classical.choice, Quot.sound
C48_plus_sign_mistags : propext, Classical.choice, Quot.sound
C48_step_lost : propext, Classical.choice, Quot.sound
C64_columns : propext, Classical.choice, Quot.sound
C64_last_title_keeps_eol : propext, Classical.choice, Quot.sound
C64_step_word_raises : propext, Classical.choice, Quot.sound
C64_step_word_skipped : propext, Classical.choice, Quot.sound
C111_extremes : propext, Classical.choice, Quot.sound
C111_fast_worst_case : propext, Classical.choice, Quot.sound
C50_ends : propext, Classical.choice, Quot.sound
C50_monotonic_exact : propext, Classical.choice, Quot.sound
C50_raises_when_guess_is_wrong : propext, Classical.choice, Quot.sound
C50_reported_extremes_are_local_optima : propext, Classical.choice, Quot.sound
C50_simulated_value_exceeds_reported_maximum : propext, Classical.choice, Quot.sound
C39_exact : propext, Classical.choice, Quot.sound
C39_kelvin_witness : propext, Classical.choice, Quot.sound
C39_round_trip : propext, Classical.choice, Quot.sound
C39_scan_format : propext, Classical.choice, Quot.sound
C39_zero : propext, Classical.choice, Quot.sound
C40_blank_point_witness : propext, Classical.choice, Quot.sound
C40_blanks : propext, Classical.choice, Quot.sound
C40_inner_R : propext, Classical.choice, Quot.sound
C40_inner_point : propext, Classical.choice, Quot.sound
C40_meg : propext, Classical.choice, Quot.sound
C40_multiplier : propext, Classical.choice, Quot.sound
C40_plain : propext, Classical.choice, Quot.sound
C40_refused : propext, Classical.choice, Quot.sound
C40_scientific : propext, Classical.choice, Quot.sound
C40_small_meg : propext, Classical.choice, Quot.sound
C90_every_analysis_once : propext, Classical.choice, Quot.sound
C90_limits : propext, Classical.choice, Quot.sound
C90_sample : propext, Classical.choice, Quot.sound
C90_stops : propext, Classical.choice, Quot.sound
C90_tables : propext, Classical.choice, Quot.sound
C45_collinear : propext, Classical.choice, Quot.sound
C45_crossing_witness : propext, Classical.choice, Quot.sound
C45_direction_axis : propext, Classical.choice, Quot.sound
C45_direction_exact : propext, Classical.choice, Quot.sound
C45_intercepts_axis : propext, Classical.choice, Quot.sound
C45_intercepts_exact : propext, Classical.choice, Quot.sound
C45_intercepts_symmetric : propext, Classical.choice, Quot.sound
C45_oblique_witness : propext, Classical.choice, Quot.sound
C45_touches_axis : propext, Classical.choice, Quot.sound
C45_touches_exact : propext, Classical.choice, Quot.sound
C59_connections_kept : propext, Classical.choice, Quot.sound
C59_int_keeps_order : propext, Classical.choice, Quot.sound
C59_iopin_witness : propext, Classical.choice, Quot.sound
C59_moved_as_often_as_held : propext, Classical.choice, Quot.sound
C59_scale : propext, Classical.choice, Quot.sound
C33_case_insensitive : propext, Classical.choice, Quot.sound
C33_lines_unchanged : propext, Classical.choice, Quot.sound
C33_missing : propext, Classical.choice, Quot.sound
C33_one_value : propext, Classical.choice, Quot.sound
C33_unparsable_blocks : propext, Classical.choice, Quot.sound
C34_definitions_unchanged : propext, Classical.choice, Quot.sound
C34_history : propext, Classical.choice, Quot.sound
C34_instances_renamed : propext, Classical.choice, Quot.sound
C34_journal : propext, Classical.choice, Quot.sound
C34_numeric_name_unreachable : propext, Classical.choice, Quot.sound
C34_other_instances : propext, Classical.choice, Quot.sound
C34_other_paths : propext, Classical.choice, Quot.sound
C34_read : propext, Classical.choice, Quot.sound
C34_read_your_write : propext, Classical.choice, Quot.sound
C34_renamed_once : propext, Classical.choice, Quot.sound
C35_value_denied : propext, Classical.choice, Quot.sound
C62_include_change : propext, Classical.choice, Quot.sound
C62_include_get : propext, Classical.choice, Quot.sound
C62_include_history : propext, Classical.choice, Quot.sound
C62_include_names : propext, Classical.choice, Quot.sound
C62_include_new : propext, Classical.choice, Quot.sound
C62_include_sample : propext, Classical.choice, Quot.sound
C100_at_once : propext, Classical.choice, Quot.sound
C100_ends : propext, Classical.choice, Quot.sound
C100_gave_up : propext, Classical.choice, Quot.sound
C100_limit_no_timeout : propext, Classical.choice, Quot.sound
C100_limit_run_now_lost : propext, Classical.choice, Quot.sound
C100_sample : propext, Classical.choice, Quot.sound
C100_started : propext, Classical.choice, Quot.sound
C100_state : propext
C88_first_netlist_decides : propext, Classical.choice, Quot.sound
C88_inherited : propext
C88_limits : propext, Classical.choice, Quot.sound
C88_netlist_library : propext, Classical.choice, Quot.sound
C88_opened : propext, Classical.choice, Quot.sound
C88_own_directory_first : propext, Classical.choice, Quot.sound
C88_prepare : propext
C88_program : propext, Classical.choice, Quot.sound
C88_qsch_file : propext, Classical.choice, Quot.sound
C88_sample : propext, Classical.choice, Quot.sound
C88_schematic_library : propext, Classical.choice, Quot.sound
C88_set_custom : propext, Classical.choice, Quot.sound
C88_symbol : propext, Classical.choice, Quot.sound
C88_symbol_sticks : propext, Classical.choice, Quot.sound
C31_bad_bracket_raises : propext, Classical.choice, Quot.sound
C31_comment_line : propext, Quot.sound
C31_continuation : propext, Classical.choice, Quot.sound
C31_continuation_fuses_words : propext, Classical.choice, Quot.sound
C31_empty : 
C31_every_text_has_one_of_these_forms : propext, Quot.sound
C31_last_line : propext, Classical.choice, Quot.sound
C31_line : propext, Classical.choice, Quot.sound
C31_lossless : propext, Quot.sound
C31_trailing_comment : propext, Classical.choice, Quot.sound
C21_ambiguous_raises : propext, Quot.sound
C21_measure_by_conditions : propext, Classical.choice, Quot.sound
C21_no_condition_gives_none : propext
C21_steps_with_conditions : propext, Classical.choice, Quot.sound
C52_aggregates : propext, Classical.choice, Quot.sound
C52_aggregates_raise : propext, Classical.choice, Quot.sound
C53_empty_list_shifts_columns : propext, Quot.sound
C53_export_aligned : propext, Classical.choice, Quot.sound
C53_ragged_steps_refused : propext, Quot.sound
C76_before_steps : propext, Classical.choice, Quot.sound
C76_exponent : propext, Classical.choice, Quot.sound
C76_given_steps : propext, Classical.choice, Quot.sound
C76_harmonic_line : propext, Classical.choice, Quot.sound
C76_log : propext, Classical.choice, Quot.sound
C76_sample : propext, Classical.choice, Quot.sound
C76_warning : propext, Classical.choice, Quot.sound
C76_whole_percent : propext, Classical.choice, Quot.sound
C76_without_tables : propext, Classical.choice, Quot.sound
C20_merge_concatenates : propext, Classical.choice, Quot.sound
C20_merge_modifies_first_log : 
C20_same_log_three_times : 
C48_export_reader_needs_steps : propext, Classical.choice, Quot.sound
C48_fails_iff : propext, Quot.sound
C48_rows_tagged_with_their_step : propext, Quot.sound
C48_titles_once : propext, Quot.sound
C49_aligned : propext, Classical.choice, Quot.sound
C49_given_steps_miscounted : 
C49_qspice_steps : propext, Classical.choice, Quot.sound
C49_step_columns : propext, Classical.choice, Quot.sound
C54_measurement_tables : propext, Classical.choice, Quot.sound
C54_same_name_last_kept : propext, Classical.choice, Quot.sound
C70_already_played : propext, Classical.choice, Quot.sound
C70_normal_range : propext, Classical.choice, Quot.sound
C70_qspice_range : propext, Classical.choice, Quot.sound
C70_recorded_value : propext, Classical.choice, Quot.sound
C70_sample : propext, Classical.choice, Quot.sound
C70_testbench : propext, Classical.choice, Quot.sound
C70_tolerance_text : propext, Classical.choice, Quot.sound
C70_undefined : propext, Classical.choice, Quot.sound
C70_unprepared : propext, Classical.choice, Quot.sound
C70_unprepared_sample : propext, Classical.choice, Quot.sound
C71_after_preparation : propext, Classical.choice, Quot.sound
C71_drawn : propext, Classical.choice, Quot.sound
C71_range : propext, Classical.choice, Quot.sound
C71_run_analysis : propext, Classical.choice, Quot.sound
C71_sample : propext, Classical.choice, Quot.sound
C71_tolerance : propext, Classical.choice, Quot.sound
C32_failed_save_truncates : propext
C32_include_name : propext, Classical.choice, Quot.sound
C32_include_with_end : propext, Classical.choice, Quot.sound
C32_included : propext, Classical.choice, Quot.sound
C32_missing_include : propext, Classical.choice, Quot.sound
C32_quoted_name : propext, Classical.choice, Quot.sound
C32_save : propext, Classical.choice, Quot.sound
C32_save_same : propext, Classical.choice, Quot.sound
C32_endmachine_truncates : propext, Classical.choice, Quot.sound
C32_load : propext, Classical.choice, Quot.sound
C32_load_save : propext, Classical.choice, Quot.sound
C32_load_structure : propext, Classical.choice, Quot.sound
C32_nothing_lost : propext, Classical.choice, Quot.sound
C32_unterminated_include_dropped : propext, Classical.choice, Quot.sound
C32_unterminated_raises : propext, Classical.choice, Quot.sound
C28_add_replaces : propext, Classical.choice, Quot.sound
C28_add_succeeds : propext, Classical.choice, Quot.sound
C28_at_most_one : propext, Classical.choice, Quot.sound
C28_blocked_by_textless : propext, Classical.choice, Quot.sound
C28_leading_newline_escapes : propext, Classical.choice, Quot.sound
C29_add_new : propext, Classical.choice, Quot.sound
C29_add_present : propext, Classical.choice, Quot.sound
C29_add_remove : propext, Classical.choice, Quot.sound
C29_comment_not_removable : propext, Classical.choice, Quot.sound
C29_control_section_breaks_editor : propext, Classical.choice, Quot.sound
C29_removeX : propext, Classical.choice, Quot.sound
C29_remove_first : propext, Classical.choice, Quot.sound
C30_add_after_end : propext, Classical.choice, Quot.sound
C30_add_before_end : propext, Classical.choice, Quot.sound
C30_blank_netlist_loses_line : propext, Classical.choice, Quot.sound
C30_parameter_after_end : propext, Classical.choice, Quot.sound
C30_parameter_becomes_title : propext, Classical.choice, Quot.sound
C30_parameter_before_end : propext, Classical.choice, Quot.sound
C102_limit_blank : propext, Classical.choice, Quot.sound
C102_limit_count : propext, Classical.choice, Quot.sound
C102_limit_list : propext, Classical.choice, Quot.sound
C102_limit_model : propext, Classical.choice, Quot.sound
C102_make : propext, Classical.choice, Quot.sound
C102_param : propext, Classical.choice, Quot.sound
C102_read : propext, Classical.choice, Quot.sound
C102_sample : propext, Classical.choice, Quot.sound
C102_text : propext, Classical.choice, Quot.sound
C95_applies : propext, Classical.choice, Quot.sound
C95_distinct : propext, Classical.choice, Quot.sound
C95_iteration : propext, Quot.sound
C95_iteration_sample : propext, Classical.choice, Quot.sound
C95_limits : propext, Classical.choice, Quot.sound
C95_nodes : propext, Classical.choice, Quot.sound
C95_sample : propext, Classical.choice, Quot.sound
C95_without_text : propext, Classical.choice, Quot.sound
C75_never_ends : propext, Classical.choice, Quot.sound
C75_no_header : propext, Classical.choice, Quot.sound
C75_out_of_order : propext, Classical.choice, Quot.sound
C75_read : propext, Classical.choice, Quot.sound
C75_same_title : propext, Classical.choice, Quot.sound
C75_sample : propext, Classical.choice, Quot.sound
C75_trailing_blank : propext, Classical.choice, Quot.sound
C60_bare_expression_witness : propext, Classical.choice, Quot.sound
C60_comment_witness : propext, Classical.choice, Quot.sound
C60_get : propext, Classical.choice, Quot.sound
C60_history : propext, Classical.choice, Quot.sound
C60_names : propext, Classical.choice, Quot.sound
C60_number_like_never_found : propext, Classical.choice, Quot.sound
C60_number_like_witness : propext, Classical.choice, Quot.sound
C60_qsch_get : propext, Classical.choice, Quot.sound
C60_qsch_history : propext, Classical.choice, Quot.sound
C60_qsch_names : propext, Classical.choice, Quot.sound
C60_qsch_set : propext, Classical.choice, Quot.sound
C60_qsch_unqualified_witness : propext, Classical.choice, Quot.sound
C60_read : propext, Classical.choice, Quot.sound
C60_set : propext, Classical.choice, Quot.sound
C60_set_new : propext, Classical.choice, Quot.sound
C36_blank_before_comma : propext, Classical.choice, Quot.sound
C36_flag_unreadable : propext, Classical.choice, Quot.sound
C36_nested_braces : propext, Classical.choice, Quot.sound
C36_parentheses_split : propext, Classical.choice, Quot.sound
C36_read_all : propext, Classical.choice, Quot.sound
C36_read_order : propext, Classical.choice, Quot.sound
C36_trailing_name_lost : propext, Classical.choice, Quot.sound
C36_type_lost : propext, Classical.choice, Quot.sound
C36_write_read : propext, Classical.choice, Quot.sound
C66_add : propext, Classical.choice, Quot.sound
C66_case : propext, Classical.choice, Quot.sound
C66_get : propext, Classical.choice, Quot.sound
C66_history : propext, Classical.choice, Quot.sound
C66_in_value : propext, Classical.choice, Quot.sound
C66_not_plain : propext, Classical.choice, Quot.sound
C66_pin_first : propext, Classical.choice, Quot.sound
C66_remove : propext, Classical.choice, Quot.sound
C66_remove_component : propext, Classical.choice, Quot.sound
C66_remove_missing : propext, Classical.choice, Quot.sound
C66_removed_is_listed : propext, Classical.choice, Quot.sound
C66_sample : propext, Classical.choice, Quot.sound
C66_set : propext, Classical.choice, Quot.sound
C66_set_value : propext, Classical.choice, Quot.sound
C66_unknown_component : propext, Classical.choice, Quot.sound
C35_asc_bypasses : propext, Classical.choice, Quot.sound
C35_asc_denied : propext, Classical.choice, Quot.sound
C35_parameter_denied : propext, Classical.choice, Quot.sound
C35_qsch_denied : propext, Classical.choice, Quot.sound
C35_sample : propext, Classical.choice, Quot.sound
C67_add_command : propext, Classical.choice, Quot.sound
C67_add_other : propext, Classical.choice, Quot.sound
C67_add_refused : propext, Classical.choice, Quot.sound
C67_first_command_not_saved : propext, Classical.choice, Quot.sound
C67_limits : propext, Classical.choice, Quot.sound
C67_remove : propext, Classical.choice, Quot.sound
C67_removeX : propext, Classical.choice, Quot.sound
C67_sample : propext, Classical.choice, Quot.sound
C112_draws : propext, Classical.choice, Quot.sound
C112_instructions : propext, Classical.choice, Quot.sound
C112_line : propext, Classical.choice, Quot.sound
C112_removed : propext, Classical.choice, Quot.sound
C69_behavioural : propext, Classical.choice, Quot.sound
C69_bjt : propext, Classical.choice, Quot.sound
C69_bjt_substrate : propext, Classical.choice, Quot.sound
C69_block : propext, Classical.choice, Quot.sound
C69_brackets : propext, Classical.choice, Quot.sound
C69_capitals : propext, Classical.choice, Quot.sound
C69_definition : propext, Classical.choice, Quot.sound
C69_device : propext, Classical.choice, Quot.sound
C69_disabled : propext, Classical.choice, Quot.sound
C69_frame : propext, Classical.choice, Quot.sound
C69_jfet : propext, Classical.choice, Quot.sound
C69_layout : propext, Classical.choice, Quot.sound
C69_layout_inside : propext, Classical.choice, Quot.sound
C69_line : propext, Classical.choice, Quot.sound
C69_mos : propext, Classical.choice, Quot.sound
C69_no_brackets : propext
C69_private : propext, Classical.choice, Quot.sound
C69_private_names : propext, Quot.sound
C69_removed_remains : propext, Classical.choice, Quot.sound
C69_renamed_block : propext, Classical.choice, Quot.sound
C69_sample : propext, Classical.choice, Quot.sound
C69_sample_draws : propext, Classical.choice, Quot.sound
C69_sample_verilog : propext, Classical.choice, Quot.sound
C69_substrate_missing : propext, Classical.choice, Quot.sound
C69_times : propext, Classical.choice, Quot.sound
C69_verilog : propext, Classical.choice, Quot.sound
C69_verilog_lost : propext, Classical.choice, Quot.sound
C68_connected : propext, Classical.choice, Quot.sound
C68_floating_alone : propext, Classical.choice, Quot.sound
C68_floating_apart : propext, Classical.choice, Quot.sound
C68_floating_fresh : propext, Classical.choice, Quot.sound
C68_label_collision : propext, Classical.choice, Quot.sound
C68_left_out : propext, Classical.choice, Quot.sound
C68_middle_of_wire : propext, Classical.choice, Quot.sound
C68_one_per_pin : propext, Classical.choice, Quot.sound
C68_same_place : propext, Classical.choice, Quot.sound
C68_sample : propext, Classical.choice, Quot.sound
C109_accepted : propext, Classical.choice, Quot.sound
C109_hex_name : propext, Classical.choice, Quot.sound
C109_in_value : propext, Classical.choice, Quot.sound
C109_params : propext, Classical.choice, Quot.sound
C109_rest : propext, Classical.choice, Quot.sound
C109_session : propext, Classical.choice, Quot.sound
C113_draws : propext, Classical.choice, Quot.sound
C113_line : propext, Classical.choice, Quot.sound
C68_pin_position : propext, Classical.choice, Quot.sound
C107_accepted : propext, Classical.choice, Quot.sound
C107_components : propext, Classical.choice, Quot.sound
C107_files : propext, Classical.choice, Quot.sound
C107_frame : propext, Classical.choice, Quot.sound
C107_marked_instruction : propext, Classical.choice, Quot.sound
C107_one_analysis : propext, Classical.choice, Quot.sound
C107_params : propext, Classical.choice, Quot.sound
C107_session : propext, Classical.choice, Quot.sound
C107_taken_off : propext, Classical.choice, Quot.sound
C107_texts : propext, Classical.choice, Quot.sound
C37_before_child : propext, Classical.choice, Quot.sound
C37_colon_in_text : propext, Classical.choice, Quot.sound
C37_file : propext, Classical.choice, Quot.sound
C37_load_save_load : propext, Classical.choice, Quot.sound
C37_not_stable : propext, Classical.choice, Quot.sound
C37_round_trip : propext, Classical.choice, Quot.sound
C37_two_colons : propext, Classical.choice, Quot.sound
C38_accepted : 
C38_edit_survives_save : propext, Classical.choice, Quot.sound
C38_frame : propext
C38_hex_text : propext, Classical.choice, Quot.sound
C38_quotes_lost : propext, Classical.choice, Quot.sound
C38_set_get_int : propext, Classical.choice, Quot.sound
C38_set_get_pair : propext, Classical.choice, Quot.sound
C38_set_get_str : propext
C38_set_position : propext, Classical.choice, Quot.sound
C38_set_position_enum : propext, Classical.choice, Quot.sound
C77_blank_line : propext, Classical.choice, Quot.sound
C77_kind : propext, Classical.choice, Quot.sound
C77_log : propext, Classical.choice, Quot.sound
C77_meas_file : propext, Classical.choice, Quot.sound
C77_named_step : propext, Classical.choice, Quot.sound
C77_sample : propext, Classical.choice, Quot.sound
C77_short_row : propext, Classical.choice, Quot.sound
C77_step_shared : propext, Classical.choice, Quot.sound
C61_each_once : propext, Classical.choice, Quot.sound
C61_index_error : propext
C61_locked : propext, Classical.choice, Quot.sound
C61_manager_gone : propext, Classical.choice, Quot.sound
C61_missing_is_carried : propext, Classical.choice, Quot.sound
C61_running_reported : propext, Quot.sound
C61_started_meanwhile : propext, Quot.sound
C73_out_of_sequence : propext, Classical.choice, Quot.sound
C73_read : propext, Classical.choice, Quot.sound
C73_same_name : propext, Classical.choice, Quot.sound
C73_sample : propext, Classical.choice, Quot.sound
C73_second_plot_hangs : propext, Classical.choice, Quot.sound
C73_stepped : propext, Quot.sound
C73_truncated : propext, Classical.choice, Quot.sound
C23_axis_chunks : propext, Classical.choice, Quot.sound
C23_axis_partition : propext, Classical.choice, Quot.sound
C23_get_point : propext, Classical.choice, Quot.sound
C23_step_offsets : propext, Classical.choice, Quot.sound
C23_trace_partition : propext, Classical.choice, Quot.sound
C23_unstepped : propext
C26_interpolation_unique : propext, Classical.choice, Quot.sound
C26_point_at : propext, Classical.choice, Quot.sound
C26_position : propext, Classical.choice, Quot.sound
C26_position_outside : propext, Classical.choice, Quot.sound
C27_axis_dunder_len : propext, Classical.choice, Quot.sound
C27_axis_len : propext, Classical.choice, Quot.sound
C27_trace_len : propext, Classical.choice, Quot.sound
C27_trace_len_actual : propext, Classical.choice, Quot.sound
C27_trace_len_wrong : propext
C96_applies : propext, Classical.choice, Quot.sound
C96_found : propext, Classical.choice, Quot.sound
C96_limits : propext, Classical.choice, Quot.sound
C96_output : propext, Classical.choice, Quot.sound
C96_refused : propext, Classical.choice, Quot.sound
C96_sample : propext, Classical.choice, Quot.sound
C96_selection_ignored : propext, Classical.choice, Quot.sound
C81_aligned_step_ignored : propext, Classical.choice, Quot.sound
C81_axis_inside : propext, Classical.choice, Quot.sound
C81_axis_keeps_added : propext, Classical.choice, Quot.sound
C81_axis_keeps_mine : propext, Classical.choice, Quot.sound
C81_axis_points : propext, Classical.choice, Quot.sound
C81_axis_rising : propext, Classical.choice, Quot.sound
C81_curve_unique : propext, Classical.choice, Quot.sound
C81_dense_axis_not_rising : propext, Classical.choice, Quot.sound
C81_first_import : propext, Classical.choice, Quot.sound
C81_interpolation : propext, Classical.choice, Quot.sound
C81_last_point_lost : propext, Classical.choice, Quot.sound
C81_names : propext, Classical.choice, Quot.sound
C81_not_beyond : propext, Classical.choice, Quot.sound
C81_plain_import : propext, Classical.choice, Quot.sound
C81_refused : propext, Classical.choice, Quot.sound
C81_same_length_not_resampled : propext, Classical.choice, Quot.sound
C81_same_trace_twice : propext, Classical.choice, Quot.sound
C81_sample : propext, Classical.choice, Quot.sound
C81_sample_names : propext, Classical.choice, Quot.sound
C81_saved : propext, Classical.choice, Quot.sound
C81_saved_applies : propext, Classical.choice, Quot.sound
C81_single_point_dropped : propext, Classical.choice, Quot.sound
C25_axis_lost : propext, Classical.choice, Quot.sound
C25_get_trace : propext, Classical.choice, Quot.sound
C25_get_trace_any_case : propext, Classical.choice, Quot.sound
C25_history : propext, Classical.choice, Quot.sound
C25_read_exact : propext, Classical.choice, Quot.sound
C25_read_succeeds : propext, Classical.choice, Quot.sound
C25_unknown_name : propext, Quot.sound
C72_aligned : propext, Classical.choice, Quot.sound
C72_csv : propext, Quot.sound
C72_depends_on_history : propext, Classical.choice, Quot.sound
C72_export : propext, Classical.choice, Quot.sound
C72_export_all : propext, Classical.choice, Quot.sound
C72_get_steps : propext, Classical.choice, Quot.sound
C72_last_character_lost : propext, Classical.choice, Quot.sound
C72_ltspice_log : propext, Classical.choice, Quot.sound
C72_no_axis_repeated : propext, Classical.choice, Quot.sound
C72_no_log : propext, Classical.choice, Quot.sound
C72_no_log_unreadable : propext, Classical.choice, Quot.sound
C72_qspice_log : propext, Classical.choice, Quot.sound
C72_sample : propext, Classical.choice, Quot.sound
C72_second_equal_sign : propext, Classical.choice, Quot.sound
C24_ac_needs_plot_name : propext, Classical.choice, Quot.sound
C24_added_traces : propext, Classical.choice, Quot.sound
C24_complex_fastaccess_mixed : propext, Classical.choice, Quot.sound
C24_header_read_back : propext, Classical.choice, Quot.sound
C24_many_plots : propext, Classical.choice, Quot.sound
C24_other_length_refused : propext, Classical.choice, Quot.sound
C24_round_trip : propext, Classical.choice, Quot.sound
C24_single_precision_axis_unreadable : propext, Classical.choice, Quot.sound
C86_copies_apart : 
C86_copy : propext, Classical.choice, Quot.sound
C86_limits : propext, Classical.choice, Quot.sound
C86_rename : propext, Classical.choice, Quot.sound
C86_sample : propext, Classical.choice, Quot.sound
C19_analysis_replays_all : propext, Quot.sound
C19_applied_is_prefix_of_recorded : propext, Quot.sound
C19_late_command_not_applied : 
C19_played_once : propext, Quot.sound
C19_prepared_testbench_applies_deviations : propext
C19_unprepared_testbench_lacks_deviations : propext
C91_added : propext, Classical.choice, Quot.sound
C91_extremes : propext, Classical.choice, Quot.sound
C91_kept : propext, Classical.choice, Quot.sound
C91_limits : propext, Classical.choice, Quot.sound
C91_measurement : propext, Classical.choice, Quot.sound
C91_measurements : propext, Classical.choice, Quot.sound
C91_not_before : propext, Classical.choice, Quot.sound
C91_run_numbers : propext, Classical.choice, Quot.sound
C91_sample : propext, Classical.choice, Quot.sound
C91_steps : propext, Classical.choice, Quot.sound
C91_this_analysis : propext, Classical.choice, Quot.sound
C94_applies : propext, Classical.choice, Quot.sound
C94_equal_axes : propext, Classical.choice, Quot.sound
C94_limits : propext, Classical.choice, Quot.sound
C94_nothing : propext, Classical.choice, Quot.sound
C94_one_run : propext, Classical.choice, Quot.sound
C94_refused : propext, Classical.choice, Quot.sound
C94_sample : propext, Classical.choice, Quot.sound
C94_saved : propext, Classical.choice, Quot.sound
C99_duration : propext, Classical.choice, Quot.sound
C99_durations_differ : propext, Classical.choice, Quot.sound
C99_entry : propext, Classical.choice, Quot.sound
C99_last : propext, Classical.choice, Quot.sound
C99_limit_milliseconds : propext, Classical.choice, Quot.sound
C99_runs : propext, Classical.choice, Quot.sound
C99_sample : propext, Classical.choice, Quot.sound
C110_monte_carlo : propext, Classical.choice, Quot.sound
C110_run_name_witness : propext, Classical.choice, Quot.sound
C110_sensitivity : propext, Classical.choice, Quot.sound
C110_snapshot : propext, Classical.choice, Quot.sound
C110_worst_case : propext, Classical.choice, Quot.sound
C13_callback_arguments : propext
C13_callback_exactly_when : propext, Quot.sound
C13_get_results : propext
C13_limit_nameless : propext
C13_log_renamed_iff_failed : propext
C13_retcode : propext
C13_wait_results_ends_iff : propext, Quot.sound
C13_wait_results_hangs_on_minus_one : propext
C08_file_names_distinct : propext, Classical.choice, Quot.sound
C08_history_files_distinct : propext, Classical.choice, Quot.sound
C08_run_numbers_fresh : propext, Classical.choice, Quot.sound
C08_trailing_dot_collision : 
C09_counters_classify : propext, Classical.choice, Quot.sound
C09_no_task_lost_or_duplicated : propext, Classical.choice, Quot.sound
C09_run_now_timeout_miscounted : propext, Quot.sound
C09_run_only : propext, Classical.choice, Quot.sound
C09_wait_completion : propext, Classical.choice, Quot.sound
C09_wait_timeout_reports_false : propext, Quot.sound
C10_at_most_parallel_sims : propext, Classical.choice, Quot.sound
C10_launch_below_limit : propext, Classical.choice, Quot.sound
C10_run_only : propext, Classical.choice, Quot.sound
C11_delivered_is_filtered_prefix : propext, Classical.choice, Quot.sound
C11_each_delivery : propext, Classical.choice, Quot.sound
C11_run_now_timeout_stops_early : propext, Quot.sound
C11_run_only : propext, Classical.choice, Quot.sound
C11_stop_means_all_delivered : propext, Classical.choice, Quot.sound
C65_case_witness : propext, Classical.choice, Quot.sound
C65_get : propext, Classical.choice, Quot.sound
C65_get_value : propext, Classical.choice, Quot.sound
C65_history : propext, Classical.choice, Quot.sound
C65_last_removed_witness : propext, Classical.choice, Quot.sound
C65_missing_removed_witness : propext, Classical.choice, Quot.sound
C65_no_pairs_witness : propext, Classical.choice, Quot.sound
C65_no_value : propext, Classical.choice, Quot.sound
C65_none_stored_witness : propext, Classical.choice, Quot.sound
C65_remove_component : propext, Classical.choice, Quot.sound
C65_rest_lost_witness : propext, Classical.choice, Quot.sound
C65_set : propext, Classical.choice, Quot.sound
C65_set_attribute : propext, Classical.choice, Quot.sound
C65_set_value : propext, Classical.choice, Quot.sound
C65_unknown_component : propext, Classical.choice, Quot.sound
C65_value2_witness : propext, Classical.choice, Quot.sound
C43_answer_reads_file : propext, Quot.sound
C43_first_admissible : propext, Quot.sound
C43_one_char : propext, Quot.sound
C43_one_char_witness : propext, Quot.sound
C43_raises_iff_none : propext, Quot.sound
C43_utf8_preferred : propext, Quot.sound
C44_first_container : propext, Quot.sound
C44_nearest_first : propext, Quot.sound
C44_none_iff : propext, Quot.sound
C44_zip_witness : propext, Classical.choice, Quot.sound
C41_at_most_once : propext, Classical.choice, Quot.sound
C41_close_erases : propext, Classical.choice, Quot.sound
C41_get : propext, Classical.choice, Quot.sound
C41_orphan_witness : 
C41_others_have_no_effect : propext, Classical.choice, Quot.sound
C41_run_numbers : propext, Classical.choice, Quot.sound
C41_status : propext, Classical.choice, Quot.sound
C41_unknown_session : propext, Classical.choice, Quot.sound
C101_changes : propext, Classical.choice, Quot.sound
C101_circuit : propext, Classical.choice, Quot.sound
C101_close : propext, Classical.choice, Quot.sound
C101_isolated : propext, Classical.choice, Quot.sound
C101_limit_archive : propext, Classical.choice, Quot.sound
C101_limit_dot : propext, Classical.choice, Quot.sound
C101_limit_left : propext, Classical.choice, Quot.sound
C101_limit_shared : propext, Classical.choice, Quot.sound
C101_limit_stop : propext, Classical.choice, Quot.sound
C101_results : propext, Classical.choice, Quot.sound
C101_sample : propext, Classical.choice, Quot.sound
C101_sources_stay : propext, Classical.choice, Quot.sound
C101_upload : propext, Classical.choice, Quot.sound
C101_what_is_there : propext, Classical.choice, Quot.sound
C105_added : propext, Classical.choice, Quot.sound
C105_directives : propext, Classical.choice, Quot.sound
C105_instruct : propext, Classical.choice, Quot.sound
C105_limit_duplicate : propext, Classical.choice, Quot.sound
C105_one_analysis : propext, Classical.choice, Quot.sound
C105_removed : propext, Classical.choice, Quot.sound
C105_session : propext, Classical.choice, Quot.sound
C105_twice : propext, Classical.choice, Quot.sound
C105_undo_component : propext, Classical.choice, Quot.sound
C105_undo_directive : propext, Classical.choice, Quot.sound
C89_all_or_nothing : propext, Classical.choice, Quot.sound
C89_command : propext, Classical.choice, Quot.sound
C89_libraries : propext, Classical.choice, Quot.sound
C89_not_found : propext, Classical.choice, Quot.sound
C89_path : propext, Classical.choice, Quot.sound
C89_same_class : propext, Classical.choice, Quot.sound
C89_sample : propext, Classical.choice, Quot.sound
C89_sections : propext, Classical.choice, Quot.sound
C89_wine_libraries : propext, Classical.choice, Quot.sound
C62_denied : propext, Classical.choice, Quot.sound
C62_empty_value_witness : propext, Classical.choice, Quot.sound
C62_get : propext, Classical.choice, Quot.sound
C62_history : propext, Classical.choice, Quot.sound
C62_names : propext, Classical.choice, Quot.sound
C62_names_control_witness : propext, Classical.choice, Quot.sound
C62_remove : propext, Classical.choice, Quot.sound
C62_remove_first_witness : propext, Classical.choice, Quot.sound
C62_remove_missing_witness : propext, Classical.choice, Quot.sound
C62_remove_suffix_witness : propext, Classical.choice, Quot.sound
C62_remove_unit_witness : propext, Classical.choice, Quot.sound
C62_set : propext, Classical.choice, Quot.sound
C62_set_new : propext, Classical.choice, Quot.sound
C22_comma_after_group_adds_missing : propext, Classical.choice, Quot.sound
C22_fuel_irrelevant : propext, Classical.choice, Quot.sound
C22_lossless : propext, Classical.choice, Quot.sound
C22_split_is_the_grammar : propext, Classical.choice, Quot.sound
C22_text_before_bracket_raises : propext, Classical.choice, Quot.sound
C22_texts_are_atomic : propext, Classical.choice, Quot.sound
C22_unclosed_raises : propext, Classical.choice, Quot.sound
C93_limits : propext, Classical.choice, Quot.sound
C93_refused : propext, Classical.choice, Quot.sound
C93_sample : propext, Classical.choice, Quot.sound
C93_table : propext, Classical.choice, Quot.sound
C05_every_combination_once : propext, Classical.choice, Quot.sound
C05_generator_sweep_truncated : propext
C05_launch_values : propext, Classical.choice, Quot.sound
C05_no_sweeps_one_run : propext
C05_run_all_product : propext, Classical.choice, Quot.sound
C05_shared_sweep_object_never_ends : propext, Quot.sound
C05_sim_info : propext, Quot.sound
C06_empty_sweep_mismatch : propext
C06_total_and_launches : propext, Classical.choice, Quot.sound
C06_total_matches_run_all : propext, Classical.choice, Quot.sound
C80_file_name : propext, Classical.choice, Quot.sound
C80_included_library_first : propext, Classical.choice, Quot.sound
C80_library_found : propext, Classical.choice, Quot.sound
C80_library_nothing : propext, Classical.choice, Quot.sound
C80_library_sound : propext, Classical.choice, Quot.sound
C80_name : propext, Classical.choice, Quot.sound
C80_name_after_comments : propext, Classical.choice, Quot.sound
C80_netlist_first : propext, Classical.choice, Quot.sound
C80_netlist_limits : propext, Classical.choice, Quot.sound
C80_not_closed : propext, Classical.choice, Quot.sound
C80_order : propext, Classical.choice, Quot.sound
C80_own_definition : propext, Classical.choice, Quot.sound
C80_quoted : propext, Classical.choice, Quot.sound
C80_sample : propext, Classical.choice, Quot.sound
C80_sample_parts : propext, Classical.choice, Quot.sound
C80_wrong_definition : propext, Classical.choice, Quot.sound
C29_sub_add : propext, Classical.choice, Quot.sound
C29_sub_removeX : propext, Classical.choice, Quot.sound
C29_sub_remove_first : propext, Classical.choice, Quot.sound
C01_sweep_exact : propext, Classical.choice, Quot.sound
C01_sweep_membership : propext, Classical.choice, Quot.sound
C01_sweep_one_argument : propext, Quot.sound
C01_sweep_rejects_zero_step : propext, Quot.sound
C01_sweep_restart : propext, Classical.choice, Quot.sound
C02_sweep_n_count_and_ends : propext, Classical.choice, Quot.sound
C02_sweep_n_points : propext, Classical.choice, Quot.sound
C02_sweep_n_rejects : propext, Classical.choice, Quot.sound
C02_zero_points_yields_two : propext, Classical.choice, Quot.sound
C03_ends_iff : propext, Classical.choice, Quot.sound
C03_equal_bounds_yield_nothing : propext, Classical.choice, Quot.sound
C03_nonpositive_start_diverges : propext, Classical.choice, Quot.sound
C03_sweep_log_exact : propext, Classical.choice, Quot.sound
C03_sweep_log_one_argument : propext, Classical.choice, Quot.sound
C03_sweep_log_rejects : propext, Classical.choice, Quot.sound
C03_sweep_log_restart : propext, Classical.choice, Quot.sound
C04_sweep_log_n_count_and_ends : propext, Classical.choice, Quot.sound
C04_sweep_log_n_points : propext, Classical.choice, Quot.sound
C04_sweep_log_n_restart : propext, Classical.choice, Quot.sound
C104_files : propext, Classical.choice, Quot.sound
C104_snapshot : propext, Classical.choice, Quot.sound
C15_binary_is_the_bit : propext, Classical.choice, Quot.sound
C15_testbench_corners : propext, Classical.choice, Quot.sound
C15_testbench_mirrors_analysis : propext, Classical.choice, Quot.sound
C16_mean_over_pairs : propext, Classical.choice, Quot.sound
C16_pairs_partition_runs : propext, Classical.choice, Quot.sound
C18_batches_partition : propext, Classical.choice, Quot.sound
C18_exceeds_requested_maximum : 
C18_no_orphan : propext, Classical.choice, Quot.sound
C51_quick_percentages : propext, Classical.choice, Quot.sound
C51_worst_case_no_difference_raises : propext, Classical.choice, Quot.sound
C51_worst_case_percentages : propext, Classical.choice, Quot.sound
C92_arithmetic : propext, Classical.choice, Quot.sound
C92_equal : propext, Classical.choice, Quot.sound
C92_from_number : propext, Classical.choice, Quot.sound
C92_from_text : propext, Classical.choice, Quot.sound
C92_limits : propext, Classical.choice, Quot.sound
C92_printed : propext, Classical.choice, Quot.sound
C92_read_back : propext, Classical.choice, Quot.sound
C92_sample : propext, Classical.choice, Quot.sound
C92_to_float : propext, Classical.choice, Quot.sound
C92_values_fixed : propext, Classical.choice, Quot.sound
C07_edit_is_local : propext, Quot.sound
C07_every_edit_recorded : propext, Classical.choice, Quot.sound
C07_journal_is_last_write_wins : propext, Classical.choice, Quot.sound
C07_no_duplicate_records : propext, Quot.sound
C07_parameter_lookup : propext, Classical.choice, Quot.sound
C07_parameter_lookup_stale : 
C07_updates_on : propext, Classical.choice, Quot.sound
C07_value_lookup : propext, Classical.choice, Quot.sound
C12_filter_kinds : propext, Quot.sound
C98_applies : propext, Classical.choice, Quot.sound
C98_cartesian : propext, Classical.choice, Quot.sound
C98_convert : propext, Classical.choice, Quot.sound
C98_decibel : propext, Classical.choice, Quot.sound
C98_form : propext, Classical.choice, Quot.sound
C98_int : propext, Classical.choice, Quot.sound
C98_limits : propext, Classical.choice, Quot.sound
C98_polar : propext, Classical.choice, Quot.sound
C98_sample : propext, Classical.choice, Quot.sound
C98_turns : propext, Classical.choice, Quot.sound
C98_unit : propext, Classical.choice, Quot.sound
C83_abort_stops_nothing : propext, Classical.choice, Quot.sound
C83_answer : propext, Classical.choice, Quot.sound
C83_earlier_failure : propext, Classical.choice, Quot.sound
C83_ends : propext, Classical.choice, Quot.sound
C83_exact : propext, Classical.choice, Quot.sound
C83_false_although_all_succeeded : propext, Classical.choice, Quot.sound
C83_sample : propext, Classical.choice, Quot.sound
C83_timeout_ends : propext, Classical.choice, Quot.sound
C83_timeout_not_restarted : propext, Classical.choice, Quot.sound
C83_true : propext, Classical.choice, Quot.sound
