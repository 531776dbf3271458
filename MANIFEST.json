{
 "claims": [
  {
   "property": "C01",
   "status": "proved",
   "theorems": [
    "Props.Sweep.C01_sweep_exact",
    "Props.Sweep.C01_sweep_membership",
    "Props.Sweep.C01_sweep_one_argument",
    "Props.Sweep.C01_sweep_rejects_zero_step",
    "Props.Sweep.C01_sweep_restart"
   ],
   "note": "Exact rational arithmetic (floats as Q)."
  },
  {
   "property": "C02",
   "status": "proved",
   "theorems": [
    "Props.Sweep.C02_sweep_n_points",
    "Props.Sweep.C02_sweep_n_count_and_ends",
    "Props.Sweep.C02_sweep_n_rejects",
    "Props.Sweep.C02_zero_points_yields_two"
   ],
   "note": "Exact rational arithmetic; the N=0 case is a documented disagreement (two points are produced) proved as a witness."
  },
  {
   "property": "C03",
   "status": "proved",
   "theorems": [
    "Props.Sweep.C03_sweep_log_exact",
    "Props.Sweep.C03_equal_bounds_yield_nothing",
    "Props.Sweep.C03_nonpositive_start_diverges",
    "Props.Sweep.C03_ends_iff",
    "Props.Sweep.C03_sweep_log_one_argument",
    "Props.Sweep.C03_sweep_log_rejects",
    "Props.Sweep.C03_sweep_log_restart"
   ],
   "note": "Grid exact for 0<start; missing: start==stop yields nothing and a non-positive start never ends (both proved as counter-examples of the unchanged code)."
  },
  {
   "property": "C04",
   "status": "proved",
   "theorems": [
    "Props.Sweep.C04_sweep_log_n_points",
    "Props.Sweep.C04_sweep_log_n_count_and_ends",
    "Props.Sweep.C04_sweep_log_n_restart"
   ],
   "note": "The ratio r is any rational whose (N-1)-th power is stop/start (the code computes a float root)."
  },
  {
   "property": "C05",
   "status": "proved",
   "theorems": [
    "Props.Stepper.C05_run_all_product",
    "Props.Stepper.C05_launch_values",
    "Props.Stepper.C05_every_combination_once",
    "Props.Stepper.C05_no_sweeps_one_run",
    "Props.Stepper.C05_sim_info",
    "Props.Stepper.C05_shared_sweep_object_never_ends",
    "Props.Stepper.C05_generator_sweep_truncated"
   ],
   "note": "Holds for re-iterable unshared sweeps; shared sweep objects and generators are proved counter-examples."
  },
  {
   "property": "C06",
   "status": "proved",
   "theorems": [
    "Props.Stepper.C06_total_and_launches",
    "Props.Stepper.C06_total_matches_run_all",
    "Props.Stepper.C06_empty_sweep_mismatch"
   ],
   "note": "Holds when no sweep is empty; counter-example proved for an empty sweep."
  },
  {
   "property": "C07",
   "status": "proved",
   "theorems": [
    "Props.Updates.C07_no_duplicate_records",
    "Props.Updates.C07_journal_is_last_write_wins",
    "Props.Updates.C07_every_edit_recorded",
    "Props.Updates.C07_edit_is_local",
    "Props.Updates.C07_updates_on",
    "Props.Updates.C07_value_lookup",
    "Props.Updates.C07_parameter_lookup",
    "Props.Updates.C07_parameter_lookup_stale"
   ],
   "note": "Journal is an ordered last-write-wins map for every edit sequence; value(ref) exact; parameter(name) is stale on the unchanged code when a parameter was added and later updated (proved witness), exact otherwise."
  },
  {
   "property": "C08",
   "status": "proved",
   "theorems": [
    "Props.Runner.C08_run_numbers_fresh",
    "Props.Runner.C08_file_names_distinct",
    "Props.Runner.C08_history_files_distinct",
    "Props.Runner.C08_trailing_dot_collision"
   ],
   "note": "Run numbers fresh in every schedule; default file (and log) names distinct unless a circuit name ends in a dot (proved collision). File system itself not modelled."
  },
  {
   "property": "C09",
   "status": "proved",
   "theorems": [
    "Props.Runner.C09_no_task_lost_or_duplicated",
    "Props.Runner.C09_counters_classify",
    "Props.Runner.C09_wait_completion",
    "Props.Runner.C09_wait_timeout_reports_false",
    "Props.Runner.C09_run_only",
    "Props.Runner.C09_run_now_timeout_miscounted"
   ],
   "note": "Placement and count hold in every schedule; the ok/fail classification and wait_completion hold unless run_now gives up on a running simulation (proved witness)."
  },
  {
   "property": "C10",
   "status": "proved",
   "theorems": [
    "Props.Runner.C10_launch_below_limit",
    "Props.Runner.C10_at_most_parallel_sims",
    "Props.Runner.C10_run_only"
   ],
   "note": "Full for clients that only use run (C10_run_only); with run_now: all schedules of the single-client state machine in which run_now does not give up on a running task."
  },
  {
   "property": "C11",
   "status": "proved",
   "theorems": [
    "Props.Runner.C11_delivered_is_filtered_prefix",
    "Props.Runner.C11_stop_means_all_delivered",
    "Props.Runner.C11_each_delivery",
    "Props.Runner.C11_run_only",
    "Props.Runner.C11_run_now_timeout_stops_early"
   ],
   "note": "Full for clients that only use run (C11_run_only); with run_now: all schedules of the single-client state machine in which run_now does not give up on a running task; conditions as an arbitrary predicate (C12 describes the actual one)."
  },
  {
   "property": "C12",
   "status": "proved",
   "theorems": [
    "Props.Updates.C12_match_iff_all_conditions_recorded",
    "Props.Updates.C12_filter_kinds",
    "Props.Updates.C12_match_on_last_component_value"
   ],
   "note": ""
  },
  {
   "property": "C13",
   "status": "proved",
   "theorems": [
    "Props.RunTask.C13_retcode",
    "Props.RunTask.C13_callback_exactly_when",
    "Props.RunTask.C13_callback_arguments",
    "Props.RunTask.C13_log_renamed_iff_failed",
    "Props.RunTask.C13_get_results",
    "Props.RunTask.C13_wait_results_ends_iff",
    "Props.RunTask.C13_wait_results_hangs_on_minus_one",
    "Props.RunTask.C13_limit_nameless"
   ],
   "note": "All simulator outcomes; wait_results additionally never returns for return code -1 (proved)."
  },
  {
   "property": "C14",
   "status": "proved",
   "theorems": [
    "Props.Analysis.C14_run_r_is_corner_r",
    "Props.Analysis.C14_every_assignment_exactly_once",
    "Props.Analysis.C14_twelve_elements_nothing_simulated",
    "Props.Analysis.C14_recorded_value_ignored_by_corners",
    "Props.Analysis.C14_second_analysis_drifts"
   ],
   "note": "Every corner exactly once for up to 11 elements, all values; assumes the values in memory are those of the replayed netlist when the analysis starts: proved counter-examples for a recorded value change and for a second analysis. From 12 elements nothing is simulated (proved)."
  },
  {
   "property": "C15",
   "status": "proved",
   "theorems": [
    "Props.Testbench.C15_binary_is_the_bit",
    "Props.Testbench.C15_testbench_corners",
    "Props.Testbench.C15_testbench_mirrors_analysis"
   ],
   "note": "Selector, nominal run -1, corners of the emitted expressions, mirror with the analysis numbering. Expressions given their arithmetic meaning; %g formatting not modelled."
  },
  {
   "property": "C16",
   "status": "proved",
   "theorems": [
    "Props.Testbench.C16_pairs_partition_runs",
    "Props.Testbench.C16_mean_over_pairs"
   ],
   "note": ""
  },
  {
   "property": "C17",
   "status": "proved",
   "theorems": [
    "Props.Analysis.C17_one_element_per_run"
   ],
   "note": "As C14: assumes the values in memory are those of the replayed netlist when the analysis starts."
  },
  {
   "property": "C18",
   "status": "proved",
   "theorems": [
    "Props.Testbench.C18_batches_partition",
    "Props.Testbench.C18_no_orphan",
    "Props.Testbench.C18_exceeds_requested_maximum"
   ],
   "note": "Partition, order, no orphan; also shown: batches can exceed runs_per_sim."
  },
  {
   "property": "C19",
   "status": "proved",
   "theorems": [
    "Props.Replay.C19_applied_is_prefix_of_recorded",
    "Props.Replay.C19_analysis_replays_all",
    "Props.Replay.C19_played_once",
    "Props.Replay.C19_late_command_not_applied",
    "Props.Replay.C19_unprepared_testbench_lacks_deviations",
    "Props.Replay.C19_prepared_testbench_applies_deviations"
   ],
   "note": "run_analysis always replays everything once in order; a command recorded after a save is not in the next save, and an unprepared testbench never gets the component expressions (both proved about the unchanged code)."
  },
  {
   "property": "C20",
   "status": "proved",
   "theorems": [
    "Props.LogMerge.C20_merge_concatenates",
    "Props.LogMerge.C20_same_log_three_times",
    "Props.LogMerge.C20_merge_modifies_first_log"
   ],
   "note": "For separately read logs (what read_logfiles does); adding the same log object repeatedly is a proved counter-example."
  },
  {
   "property": "C21",
   "status": "proved",
   "theorems": [
    "Props.LogData.C21_steps_with_conditions",
    "Props.LogData.C21_no_condition_gives_none",
    "Props.LogData.C21_ambiguous_raises",
    "Props.LogData.C21_measure_by_conditions"
   ],
   "note": "Letter case modelled for ASCII. Without any condition the call returns None (proved)."
  },
  {
   "property": "C22",
   "status": "proved",
   "theorems": [
    "Props.SplitLine.C22_split_is_the_grammar",
    "Props.SplitLine.C22_fuel_irrelevant",
    "Props.SplitLine.C22_lossless",
    "Props.SplitLine.C22_texts_are_atomic",
    "Props.SplitLine.C22_unclosed_raises",
    "Props.SplitLine.C22_text_before_bracket_raises",
    "Props.SplitLine.C22_comma_after_group_adds_missing"
   ],
   "note": "The accepted lines are exactly those of a grammar with nesting; the property as first stated is corrected: an unmatched closing bracket does not raise, text directly before a bracket does (proved)."
  },
  {
   "property": "C23",
   "status": "proved",
   "theorems": [
    "Props.RawClasses.C23_step_offsets",
    "Props.RawClasses.C23_axis_partition",
    "Props.RawClasses.C23_trace_partition",
    "Props.RawClasses.C23_axis_chunks",
    "Props.RawClasses.C23_unstepped",
    "Props.RawClasses.C23_get_point"
   ],
   "note": "Axis data with the step starts found by the code; unstepped data too."
  },
  {
   "property": "C24",
   "status": "proved",
   "theorems": [
    "Props.RawWrite.C24_header_read_back",
    "Props.RawWrite.C24_round_trip",
    "Props.RawWrite.C24_many_plots",
    "Props.RawWrite.C24_added_traces",
    "Props.RawWrite.C24_other_length_refused",
    "Props.RawWrite.C24_complex_fastaccess_mixed",
    "Props.RawWrite.C24_single_precision_axis_unreadable",
    "Props.RawWrite.C24_ac_needs_plot_name"
   ],
   "note": "Bytes level, both encodings and layouts, several plots in one file. Conditions Compatible: the pair (data kind, layout) is one the header can express; proved counter-examples for complex fast access with mixed widths, single precision axis, and AC data without a plot name. Sample words are opaque (numpy packing not modelled)."
  },
  {
   "property": "C25",
   "status": "proved",
   "theorems": [
    "Props.RawRead.C25_read_exact",
    "Props.RawRead.C25_read_succeeds",
    "Props.RawRead.C25_history",
    "Props.RawRead.C25_get_trace",
    "Props.RawRead.C25_get_trace_any_case",
    "Props.RawRead.C25_unknown_name",
    "Props.RawRead.C25_axis_lost"
   ],
   "note": "All subsets, both layouts. Reading the axis a second time replaces the Axis object, after which get_axis fails (proved)."
  },
  {
   "property": "C26",
   "status": "proved",
   "theorems": [
    "Props.RawClasses.C26_position",
    "Props.RawClasses.C26_position_outside",
    "Props.RawClasses.C26_point_at",
    "Props.RawClasses.C26_interpolation_unique"
   ],
   "note": "Exact rational arithmetic, strictly increasing axis."
  },
  {
   "property": "C27",
   "status": "proved",
   "theorems": [
    "Props.RawClasses.C27_axis_len",
    "Props.RawClasses.C27_axis_dunder_len",
    "Props.RawClasses.C27_trace_len",
    "Props.RawClasses.C27_trace_len_actual",
    "Props.RawClasses.C27_trace_len_wrong"
   ],
   "note": "Proved for the axis; for traces only step 0: get_len(step) of a trace counts all points up to the end of that step (proved)."
  },
  {
   "property": "C28",
   "status": "proved",
   "theorems": [
    "Props.Netlist.C28_at_most_one",
    "Props.Netlist.C28_add_replaces",
    "Props.Netlist.C28_add_succeeds",
    "Props.Netlist.C28_leading_newline_escapes",
    "Props.Netlist.C28_blocked_by_textless"
   ],
   "note": "Histories of add/remove/removeX of any length. Findings (proved): an instruction given with a leading line break escapes the rule; objects without text make add_instruction raise. upper() is modelled for ASCII and the letters of the prefix table."
  },
  {
   "property": "C29",
   "status": "proved",
   "theorems": [
    "Props.Netlist.C29_add_present",
    "Props.Netlist.C29_add_new",
    "Props.Netlist.C29_add_remove",
    "Props.Netlist.C29_remove_first",
    "Props.Netlist.C29_removeX",
    "Props.Netlist.C29_comment_not_removable",
    "Props.Netlist.C29_control_section_breaks_editor",
    "Props.SubInstr.C29_sub_remove_first",
    "Props.SubInstr.C29_sub_removeX",
    "Props.SubInstr.C29_sub_add"
   ],
   "note": "Holds for directives, component lines and includes; comments cannot be removed again and .control sections break the editor (both proved)."
  },
  {
   "property": "C30",
   "status": "proved",
   "theorems": [
    "Props.Netlist.C30_add_before_end",
    "Props.Netlist.C30_add_after_end",
    "Props.Netlist.C30_parameter_before_end",
    "Props.Netlist.C30_parameter_after_end",
    "Props.Netlist.C30_parameter_becomes_title",
    "Props.Netlist.C30_blank_netlist_loses_line"
   ],
   "note": "The partial theorems state exactly when the added line precedes .END; the other cases are proved counter-examples (lines after .END, tiny and blank netlists)."
  },
  {
   "property": "C31",
   "status": "proved",
   "theorems": [
    "Props.Lines.C31_line",
    "Props.Lines.C31_continuation",
    "Props.Lines.C31_continuation_fuses_words",
    "Props.Lines.C31_comment_line",
    "Props.Lines.C31_trailing_comment",
    "Props.Lines.C31_bad_bracket_raises",
    "Props.Lines.C31_last_line",
    "Props.Lines.C31_empty",
    "Props.Lines.C31_every_text_has_one_of_these_forms",
    "Props.Lines.C31_lossless"
   ],
   "note": "The equations determine the result for every text without carriage returns. Not true of the code: unclosed brackets or quotes do not raise (C31_last_line_partial holds for them too), and joined words are fused (proved)."
  },
  {
   "property": "C32",
   "status": "proved",
   "theorems": [
    "Props.NetSave.C32_include_name",
    "Props.NetSave.C32_save",
    "Props.NetSave.C32_included",
    "Props.NetSave.C32_save_same",
    "Props.NetSave.C32_include_with_end",
    "Props.NetSave.C32_missing_include",
    "Props.NetSave.C32_failed_save_truncates",
    "Props.NetSave.C32_quoted_name",
    "Props.NetTree.C32_load_structure",
    "Props.NetTree.C32_load",
    "Props.NetTree.C32_endmachine_truncates",
    "Props.NetTree.C32_unterminated_raises",
    "Props.NetTree.C32_unterminated_include_dropped",
    "Props.NetTree.C32_nothing_lost",
    "Props.NetTree.C32_load_save"
   ],
   "note": "Any nesting depth of blocks and of includes. The text written for an untouched component comes from the real matcher and rewriter (Model.CompLine). Finding and decoding a library is a parameter. Limits in the statement are theorems: C32_unterminated_include_dropped, C32_endmachine_truncates, C32_include_with_end, C32_failed_save_truncates, C32_quoted_name."
  },
  {
   "property": "C33",
   "status": "proved",
   "theorems": [
    "Props.Hier.C33_case_insensitive",
    "Props.Hier.C33_missing",
    "Props.Hier.C33_lines_unchanged",
    "Props.Hier.C33_one_value",
    "Props.Hier.C33_unparsable_blocks"
   ],
   "note": "For set_component_value / get_component_value with textual values. A line no pattern matches makes every later reference unreachable (C33_unparsable_blocks), such references count as missing. Formatting of numeric values and library files are not modelled."
  },
  {
   "property": "C34",
   "status": "proved",
   "theorems": [
    "Props.Hier.C34_read",
    "Props.Hier.C34_read_your_write",
    "Props.Hier.C34_other_paths",
    "Props.Hier.C34_other_instances",
    "Props.Hier.C34_definitions_unchanged",
    "Props.Hier.C34_history",
    "Props.Hier.C34_instances_renamed",
    "Props.Hier.C34_renamed_once",
    "Props.Hier.C34_journal",
    "Props.Hier.C34_numeric_name_unreachable"
   ],
   "note": "Any hierarchy depth and any history of get/set_component_value. What is seen is defined by an independent reading of the hierarchy (Spec/Hier.lean). An instance given a value itself drops its private copy; a sub-circuit whose name reads as a number cannot be entered (proved)."
  },
  {
   "property": "C35",
   "status": "proved",
   "theorems": [
    "Props.CompOps.C35_component_calls_denied",
    "Props.CompOps.C35_set_value_denied",
    "Props.CompOps.C35_object_setters_denied",
    "Props.CompOps.C35_instructions_denied",
    "Props.CompOps.C35_sub_removals_denied",
    "Props.CompOps.C35_bypasses",
    "Props.CompOps.C35_sub_add_instruction_bypasses",
    "Props.CompOps.C35_detached_component",
    "Props.Hier.C35_value_denied",
    "Props.QInstr.C35_qsch_denied",
    "Props.QInstr.C35_parameter_denied",
    "Props.QInstr.C35_asc_denied",
    "Props.QInstr.C35_asc_bypasses",
    "Props.QInstr.C35_sample"
   ],
   "note": "Every editing call of the three editors that was modelled: either it raises without a change, or it is listed among the limits with a witness. Not modelled: set_component_position, add_component of schematics and scale, which do not ask for permission either."
  },
  {
   "property": "C36",
   "status": "proved",
   "theorems": [
    "Props.Params.C36_read_all",
    "Props.Params.C36_read_order",
    "Props.Params.C36_write_read",
    "Props.Params.C36_blank_before_comma",
    "Props.Params.C36_nested_braces",
    "Props.Params.C36_parentheses_split",
    "Props.Params.C36_trailing_name_lost",
    "Props.Params.C36_flag_unreadable",
    "Props.Params.C36_type_lost"
   ],
   "note": "For every list in a grammar with quotes and braces (any blanks); writing then reading gives the same dictionary. Not true of parentheses, nested braces, a blank before a comma, flags (noiseless) and types (all proved). Conversion of tokens to numbers and back is not modelled."
  },
  {
   "property": "C37",
   "status": "proved",
   "theorems": [
    "Props.Qsch.C37_round_trip",
    "Props.Qsch.C37_file",
    "Props.Qsch.C37_load_save_load",
    "Props.Qsch.C37_two_colons",
    "Props.Qsch.C37_colon_in_text",
    "Props.Qsch.C37_before_child",
    "Props.Qsch.C37_not_stable"
   ],
   "note": "Any depth, any tokens, any following text; load-save-load for every file that can be read and whose free texts stand in `label: text` tags. Not true of the code otherwise (proved): a text containing a colon and a blank is torn apart, two of them make the file unreadable. Line breaks, encoding cp1252 and the recursion limit of Python are not modelled."
  },
  {
   "property": "C38",
   "status": "proved",
   "theorems": [
    "Props.Qsch.C38_set_get_int",
    "Props.Qsch.C38_set_get_pair",
    "Props.Qsch.C38_set_get_str",
    "Props.Qsch.C38_hex_text",
    "Props.Qsch.C38_frame",
    "Props.Qsch.C38_accepted",
    "Props.Qsch.C38_edit_survives_save",
    "Props.Qsch.C38_quotes_lost",
    "Props.Qsch.C38_set_position",
    "Props.Qsch.C38_set_position_enum"
   ],
   "note": "All integers, pairs and texts not starting with 0x; float reading not modelled. set_position with an ERotation raises after having moved the component (proved); texts with quotes make the saved file unreadable (proved)."
  },
  {
   "property": "C39",
   "status": "proved",
   "theorems": [
    "Props.FloatFormat.C39_round_trip",
    "Props.FloatFormat.C39_exact",
    "Props.FloatFormat.C39_zero",
    "Props.FloatFormat.C39_scan_format",
    "Props.FloatFormat.C39_kelvin_witness"
   ],
   "note": "Every rational, any unit text, any computed logarithm that is off by little (Near; the exact one is proved to be); error at most half a unit in the sixth digit, exact for numbers of at most six digits. Floating point products are exact in the model. Not true for the units K and % (proved)."
  },
  {
   "property": "C40",
   "status": "proved",
   "theorems": [
    "Props.FloatUnit.C40_blanks",
    "Props.FloatUnit.C40_plain",
    "Props.FloatUnit.C40_multiplier",
    "Props.FloatUnit.C40_meg",
    "Props.FloatUnit.C40_small_meg",
    "Props.FloatUnit.C40_inner_point",
    "Props.FloatUnit.C40_inner_R",
    "Props.FloatUnit.C40_scientific",
    "Props.FloatUnit.C40_refused",
    "Props.FloatUnit.C40_blank_point_witness"
   ],
   "note": "Every sign, digit string, blank, suffix and unit. Not true of meg in lower case, read as milli (proved for every number). f is femto only in lower case, m and M differ, as documented in the code."
  },
  {
   "property": "C41",
   "status": "proved",
   "theorems": [
    "Props.Server.C41_status",
    "Props.Server.C41_get",
    "Props.Server.C41_at_most_once",
    "Props.Server.C41_run_numbers",
    "Props.Server.C41_others_have_no_effect",
    "Props.Server.C41_unknown_session",
    "Props.Server.C41_close_erases",
    "Props.Server.C41_orphan_witness"
   ],
   "note": "Every sequence of requests of any number of sessions and endings of runs; requests atomic (one XML-RPC request at a time), session ids distinct. Limit as theorem: a run ending after its session was closed stays on the server for ever."
  },
  {
   "property": "C42",
   "status": "proved",
   "theorems": [
    "Props.Client.C42_yields",
    "Props.Client.C42_fetch",
    "Props.Client.C42_stops",
    "Props.Client.C42_next",
    "Props.Client.C42_refused_never_stops",
    "Props.Client.C42_keyError_witness"
   ],
   "note": "Every interleaving with other clients and run endings. Delivery, order and stopping hold when every returned run was fetched with a file before next is called again (the documented loop). Not true otherwise (proved): KeyError after a run without file or not fetched; a run answered with -1 keeps the iterator from ever stopping."
  },
  {
   "property": "C43",
   "status": "proved",
   "theorems": [
    "Props.Search.C43_first_admissible",
    "Props.Search.C43_raises_iff_none",
    "Props.Search.C43_answer_reads_file",
    "Props.Search.C43_one_char",
    "Props.Search.C43_one_char_witness",
    "Props.Search.C43_utf8_preferred"
   ],
   "note": "Decoding is a parameter (any function). Missing: a file of one character raises IndexError instead (proved)."
  },
  {
   "property": "C44",
   "status": "proved",
   "theorems": [
    "Props.Search.C44_first_container",
    "Props.Search.C44_none_iff",
    "Props.Search.C44_nearest_first",
    "Props.Search.C44_zip_witness"
   ],
   "note": "Any list of containers and directory trees; nearest level first. Limit as theorem: inside a zip file only the top is searched."
  },
  {
   "property": "C45",
   "status": "proved",
   "theorems": [
    "Props.Geom.C45_touches_axis",
    "Props.Geom.C45_touches_exact",
    "Props.Geom.C45_direction_axis",
    "Props.Geom.C45_direction_exact",
    "Props.Geom.C45_oblique_witness",
    "Props.Geom.C45_intercepts_symmetric",
    "Props.Geom.C45_intercepts_axis",
    "Props.Geom.C45_intercepts_exact",
    "Props.Geom.C45_collinear",
    "Props.Geom.C45_crossing_witness"
   ],
   "note": "Exact for horizontal and vertical lines under any rounding, and for all lines in exact arithmetic; with binary64 an oblique line need not touch its own end, and crossing wires do not intercept (both proved)."
  },
  {
   "property": "C46",
   "status": "proved",
   "theorems": [
    "Props.Asc.C46_write_read",
    "Props.Asc.C46_read_write",
    "Props.Asc.C46_other_words",
    "Props.Asc.C46_rotations",
    "Props.Asc.C46_corner"
   ],
   "note": "Both directions for every alignment word (any letter case, vertical or not), refusal of all other words, rotation names as a bijection. Limit: corner alignments have no word (C46_corner)."
  },
  {
   "property": "C47",
   "status": "proved",
   "theorems": [
    "Props.AscInstr.C47_add_command",
    "Props.AscInstr.C47_add_other",
    "Props.AscInstr.C47_add_succeeds",
    "Props.AscInstr.C47_add_refused",
    "Props.AscInstr.C47_remove",
    "Props.AscInstr.C47_removeX",
    "Props.AscInstr.C47_at_most_one",
    "Props.AscInstr.C47_comments",
    "Props.AscInstr.C47_frame",
    "Props.AscInstr.C47_position",
    "Props.AscInstr.C47_still_saveable",
    "Props.AscInstr.C47_second_line",
    "Props.AscInstr.C47_empty_directive",
    "Props.AscInstr.C47_newline"
   ],
   "note": "Replacement in place of the first analysis command, additions at the end, exact removals, at most one command and untouched comments over every sequence of edits, position of new texts, and saving afterwards. Limits as theorems: only the first command of a multi-line directive is seen, an empty directive makes additions raise, a newline in an instruction makes the file unreadable. The permission flag is not checked by AscEditor's instruction methods."
  },
  {
   "property": "C48",
   "status": "proved",
   "theorems": [
    "Props.Export.C48_header_read",
    "Props.Export.C48_file",
    "Props.Export.C48_header_not_read",
    "Props.Export.C48_step_lost",
    "Props.Export.C48_no_steps",
    "Props.Export.C48_plus_sign_mistags",
    "Props.Export.C48_no_equal_raises",
    "Props.LogRead.C48_rows_tagged_with_their_step",
    "Props.LogRead.C48_titles_once",
    "Props.LogRead.C48_fails_iff",
    "Props.LogRead.C48_export_reader_needs_steps"
   ],
   "note": "Characters in, characters out: the regular expression is run by the backtracking matcher of Model.Regex. \\w is any class containing the ASCII word characters; \\d is ASCII. Decoding and newline translation are outside."
  },
  {
   "property": "C49",
   "status": "proved",
   "theorems": [
    "Props.LogRead.C49_step_columns",
    "Props.LogRead.C49_aligned",
    "Props.LogRead.C49_given_steps_miscounted",
    "Props.LogRead.C49_qspice_steps"
   ],
   "note": "Lines at character level. Steps handed in by the caller are miscounted (proved)."
  },
  {
   "property": "C50",
   "status": "proved",
   "theorems": [
    "Props.FastWorst.C50_reported_extremes_are_local_optima",
    "Props.FastWorst.C50_ends",
    "Props.FastWorst.C50_monotonic_exact",
    "Props.FastWorst.C50_simulated_value_exceeds_reported_maximum",
    "Props.FastWorst.C50_raises_when_guess_is_wrong"
   ],
   "note": "Reported extremes are local optima reached at the reported setting, always terminates (or raises TypeError when the guess is wrong); exact global extremes proved for strictly monotonic responses; non monotonic counter-examples proved."
  },
  {
   "property": "C51",
   "status": "proved",
   "theorems": [
    "Props.Testbench.C51_worst_case_percentages",
    "Props.Testbench.C51_worst_case_no_difference_raises",
    "Props.Testbench.C51_quick_percentages"
   ],
   "note": "Quick method in full; the worst-case method raises ZeroDivisionError when no measurement differs (proved)."
  },
  {
   "property": "C52",
   "status": "proved",
   "theorems": [
    "Props.LogData.C52_aggregates",
    "Props.LogData.C52_aggregates_raise"
   ],
   "note": "Exact rational arithmetic."
  },
  {
   "property": "C53",
   "status": "proved",
   "theorems": [
    "Props.LogData.C53_export_aligned",
    "Props.LogData.C53_ragged_steps_refused",
    "Props.LogData.C53_empty_list_shifts_columns"
   ],
   "note": "For columns of equal length whose entries all have the same shape; an empty list as first entry shifts the columns (proved)."
  },
  {
   "property": "C54",
   "status": "proved",
   "theorems": [
    "Props.LogRead.C54_measurement_tables",
    "Props.LogRead.C54_same_name_last_kept"
   ],
   "note": "For columns with distinct names; with equal names the last table wins (proved)."
  },
  {
   "property": "C55",
   "status": "proved",
   "theorems": [
    "Props.CompOps.C55_add_before",
    "Props.CompOps.C55_add_after",
    "Props.CompOps.C55_add_default",
    "Props.CompOps.C55_add_keeps_others",
    "Props.CompOps.C55_remove",
    "Props.CompOps.C55_remove_missing",
    "Props.CompOps.C55_add_then_remove",
    "Props.CompOps.C55_existing_not_replaced"
   ],
   "note": "Top circuit. Not true: an existing reference is not replaced but duplicated, and the first one stays addressed (proved)."
  },
  {
   "property": "C56",
   "status": "proved",
   "theorems": [
    "Props.CompOps.C56_set_parameters",
    "Props.CompOps.C56_unmentioned",
    "Props.CompOps.C56_recorded",
    "Props.CompOps.C56_cleared_written_as_None"
   ],
   "note": "Components of the top circuit; values as text. clear_parameters writes name=None instead of deleting (proved)."
  },
  {
   "property": "C58",
   "status": "proved",
   "theorems": [
    "Props.Asc.C58_round_trip",
    "Props.Asc.C58_load_save_load",
    "Props.Asc.C58_stable",
    "Props.Asc.C58_settled_same",
    "Props.Asc.C58_settled_eq",
    "Props.Asc.C58_ports_lost",
    "Props.Asc.C58_vertical_text_lost",
    "Props.Asc.C58_text_dropped",
    "Props.Asc.C58_same_name",
    "Props.Asc.C58_nameless",
    "Props.Asc.C58_empty_value",
    "Props.Asc.C58_rotation"
   ],
   "note": "Round trip for every well formed schematic, for everything a file can load to (named components), and fixed point of saving. Missing: ports (IOPIN) are not saved (C58_ports_lost), vertical TEXT lines become horizontal, nameless symbols and empty values give unreadable files."
  },
  {
   "property": "C59",
   "status": "proved",
   "theorems": [
    "Props.Geom.C59_moved_as_often_as_held",
    "Props.Geom.C59_scale",
    "Props.Geom.C59_connections_kept",
    "Props.Geom.C59_int_keeps_order",
    "Props.Geom.C59_iopin_witness"
   ],
   "note": "Every schematic built from the file without IOPIN (objects held once); with an IOPIN the shared label point is scaled twice (proved)."
  },
  {
   "property": "C61",
   "status": "proved",
   "theorems": [
    "Props.Race.C61_each_once",
    "Props.Race.C61_missing_is_carried",
    "Props.Race.C61_locked",
    "Props.Race.C61_running_reported",
    "Props.Race.C61_index_error",
    "Props.Race.C61_started_meanwhile",
    "Props.Race.C61_manager_gone"
   ],
   "note": "Every schedule of any number of threads: nothing lost or reported twice. Not true of the unlocked code (proved): a running simulation is reported as completed and failed, one run is counted twice, the housekeeping thread dies of IndexError and nothing is handed over any more; a lock around update_completed alone does not help. With a lock around launching too the full property holds (C61_locked)."
  },
  {
   "property": "C60",
   "status": "proved",
   "theorems": [
    "Props.ParamLine.C60_read",
    "Props.ParamLine.C60_get",
    "Props.ParamLine.C60_names",
    "Props.ParamLine.C60_set",
    "Props.ParamLine.C60_set_new",
    "Props.ParamLine.C60_history",
    "Props.ParamLine.C60_qsch_get",
    "Props.ParamLine.C60_qsch_set",
    "Props.ParamLine.C60_qsch_names",
    "Props.ParamLine.C60_qsch_history",
    "Props.ParamLine.C60_number_like_witness",
    "Props.ParamLine.C60_number_like_never_found",
    "Props.ParamLine.C60_bare_expression_witness",
    "Props.ParamLine.C60_comment_witness",
    "Props.ParamLine.C60_qsch_unqualified_witness"
   ],
   "note": "Every directive of a grammar (any spacing, numbers with units, braces, quotes), every sequence of calls. Not true of the code otherwise (proved): a first name starting with E or a digit is never found and is added again on every call, expressions without braces are replaced in part, definitions in comments count, a QSPICE directive without the qualifier is overwritten at the wrong place. ASCII word characters."
  },
  {
   "property": "C62",
   "status": "proved",
   "theorems": [
    "Props.IncParam.C62_include_get",
    "Props.IncParam.C62_include_change",
    "Props.IncParam.C62_include_new",
    "Props.IncParam.C62_include_history",
    "Props.IncParam.C62_include_names",
    "Props.IncParam.C62_include_sample",
    "Props.SpiceParam.C62_get",
    "Props.SpiceParam.C62_set",
    "Props.SpiceParam.C62_set_new",
    "Props.SpiceParam.C62_denied",
    "Props.SpiceParam.C62_history",
    "Props.SpiceParam.C62_names",
    "Props.SpiceParam.C62_remove",
    "Props.SpiceParam.C62_remove_missing_witness",
    "Props.SpiceParam.C62_remove_suffix_witness",
    "Props.SpiceParam.C62_remove_unit_witness",
    "Props.SpiceParam.C62_remove_first_witness",
    "Props.SpiceParam.C62_empty_value_witness",
    "Props.SpiceParam.C62_names_control_witness"
   ],
   "note": "Every netlist whose .param lines are in the grammar of C60, any history of sets; removal when the name occurs nowhere else on its line. Not true of the code otherwise (proved): removing a missing parameter adds it as None, removing B cuts AB, a unit letter is taken for the name, removing the first parameter can hide the next, an empty value adds an empty line, a control section added by an instruction makes the list of names raise. Included files at any depth."
  },
  {
   "property": "C63",
   "status": "proved",
   "theorems": [
    "Props.CompLine.C63_read",
    "Props.CompLine.C63_write_value",
    "Props.CompLine.C63_write",
    "Props.CompLine.C63_write_read",
    "Props.CompLine.C63_untouched",
    "Props.CompLine.C63_braces_swallow_params",
    "Props.CompLine.C63_comment_in_value",
    "Props.CompLine.C63_lower_case_refused",
    "Props.CompLine.C63_flag_is_model",
    "Props.CompLine.C63_controlled_source_comment",
    "Props.CompLine.C63_tab_cuts_value",
    "Props.CompLine.C63_prefix_cuts_value",
    "Props.CompLine.C63_last_param_stays",
    "Props.CompLine.C63_two_lines_unsaved",
    "Props.CompLine.C63_renamed_marked",
    "Props.CompLine.C63_blanks_normalised",
    "Props.CompLine.C63_comment_in_param",
    "Props.CompShort.C63_short_read",
    "Props.CompShort.C63_short_write",
    "Props.CompShort.C63_short_untouched",
    "Props.CompShort.C63_short_params_lost",
    "Props.CompShort.C63_coupling_expression_refused",
    "Props.CompShort.C63_short_blanks_removed"
   ],
   "note": "Proved for R, C, L, V, I, D, J, U, Z, O, Oe, the yen/euro/pound elements, M, Q, Y, N, P and X: the backtracking matcher finds exactly the pieces of every line of the grammar (unbounded numbers of parameters, any lengths), and rewriting gives exactly the line with the new value and parameters, which is read back as set. Real limits, each with a witness: a value in braces swallows later braces, lower case letters are refused, a tab or `C=` before the value lets a rewrite cut the value, the last parameter cannot be removed, an expression over two lines cannot be saved, renaming a marked component and setting its value leaves a piece of the old value, and blanks between nodes are normalised. Also proved for E, F, G, H, S, W, A (value: everything after the nodes) and K (a number). Limits as theorems: their parameters are silently lost, a comment is part of the value, blanks at the end are removed, a coupling given as an expression is refused. For X a comment directly after a parameter becomes part of it (witness). Not covered: B, T, and the elements @, \u00c3, \u00d8, \u00d7. C32's saved line of an unchanged component is this line."
  },
  {
   "property": "C64",
   "status": "proved",
   "theorems": [
    "Props.Export.C64_columns",
    "Props.Export.C64_step_word_skipped",
    "Props.Export.C64_last_title_keeps_eol",
    "Props.Export.C64_step_word_raises"
   ],
   "note": "Same text level as C48; try_convert_value is any function."
  },
  {
   "property": "C65",
   "status": "proved",
   "theorems": [
    "Props.SchComp.C65_get",
    "Props.SchComp.C65_set",
    "Props.SchComp.C65_history",
    "Props.SchComp.C65_set_attribute",
    "Props.SchComp.C65_set_value",
    "Props.SchComp.C65_get_value",
    "Props.SchComp.C65_no_value",
    "Props.SchComp.C65_unknown_component",
    "Props.SchComp.C65_remove_component",
    "Props.SchComp.C65_last_removed_witness",
    "Props.SchComp.C65_missing_removed_witness",
    "Props.SchComp.C65_rest_lost_witness",
    "Props.SchComp.C65_no_pairs_witness",
    "Props.SchComp.C65_none_stored_witness",
    "Props.SchComp.C65_case_witness",
    "Props.SchComp.C65_value2_witness"
   ],
   "note": "Values are text; try_convert_value is any pair of functions (value of a text, text of a value) that agree on the values considered (structure Texts). Hierarchical references ('X1:R1') are not part of it."
  },
  {
   "property": "C66",
   "status": "proved",
   "theorems": [
    "Props.QComp.C66_set",
    "Props.QComp.C66_remove",
    "Props.QComp.C66_remove_missing",
    "Props.QComp.C66_add",
    "Props.QComp.C66_get",
    "Props.QComp.C66_history",
    "Props.QComp.C66_set_value",
    "Props.QComp.C66_unknown_component",
    "Props.QComp.C66_remove_component",
    "Props.QComp.C66_removed_is_listed",
    "Props.QComp.C66_sample",
    "Props.QComp.C66_in_value",
    "Props.QComp.C66_case",
    "Props.QComp.C66_not_plain",
    "Props.QComp.C66_pin_first"
   ],
   "note": "One keyword argument per call of set_component_parameters; values as text; components of the sheet itself. The new text goes through the model of the tag parser (C37). Positions of new texts are arbitrary. Numeric keys cannot be given through keyword arguments and are not modelled."
  },
  {
   "property": "C67",
   "status": "proved",
   "theorems": [
    "Props.QInstr.C67_add_command",
    "Props.QInstr.C67_first_command_not_saved",
    "Props.QInstr.C67_add_other",
    "Props.QInstr.C67_add_refused",
    "Props.QInstr.C67_remove",
    "Props.QInstr.C67_removeX",
    "Props.QInstr.C67_limits",
    "Props.QInstr.C67_sample"
   ],
   "note": "The texts of the sheet with their comment flag. Regular expressions of remove_Xinstruction are any predicate. Where the new text is put is arbitrary."
  },
  {
   "property": "C68",
   "status": "proved",
   "theorems": [
    "Props.QNets.C68_one_per_pin",
    "Props.QNets.C68_connected",
    "Props.QNets.C68_left_out",
    "Props.QNets.C68_same_place",
    "Props.QNets.C68_floating_apart",
    "Props.QNets.C68_floating_fresh",
    "Props.QNets.C68_floating_alone",
    "Props.QNets.C68_sample",
    "Props.QNets.C68_label_collision",
    "Props.QNets.C68_middle_of_wire",
    "Props.QPin.C68_pin_position"
   ],
   "note": "Every sheet, any components in file order. Positions: real numbers with any error up to 9 units per product, pins on the grid and at most 200000 units away. Limits proved as witnesses: a floating pin takes the name of a label, a wire passing through a pin does not count."
  },
  {
   "property": "C69",
   "status": "proved",
   "theorems": [
    "Props.QNetlist.C69_device",
    "Props.QNetlist.C69_block",
    "Props.QNetlist.C69_private",
    "Props.QNetlist.C69_definition",
    "Props.QNetlist.C69_private_names",
    "Props.QNetlist.C69_brackets",
    "Props.QNetlist.C69_no_brackets",
    "Props.QNetlist.C69_mos",
    "Props.QNetlist.C69_bjt",
    "Props.QNetlist.C69_bjt_substrate",
    "Props.QNetlist.C69_jfet",
    "Props.QNetlist.C69_line",
    "Props.QNetlist.C69_behavioural",
    "Props.QNetlist.C69_times",
    "Props.QNetlist.C69_verilog",
    "Props.QNetlist.C69_verilog_lost",
    "Props.QNetlist.C69_layout",
    "Props.QNetlist.C69_layout_inside",
    "Props.QNetlist.C69_disabled",
    "Props.QNetlist.C69_frame",
    "Props.QNetlist.C69_removed_remains",
    "Props.QNetlist.C69_sample",
    "Props.QNetlist.C69_sample_draws",
    "Props.QNetlist.C69_substrate_missing",
    "Props.QNetlist.C69_capitals",
    "Props.QNetlist.C69_renamed_block",
    "Props.QNetlist.C69_sample_verilog"
   ],
   "note": "Every schematic; nets, references and types are words without blanks. Simplified: a failed write keeps nothing, one library search for all schematics, the pin names of a block are read at every use, not only at the first. Limits proved as theorems or witnesses."
  },
  {
   "property": "C70",
   "status": "proved",
   "theorems": [
    "Props.MonteCarlo.C70_testbench",
    "Props.MonteCarlo.C70_normal_range",
    "Props.MonteCarlo.C70_unprepared",
    "Props.MonteCarlo.C70_already_played",
    "Props.MonteCarlo.C70_sample",
    "Props.MonteCarlo.C70_recorded_value",
    "Props.MonteCarlo.C70_undefined",
    "Props.MonteCarlo.C70_qspice_range",
    "Props.MonteCarlo.C70_tolerance_text",
    "Props.MonteCarlo.C70_unprepared_sample"
   ],
   "note": "The .func lines are parsed and evaluated by an independent expression semantics (Spec/SpiceExpr); numbers are exact rationals and a tolerance's %g text is assumed to read back as the tolerance."
  },
  {
   "property": "C71",
   "status": "proved",
   "theorems": [
    "Props.MonteCarlo.C71_run_analysis",
    "Props.MonteCarlo.C71_drawn",
    "Props.MonteCarlo.C71_tolerance",
    "Props.MonteCarlo.C71_range",
    "Props.MonteCarlo.C71_sample",
    "Props.MonteCarlo.C71_after_preparation"
   ],
   "note": "Random numbers are parameters: u in [0,1] for uniform, any g for gauss; %g rounding is not modelled."
  },
  {
   "property": "C72",
   "status": "proved",
   "theorems": [
    "Props.RawSteps.C72_ltspice_log",
    "Props.RawSteps.C72_qspice_log",
    "Props.RawSteps.C72_no_log",
    "Props.RawSteps.C72_get_steps",
    "Props.RawSteps.C72_export",
    "Props.RawSteps.C72_export_all",
    "Props.RawSteps.C72_aligned",
    "Props.RawSteps.C72_csv",
    "Props.RawSteps.C72_no_log_unreadable",
    "Props.RawSteps.C72_no_axis_repeated",
    "Props.RawSteps.C72_sample",
    "Props.RawSteps.C72_last_character_lost",
    "Props.RawSteps.C72_second_equal_sign",
    "Props.RawSteps.C72_depends_on_history"
   ],
   "note": "Conversion of a parameter text to a number and the printing of a value in the CSV are parameters. Limits are witness theorems."
  },
  {
   "property": "C73",
   "status": "proved",
   "theorems": [
    "Props.RawAscii.C73_read",
    "Props.RawAscii.C73_truncated",
    "Props.RawAscii.C73_out_of_sequence",
    "Props.RawAscii.C73_second_plot_hangs",
    "Props.RawAscii.C73_stepped",
    "Props.RawAscii.C73_sample",
    "Props.RawAscii.C73_same_name"
   ],
   "note": "float() is a parameter (a partial function on texts that ignores blanks in front). utf_8 files without aliases; the header is that of C24."
  },
  {
   "property": "C74",
   "status": "proved",
   "theorems": [
    "Props.CmdLine.C74_files",
    "Props.CmdLine.C74_command",
    "Props.CmdLine.C74_valid_switch",
    "Props.CmdLine.C74_dash",
    "Props.CmdLine.C74_unknown",
    "Props.CmdLine.C74_switches",
    "Props.CmdLine.C74_fixed",
    "Props.CmdLine.C74_own_switches",
    "Props.CmdLine.C74_runner_switches",
    "Props.CmdLine.C74_parameters",
    "Props.CmdLine.C74_parameters_sample",
    "Props.CmdLine.C74_sample",
    "Props.CmdLine.C74_shared_list",
    "Props.CmdLine.C74_empty_argument",
    "Props.CmdLine.C74_documented_switches"
   ],
   "note": "Paths are posix texts; availability of the executable, exe_log and the other arguments of subprocess.run are not modelled."
  },
  {
   "property": "C75",
   "status": "proved",
   "theorems": [
    "Props.OpLog.C75_read",
    "Props.OpLog.C75_no_header",
    "Props.OpLog.C75_sample",
    "Props.OpLog.C75_never_ends",
    "Props.OpLog.C75_trailing_blank",
    "Props.OpLog.C75_out_of_order",
    "Props.OpLog.C75_same_title"
   ],
   "note": "C75_read is the whole table; samples and limits on concrete logs."
  },
  {
   "property": "C76",
   "status": "proved",
   "theorems": [
    "Props.LogFile.C76_log",
    "Props.LogFile.C76_without_tables",
    "Props.LogFile.C76_sample",
    "Props.LogFile.C76_warning",
    "Props.LogFile.C76_exponent",
    "Props.LogFile.C76_whole_percent",
    "Props.LogFile.C76_harmonic_line",
    "Props.LogFile.C76_given_steps",
    "Props.LogFile.C76_before_steps"
   ],
   "note": "whole-file reader incl. the regular expression of single-line measurements and the Fourier tables; encoding detection is C43; limits as witnesses"
  },
  {
   "property": "C77",
   "status": "proved",
   "theorems": [
    "Props.QspiceLog.C77_meas_file",
    "Props.QspiceLog.C77_log",
    "Props.QspiceLog.C77_sample",
    "Props.QspiceLog.C77_blank_line",
    "Props.QspiceLog.C77_short_row",
    "Props.QspiceLog.C77_kind",
    "Props.QspiceLog.C77_step_shared",
    "Props.QspiceLog.C77_named_step"
   ],
   "note": "the external QPOST run is not modelled; values are split as in C22"
  },
  {
   "property": "C78",
   "status": "proved",
   "theorems": [
    "Props.Asy.C78_unambiguous",
    "Props.Asy.C78_read",
    "Props.Asy.C78_accepted",
    "Props.Asy.C78_library",
    "Props.Asy.C78_library_else",
    "Props.Asy.C78_model",
    "Props.Asy.C78_subcircuit",
    "Props.Asy.C78_sample",
    "Props.Asy.C78_sample_lookups",
    "Props.Asy.C78_refused",
    "Props.Asy.C78_prefix_case"
   ],
   "note": "whole file both ways (read iff every line says something); detection of the encoding is C43; get_value and get_schematic_file are not modelled"
  },
  {
   "property": "C79",
   "status": "proved",
   "theorems": [
    "Props.Convert.C79_converted",
    "Props.Convert.C79_grid",
    "Props.Convert.C79_own_symbols",
    "Props.Convert.C79_unnamed_nets_are_ground",
    "Props.Convert.C79_divider_convertible",
    "Props.Convert.C79_divider",
    "Props.Convert.C79_symbol_not_found",
    "Props.Convert.C79_symbol_refused",
    "Props.ConvertPin.C79_pin_position"
   ],
   "note": "products with 6.25 are exact (coordinates below 2^48); arcs are a parameter; LTspice is taken to mirror after turning; texts without quotes and without a colon followed by a blank (C37), labels not starting with 0x (C38)"
  },
  {
   "property": "C80",
   "status": "proved",
   "theorems": [
    "Props.SubFind.C80_library_found",
    "Props.SubFind.C80_library_sound",
    "Props.SubFind.C80_library_nothing",
    "Props.SubFind.C80_file_name",
    "Props.SubFind.C80_name",
    "Props.SubFind.C80_name_after_comments",
    "Props.SubFind.C80_order",
    "Props.SubFind.C80_own_definition",
    "Props.SubFind.C80_netlist_first",
    "Props.SubFind.C80_sample",
    "Props.SubFind.C80_sample_parts",
    "Props.SubFind.C80_wrong_definition",
    "Props.SubFind.C80_not_closed",
    "Props.SubFind.C80_quoted",
    "Props.SubFind.C80_netlist_limits",
    "Props.SubFind.C80_included_library_first"
   ],
   "note": "Model/SubFind.lean on top of Model/NetTree and Model/Lines; the order is proved against a flat list of places (sources), the library search against the block structure of Spec/NetBlocks and the line grammar of Spec/SubFind."
  },
  {
   "property": "C81",
   "status": "proved",
   "theorems": [
    "Props.RawMerge.C81_interpolation",
    "Props.RawMerge.C81_curve_unique",
    "Props.RawMerge.C81_not_beyond",
    "Props.RawMerge.C81_axis_points",
    "Props.RawMerge.C81_axis_rising",
    "Props.RawMerge.C81_axis_inside",
    "Props.RawMerge.C81_axis_keeps_mine",
    "Props.RawMerge.C81_axis_keeps_added",
    "Props.RawMerge.C81_names",
    "Props.RawMerge.C81_saved",
    "Props.RawMerge.C81_first_import",
    "Props.RawMerge.C81_plain_import",
    "Props.RawMerge.C81_refused",
    "Props.RawMerge.C81_sample",
    "Props.RawMerge.C81_sample_names",
    "Props.RawMerge.C81_saved_applies",
    "Props.RawMerge.C81_last_point_lost",
    "Props.RawMerge.C81_same_length_not_resampled",
    "Props.RawMerge.C81_aligned_step_ignored",
    "Props.RawMerge.C81_single_point_dropped",
    "Props.RawMerge.C81_same_trace_twice",
    "Props.RawMerge.C81_dense_axis_not_rising"
   ],
   "note": "Exact rational axis points, samples in a rational vector space; float rounding, complex axes, rename_format and minimum_timestep not modelled. After an exception the file is taken as not used any more."
  },
  {
   "property": "C82",
   "status": "proved",
   "theorems": [
    "Props.Callback.C82_accepted_iff",
    "Props.Callback.C82_called",
    "Props.Callback.C82_called_in_process",
    "Props.Callback.C82_refused_before_start",
    "Props.Callback.C82_process_result",
    "Props.Callback.C82_sample",
    "Props.Callback.C82_default_not_used",
    "Props.Callback.C82_starred_parameters",
    "Props.Callback.C82_process_reserved_name"
   ],
   "note": "The binding of arguments by Python is specified in Spec/PyCall (positional-only, plain, starred and keyword-only parameters)."
  },
  {
   "property": "C83",
   "status": "proved",
   "theorems": [
    "Props.Wait.C83_answer",
    "Props.Wait.C83_true",
    "Props.Wait.C83_timeout_ends",
    "Props.Wait.C83_ends",
    "Props.Wait.C83_exact",
    "Props.Wait.C83_sample",
    "Props.Wait.C83_timeout_not_restarted",
    "Props.Wait.C83_false_although_all_succeeded",
    "Props.Wait.C83_earlier_failure",
    "Props.Wait.C83_abort_stops_nothing"
   ],
   "note": "Limits proved: the timeout is not restarted on a completion (contrary to the docstring), False may be returned although all simulations have succeeded, an earlier failure makes every later answer False, and abort_all_on_timeout kills no process. Each look at the threads is one moment; times are rational numbers."
  },
  {
   "property": "C84",
   "status": "proved",
   "theorems": [
    "Props.Cleanup.C84_cleanup_exact",
    "Props.Cleanup.C84_runs_apart",
    "Props.Cleanup.C84_not_the_original",
    "Props.Cleanup.C84_placement",
    "Props.Cleanup.C84_others_untouched",
    "Props.Cleanup.C84_stays_in_the_folder",
    "Props.Cleanup.C84_active_spared",
    "Props.Cleanup.C84_nothing_left",
    "Props.Cleanup.C84_sample",
    "Props.Cleanup.C84_session_sample",
    "Props.Cleanup.C84_raw_of_failed_left",
    "Props.Cleanup.C84_empty_name_deletes_the_original",
    "Props.Cleanup.C84_clash_with_a_user_file",
    "Props.Cleanup.C84_given_name_escapes",
    "Props.Cleanup.C84_given_names_clash",
    "Props.Cleanup.C84_run_now_still_running"
   ],
   "note": "Limits proved: the raw file of a failed run is left; run_filename='' without output folder runs on, and cleanup deletes, the user's own netlist; a user file called a_1.net beside a.net is overwritten; a run_filename with directories escapes the output folder for files but not for editors; user-given names may clash; a run_now that outlasts its wait is cleaned up while it runs. Simulators are assumed to write only files named <circuit>_<n>.<extension without underscore> beside the netlist."
  },
  {
   "property": "C85",
   "status": "proved",
   "theorems": [
    "Props.Alias.C85_alias",
    "Props.Alias.C85_line",
    "Props.Alias.C85_resistor",
    "Props.Alias.C85_sample",
    "Props.Alias.C85_limits"
   ],
   "note": "Text-level: the five substitutions, the tokens and grammar of eval for numbers, names, + - * and parentheses, and the dictionary of names are modelled; numbers are exact. Formulas are fully parenthesised, as QSPICE writes them. Net names are words without a digit before mho/ohm (witness of what happens otherwise in C85_limits)."
  },
  {
   "property": "C86",
   "status": "proved",
   "theorems": [
    "Props.Rename.C86_rename",
    "Props.Rename.C86_copy",
    "Props.Rename.C86_copies_apart",
    "Props.Rename.C86_sample",
    "Props.Rename.C86_limits"
   ],
   "note": "Names made of word characters and dots; for other names (e.g. LM741-N from a library) the copy gets an extra port and the instance a name nobody defines, proved in C86_limits."
  },
  {
   "property": "C87",
   "status": "proved",
   "theorems": [
    "Props.Control.C87_loaded",
    "Props.Control.C87_remove",
    "Props.Control.C87_remove_nothing",
    "Props.Control.C87_add_rejects",
    "Props.Control.C87_limits",
    "Props.Control.C87_sample"
   ],
   "note": "the added section losing its text is a defect of add_instruction (C29)"
  },
  {
   "property": "C88",
   "status": "proved",
   "theorems": [
    "Props.LibPath.C88_set_custom",
    "Props.LibPath.C88_prepare",
    "Props.LibPath.C88_inherited",
    "Props.LibPath.C88_netlist_library",
    "Props.LibPath.C88_schematic_library",
    "Props.LibPath.C88_symbol",
    "Props.LibPath.C88_qsch_file",
    "Props.LibPath.C88_own_directory_first",
    "Props.LibPath.C88_program",
    "Props.LibPath.C88_opened",
    "Props.LibPath.C88_symbol_sticks",
    "Props.LibPath.C88_first_netlist_decides",
    "Props.LibPath.C88_limits",
    "Props.LibPath.C88_sample"
   ],
   "note": "the cache and the first-netlist rule are history effects a user would not expect; C88_limits shows a schematic getting another project's symbol"
  },
  {
   "property": "C89",
   "status": "proved",
   "theorems": [
    "Props.SimExe.C89_sections",
    "Props.SimExe.C89_path",
    "Props.SimExe.C89_command",
    "Props.SimExe.C89_all_or_nothing",
    "Props.SimExe.C89_not_found",
    "Props.SimExe.C89_wine_libraries",
    "Props.SimExe.C89_libraries",
    "Props.SimExe.C89_sample",
    "Props.SimExe.C89_same_class"
   ],
   "note": "create_from mutates and returns the class itself: a second call changes the simulator made by the first"
  },
  {
   "property": "C90",
   "status": "proved",
   "theorems": [
    "Props.FourierFile.C90_tables",
    "Props.FourierFile.C90_every_analysis_once",
    "Props.FourierFile.C90_stops",
    "Props.FourierFile.C90_limits",
    "Props.FourierFile.C90_sample"
   ],
   "note": "How numbers are printed is a parameter. Limits shown: analyses made before the first step are left out in a sweep, -1 periods is 'all' in one table and -1 in the other, the title row of the second table has a cell too many without steps."
  },
  {
   "property": "C91",
   "status": "proved",
   "theorems": [
    "Props.Results.C91_not_before",
    "Props.Results.C91_measurements",
    "Props.Results.C91_steps",
    "Props.Results.C91_run_numbers",
    "Props.Results.C91_this_analysis",
    "Props.Results.C91_kept",
    "Props.Results.C91_measurement",
    "Props.Results.C91_extremes",
    "Props.Results.C91_added",
    "Props.Results.C91_sample",
    "Props.Results.C91_limits"
   ],
   "note": "Columns are values (their sharing is C20); what the readers find in the files is an oracle. Limits shown: no results after a testbench with a callback, a flag that survives the start of the next analysis, numbers that move when a log is missing, IndexError instead of the documented None."
  },
  {
   "property": "C92",
   "status": "proved",
   "theorems": [
    "Props.UnitObj.C92_from_text",
    "Props.UnitObj.C92_from_number",
    "Props.UnitObj.C92_values_fixed",
    "Props.UnitObj.C92_printed",
    "Props.UnitObj.C92_read_back",
    "Props.UnitObj.C92_equal",
    "Props.UnitObj.C92_arithmetic",
    "Props.UnitObj.C92_to_float",
    "Props.UnitObj.C92_sample",
    "Props.UnitObj.C92_limits"
   ],
   "note": "Rational numbers instead of binary floating point; infinities and NaN not modelled. Limits shown: an unknown unit is refused but the text is lost, kelvins, percents, degrees, radians and effective values are not read back, cleaning the result of to_float cleans the argument."
  },
  {
   "property": "C93",
   "status": "proved",
   "theorems": [
    "Props.StepCsv.C93_table",
    "Props.StepCsv.C93_refused",
    "Props.StepCsv.C93_sample",
    "Props.StepCsv.C93_limits"
   ],
   "note": "csv.DictWriter is modelled as library code; reading is a specification of its own (a CSV reader). Limits shown: a variable called runno, a delimiter inside numbers, variables that appear later."
  },
  {
   "property": "C94",
   "status": "proved",
   "theorems": [
    "Props.RunFile.C94_saved",
    "Props.RunFile.C94_one_run",
    "Props.RunFile.C94_equal_axes",
    "Props.RunFile.C94_nothing",
    "Props.RunFile.C94_refused",
    "Props.RunFile.C94_sample",
    "Props.RunFile.C94_applies",
    "Props.RunFile.C94_limits"
   ],
   "note": "Builds on the merge model of C81 (rational samples and axes). First-run traces are copied, not resampled, when the common axis has the same number of points (limit C81_same_length_not_resampled). Limits: one point at the end is lost per further run; with as many further runs as points the later runs are dropped although True is returned."
  },
  {
   "property": "C95",
   "status": "proved",
   "theorems": [
    "Props.Nodes.C95_nodes",
    "Props.Nodes.C95_distinct",
    "Props.Nodes.C95_without_text",
    "Props.Nodes.C95_iteration",
    "Props.Nodes.C95_sample",
    "Props.Nodes.C95_applies",
    "Props.Nodes.C95_limits",
    "Props.Nodes.C95_iteration_sample"
   ],
   "note": "Limits shown as theorems: controlling nodes of E/F/G/H are missing, the inductors of a coupling are given as nodes, lines that no regular expression matches are silently passed over, node names are compared case-sensitively; `for component in circuit` delivers objects without reference, value or netlist."
  },
  {
   "property": "C96",
   "status": "proved",
   "theorems": [
    "Props.RawConvert.C96_refused",
    "Props.RawConvert.C96_found",
    "Props.RawConvert.C96_output",
    "Props.RawConvert.C96_selection_ignored",
    "Props.RawConvert.C96_sample",
    "Props.RawConvert.C96_applies",
    "Props.RawConvert.C96_limits"
   ],
   "note": "Limit, proved as C96_selection_ignored: the traces that were found are never used; whatever is asked for, the whole file is written. Names and endings are case-sensitive; Excel output without pandas is an exception. Command line parsing (optparse), the clipboard and pandas' own formatting are not modelled."
  },
  {
   "property": "C97",
   "status": "proved",
   "theorems": [
    "Props.AscSub.C97_symbol_name",
    "Props.AscSub.C97_symbol",
    "Props.AscSub.C97_is_subcircuit",
    "Props.AscSub.C97_kinds",
    "Props.AscSub.C97_block",
    "Props.AscSub.C97_library",
    "Props.AscSub.C97_opened",
    "Props.AscSub.C97_opens",
    "Props.AscSub.C97_cycle",
    "Props.AscSub.C97_refused",
    "Props.AscSub.C97_sample",
    "Props.AscSub.C97_limits",
    "Props.AscSub.C97_applies"
   ],
   "note": "Limits shown: a schematic that contains itself ends with RecursionError for every recursion limit (C97_cycle); attributes of the instance (a SpiceModel given on the component) do not matter, only those of the symbol; three backslashes leave an empty directory; a directory whose name begins with a blank is lost. The Windows branch and the cache of symbol files (C88) are not part of this model."
  },
  {
   "property": "C98",
   "status": "proved",
   "theorems": [
    "Props.Values.C98_form",
    "Props.Values.C98_cartesian",
    "Props.Values.C98_decibel",
    "Props.Values.C98_polar",
    "Props.Values.C98_turns",
    "Props.Values.C98_convert",
    "Props.Values.C98_int",
    "Props.Values.C98_unit",
    "Props.Values.C98_sample",
    "Props.Values.C98_applies",
    "Props.Values.C98_limits"
   ],
   "note": "Limits shown: a magnitude in dB whose phase is not in degrees is silently taken as real and imaginary part; what follows the closing parenthesis is ignored; a blank before the parenthesis makes it a text; a negative magnitude turns the phase. Numbers are exact; inf, nan, underscores and overflow are not modelled."
  },
  {
   "property": "C99",
   "status": "proved",
   "theorems": [
    "Props.RunInfo.C99_duration",
    "Props.RunInfo.C99_durations_differ",
    "Props.RunInfo.C99_limit_milliseconds",
    "Props.RunInfo.C99_runs",
    "Props.RunInfo.C99_last",
    "Props.RunInfo.C99_entry",
    "Props.RunInfo.C99_sample"
   ],
   "note": "Limit shown: the milliseconds are printed with four digits, so 1.5 s looks like 1.05 s."
  },
  {
   "property": "C100",
   "status": "proved",
   "theorems": [
    "Props.Launch.C100_started",
    "Props.Launch.C100_gave_up",
    "Props.Launch.C100_ends",
    "Props.Launch.C100_at_once",
    "Props.Launch.C100_state",
    "Props.Launch.C100_limit_no_timeout",
    "Props.Launch.C100_limit_run_now_lost",
    "Props.Launch.C100_sample"
   ],
   "note": "Exact characterisation of start and give-up, termination bound; limits for timeout None proved."
  },
  {
   "property": "C101",
   "status": "proved",
   "theorems": [
    "Props.ServerFiles.C101_changes",
    "Props.ServerFiles.C101_isolated",
    "Props.ServerFiles.C101_sources_stay",
    "Props.ServerFiles.C101_upload",
    "Props.ServerFiles.C101_circuit",
    "Props.ServerFiles.C101_results",
    "Props.ServerFiles.C101_close",
    "Props.ServerFiles.C101_what_is_there",
    "Props.ServerFiles.C101_limit_stop",
    "Props.ServerFiles.C101_sample",
    "Props.ServerFiles.C101_limit_shared",
    "Props.ServerFiles.C101_limit_archive",
    "Props.ServerFiles.C101_limit_left",
    "Props.ServerFiles.C101_limit_dot"
   ],
   "note": "The folder is flat; requests, and the end of a run with the packing and the move to completed_tasks, are atomic; deleting does not fail; simulators write only files named like their circuit. Circuit names ending with a dot are excluded (C101_limit_dot shows why). C101_limit_stop contradicts the comment in ServerSimRunner.run that stopping cleans all files not yet cleaned."
  },
  {
   "property": "C102",
   "status": "proved",
   "theorems": [
    "Props.NewComp.C102_text",
    "Props.NewComp.C102_param",
    "Props.NewComp.C102_make",
    "Props.NewComp.C102_read",
    "Props.NewComp.C102_sample",
    "Props.NewComp.C102_limit_count",
    "Props.NewComp.C102_limit_blank",
    "Props.NewComp.C102_limit_model",
    "Props.NewComp.C102_limit_list"
   ],
   "note": "Findings: the number returned leaves out the line breaks of continuation lines (C102_limit_count); a blank line is left when the last parameter ends a line (C102_limit_blank); an attribute model makes the value appear twice (C102_limit_model); a list is written with Python's brackets and cannot be read back (C102_limit_list)."
  },
  {
   "property": "C103",
   "status": "proved",
   "theorems": [
    "Props.EditSave.C103_saved",
    "Props.EditSave.C103_values",
    "Props.EditSave.C103_untouched",
    "Props.EditSave.C103_limit_blank"
   ],
   "note": "C103_saved (the saved text), C103_values (what is read, before and after reopening), C103_untouched, C103_limit_blank."
  },
  {
   "property": "C104",
   "status": "proved",
   "theorems": [
    "Props.SweepFiles.C104_files",
    "Props.SweepFiles.C104_snapshot"
   ],
   "note": "C104_files (run_all), C104_snapshot (any program). The file names are the default ones."
  },
  {
   "property": "C105",
   "status": "proved",
   "theorems": [
    "Props.Session.C105_session",
    "Props.Session.C105_one_analysis",
    "Props.Session.C105_removed",
    "Props.Session.C105_added",
    "Props.Session.C105_instruct",
    "Props.Session.C105_undo_directive",
    "Props.Session.C105_twice",
    "Props.Session.C105_undo_component",
    "Props.Session.C105_directives",
    "Props.Session.C105_limit_duplicate"
   ],
   "note": "C105_session is the refinement of the whole session to a list of parts (Spec/Session.lean: changed); C105_added, C105_removed, C105_instruct, C105_directives, C105_one_analysis, C105_undo_directive, C105_undo_component and C105_twice are read from it. Instructions that are .PARAM lines, control sections, components or .include lines given to add_instruction are not part of a session here (C28-C30 have them one at a time); directives are one line. C105_limit_duplicate: add_component does not replace a component with the same reference as documented, both lines are saved."
  },
  {
   "property": "C106",
   "status": "proved",
   "theorems": [
    "Props.AscSession.C106_session",
    "Props.AscSession.C106_value",
    "Props.AscSession.C106_params",
    "Props.AscSession.C106_files",
    "Props.AscSession.C106_components",
    "Props.AscSession.C106_frame",
    "Props.AscSession.C106_one_analysis",
    "Props.AscSession.C106_texts",
    "Props.AscSession.C106_drawing",
    "Props.AscSession.C106_accepted"
   ],
   "note": "C106_session, C106_value, C106_params, C106_components, C106_frame, C106_one_analysis; C106_files starts from a file; C106_accepted says which calls succeed; C106_texts gives every text of the sheet after the session, C106_drawing the drawing when the sheet is scaled in between. exOps is a session of eleven calls."
  },
  {
   "property": "C107",
   "status": "proved",
   "theorems": [
    "Props.QSession.C107_session",
    "Props.QSession.C107_params",
    "Props.QSession.C107_files",
    "Props.QSession.C107_components",
    "Props.QSession.C107_frame",
    "Props.QSession.C107_one_analysis",
    "Props.QSession.C107_accepted",
    "Props.QSession.C107_texts",
    "Props.QSession.C107_taken_off",
    "Props.QSession.C107_marked_instruction"
   ],
   "note": "Model.QSession, Spec.QSession. C107_session (values, places), C107_params, C107_components, C107_frame (others, comments, rest of each component), C107_one_analysis, C107_accepted, C107_files (from file to file), C107_texts (every text of the sheet), C107_taken_off. Limits shown by a witness: C107_marked_instruction (the mark of an instruction is taken off character by character, so '\u00bf.tran 5m' becomes a second analysis). Applied to a concrete sheet and session: exSheet_ok, exOps_ok, exOps_keeps, exOps_file, exOps_param. The place of a new text is an argument of the call; the value has no quotation mark, no colon followed by a blank and does not start with 0x."
  },
  {
   "property": "C108",
   "status": "proved",
   "theorems": [
    "Props.AscParts.C108_session",
    "Props.AscParts.C108_params",
    "Props.AscParts.C108_accepted",
    "Props.AscParts.C108_rest"
   ],
   "note": "Built on C65 (one component) and C106 (sessions without component parameters). Components whose SpiceLine is replaced as a whole in the session, or is not made of name=value pairs, are outside `R`. Removing the last pair of a line is not legal here: it leaves an empty text (witness in C65). Permission and journal: C65."
  },
  {
   "property": "C109",
   "status": "proved",
   "theorems": [
    "Props.QParts.C109_session",
    "Props.QParts.C109_params",
    "Props.QParts.C109_rest",
    "Props.QParts.C109_accepted",
    "Props.QParts.C109_hex_name",
    "Props.QParts.C109_in_value"
   ],
   "note": "Names of parameters are words that do not begin with 0x (C109_hex_name shows what happens otherwise) and do not occur in a value given to the component (C109_in_value); values are numbers with units, braces or quoted texts without quotation marks and without a colon before a blank. One name per call. C109_accepted: such calls are carried out and change only that component. Removal of whole texts, adding before the pins and rewriting in place are all covered by C109_session."
  },
  {
   "property": "C110",
   "status": "proved",
   "theorems": [
    "Props.RunSnap.C110_snapshot",
    "Props.RunSnap.C110_worst_case",
    "Props.RunSnap.C110_sensitivity",
    "Props.RunSnap.C110_monte_carlo",
    "Props.RunSnap.C110_run_name_witness"
   ],
   "note": "Values are the texts that are written; which elements are collected and their numbers are C14, C17, C71. Elements have names of their own and none is the parameter named run (which the analyses overwrite: C110_run_name_witness). Every set of an element is legal on the netlist of the file (Elements)."
  },
  {
   "property": "C111",
   "status": "proved",
   "theorems": [
    "Props.FastFiles.C111_fast_worst_case",
    "Props.FastFiles.C111_extremes"
   ],
   "note": "Refinement of C50 (the algorithm on configurations) to the editor and the files: C111_fast_worst_case; C111_extremes transfers what C50 says. Every simulation is assumed to succeed; values are the texts written; the files are not removed at the end; the nominal level of an element is whatever the netlist says. Like in C50 the number of turns of the last loop is given as fuel, without bound."
  },
  {
   "property": "C112",
   "status": "proved",
   "theorems": [
    "Props.QLine.C112_draws",
    "Props.QLine.C112_line",
    "Props.QLine.C112_removed",
    "Props.QLine.C112_instructions"
   ],
   "note": "C112_draws: what the component says in the saved file; C112_line: its line (joins C107 and C69); C112_removed: a removed component; C112_instructions: the instruction lines of the whole netlist are the bare texts that the calls make of the texts at the start (Spec.QSession.TextsRun), in their order. The types with a line of their own kind (C69 special) are covered by C112_draws with the other C69 theorems, Verilog blocks (type \u00d8) are left out: their name is the value. The nets are any words: how wires give them is C68."
  },
  {
   "property": "C113",
   "status": "proved",
   "theorems": [
    "Props.QPartsLine.C113_draws",
    "Props.QPartsLine.C113_line"
   ],
   "note": "C113_draws: what the component says in the saved file (also types with a line of their own kind, through the other C69 theorems); C113_line: its line. Limits of C109 (names that occur in the value) and C69 apply; Verilog blocks (type \u00d8) are left out. ex_line and ex_text: a sample session."
  }
 ]
}