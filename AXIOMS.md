# Axioms of the property theorems

Written by `tools/axioms.py` from the output of `#print axioms`. p: `propext`, c: `Classical.choice`, q: `Quot.sound`, -: none.

* C01: `Intervals.C01_contains_iff_covered` cqp, `Intervals.C01_order_irrelevant` cqp, `Intervals.C01_empty_ranges_ignored` cqp
* C02: `Intervals.C02_len_exact_loose_partial` cqp, `Intervals.C02_negation` cqp, `Intervals.C02_len_upper_bound_partial` cqp, `Intervals.C02_len_exact_of_disjoint_partial` cqp, `Intervals.C02_len_exact_le_two_partial` cqp, `Intervals.C02_len_exact_separated_partial` cqp
* C03: `Intervals.C03_and_is_union` cqp, `Intervals.C03_result_well_formed` cqp, `Intervals.C03_and_is_union_pure` cqp
* C04: `Intervals.C04_negation` cqp, `Intervals.C04_operands_unchanged_partial` cqp, `Intervals.C04_members_never_lost_partial` cqp
* C05: `Iteration.C05_indices_match_execution` cqp, `Iteration.C05_global_iterator_counts_execution` cqp, `Iteration.C05_roundtrip_iteration` cqp, `Iteration.C05_roundtrip_indices` cqp, `Iteration.C05_max_iteration` cqp
* C06: `Iteration.C06_negation` -, `Iteration.C06_negation_inverse` -, `Iteration.C06_first_iterations_partial` cqp, `Iteration.C06_iteration_iff` cqp, `Iteration.C06_loop_iff` cqp, `Iteration.C06_inverse_iff` cqp
* C07: `Iteration.C07_negation` qp, `Iteration.C07_negation_positive` qp, `Iteration.C07_iteration_length_partial` cqp, `Iteration.C07_dimension_length_partial` cqp, `Iteration.C07_zero_increment_rejected` qp, `Iteration.C07_requested_iterations_checked` cqp, `Iteration.C07_requested_iterations_iff` cqp, `Iteration.C07_single_iff` cqp
* C08: `Layout.C08_in_bounds` cqp, `Layout.C08_injective` cqp, `Layout.C08_surjective` cqp, `Layout.C08_is_c_position` cqp
* C09: `Layout.C09_declaration` qp, `Layout.C09_scalar_declaration` -, `Layout.C09_reference` cqp, `Layout.C09_unknown_array_rejected` cqp, `Layout.C09_declared_array` qp, `Layout.C09_subscripted_array` cqp
* C10: `Layout.C10_regions_disjoint` cqp, `Layout.C10_offsets_are_element_addresses` cqp, `Layout.C10_offset_in_own_region` cqp, `Layout.C10_no_common_byte` cqp, `Layout.C10_counters` cqp
* C11: `Layout.C11_bases_aligned` cqp, `Layout.C11_declaration_order_irrelevant` cqp, `Layout.C11_every_array_placed` cqp, `Layout.C11_padding_below_cacheline` cqp
* C12: `Constants.C12_negation` cqp, `Constants.C12_fresh_partial` cqp, `Constants.C12_clear_set_use_partial` cqp, `Constants.C12_values_partial` cqp, `Constants.C12_since_clear_partial` cqp
* C13: `Constants.C13_last_write_wins` cqp, `Constants.C13_set_constant_effect` cqp, `Constants.C13_rejections` cqp, `Constants.C13_sorted` cqp, `Constants.C13_negation_mixed_symbols` cqp, `Constants.C13_strictly_sorted_partial` cqp, `Constants.C13_order_independent_partial` cqp
* C14: `Locking.C14_writer_is_exclusive` cqp, `Locking.C14_reader_sees_complete_file` cqp, `Locking.C14_no_writer_beside_reader` cqp, `Locking.C14_broken_without_flock` cqp
* C15: `Locking.C15_no_deadlock` cqp, `Locking.C15_waiting_process_can_proceed` cqp, `Locking.C15_bounded_protocol_steps` cqp
* C16: `Locking.C16_negation` cqp, `Locking.C16_crash_outside_write_partial` cqp, `Locking.C16_crash_does_not_block_partial` cqp
* C17: `IncoreCache.C17_negation` p, `IncoreCache.C17_same_arguments_partial` qp, `IncoreCache.C17_result_of_some_call_partial` qp, `IncoreCache.C17_result` cqp, `IncoreCache.C17_right_iff` cqp
* C18: `LayerCond.C18_every_access_counted` cqp
* C19: `LayerCond.C19_larger_cache_misses_less` cqp
* C20: `LayerCond.C20_negation` cqp, `LayerCond.C20_any_order_partial` cqp, `LayerCond.C20_ascending_order_partial` cqp, `LayerCond.C20_full_caching` cqp, `LayerCond.C20_counted_hits_numeric` cqp, `LayerCond.C20_lines_any_order_partial` cqp, `LayerCond.C20_misses_per_line_partial` cqp, `LayerCond.C20_negation_lines` cqp
* C21: `LayerCond.C21_option_selected` qp, `LayerCond.C21_all_levels_resolved` qp, `LayerCond.C21_statistics_consistent` qp, `LayerCond.C21_no_cache_levels_rejected` -
* C22: `Machine.C22_closest_ratio` cqp, `Machine.C22_read_only_target` cqp, `Machine.C22_only_reading_kernels` cqp, `Machine.C22_missing_load_rejected` cqp, `Machine.C22_measured_bandwidth` cqp
* C23: `Machine.C23_negation` -, `Machine.C23_one_core_count_partial` qp, `Machine.C23_first_request_partial` qp, `Machine.C23_request_iff` qp, `Machine.C23_zero_cores_rejected` qp
* C24: `Perf.C24_contributions` qp, `Perf.C24_each_level_once` qp, `Perf.C24_rejected_iff` qp, `Perf.C24_total_is_max` cqp, `Perf.C24_total_bounds_each` cqp
* C25: `Perf.C25_utilisation_bounds` cqp, `Perf.C25_utilisation_monotone` cqp, `Perf.C25_one_core` cqp, `Perf.C25_memory_bound` cqp, `Perf.C25_runtime_monotone` cqp, `Perf.C25_in_cache` cqp, `Perf.C25_saturation` cqp, `Perf.C25_too_many_cores_rejected` cqp
* C26: `Perf.C26_negation_cpu` cqp, `Perf.C26_negation_increment` cqp, `Perf.C26_data_partial` cqp, `Perf.C26_cpu_partial` cqp, `Perf.C26_data_iff` cqp, `Perf.C26_models_agree_partial` cqp, `Perf.C26_oversized_element_rejected` cqp
* C27: `Perf.C27_bottleneck` cqp, `Perf.C27_no_loads_rejected` cqp, `Perf.C27_bottleneck_asm` cqp
* C28: `Bench.C28_valid_plan` cqp
* C29: `Bench.C29_terminates` cqp, `Bench.C29_no_register_never_returns` qp, `Bench.C29_no_register_runs_forever` qp, `Bench.C29_described_events` cqp
* C30: `Bench.C30_range` cqp, `Bench.C30_expansion` cqp, `Bench.C30_names` cqp, `Bench.C30_empty_description` cqp, `Bench.C30_empty_alternative` cqp
* C31: `Machine.C31_format_parse` qp, `Machine.C31_parse_format` qp, `Machine.C31_rejected_iff` cqp
* C32: `Bench.C32_restored` p, `Bench.C32_fixed_inside` p, `Bench.C32_rejected_value` p, `Bench.C32_nested` p
* C33: `Cli.C33_all_integers` cqp, `Cli.C33_space` cqp, `Cli.C33_spaced` cqp, `Cli.C33_single` cqp, `Cli.C33_too_few_rejected` cqp, `Cli.C33_not_a_number_rejected` cqp
* C34: `Cli.C34_negation` cqp, `Cli.C34_negation_default` cqp, `Cli.C34_all_combinations_partial` cqp, `Cli.C34_each_once_partial` cqp, `Cli.C34_each_once_iff` cqp, `Cli.C34_missing_rejected` cqp, `Cli.C34_no_constants` cqp
* C35: `Cli.C35_new_leaves` p, `Cli.C35_old_leaves` qp, `Cli.C35_nothing_else` p, `Cli.C35_rejected_iff` p, `Cli.MergeFiles.C35_negation_version` qp, `Cli.MergeFiles.C35_version_partial` qp
* C36: `Tile.C36_terminates` cqp, `Tile.C36_zero_never_returns` cqp, `Tile.C36_window` cqp, `Tile.C36_negation` p, `Tile.C36_reported_partial` cqp, `Tile.C36_reported_iff` cqp
* C37: `Asm.C37_first_best` qp, `Asm.C37_empty` qp, `Asm.C37_only_instructions` cqp, `Asm.C37_packed_first` cqp
* C38: `Asm.C38_enclosed_partial` qp, `Asm.C38_nothing_lost` p, `Asm.C38_negation` p
* C39: `Asm.C39_found_partial` cqp, `Asm.C39_new_file` cqp, `Asm.C39_others_partial` cqp, `Asm.C39_history_partial` cqp, `Asm.C39_negation_second` cqp, `Asm.C39_negation_incomplete` cqp
* C40: `Clean.C40_macros` cqp, `Clean.C40_block_comments_partial` cqp, `Clean.C40_line_comments_partial` cqp, `Clean.C40_mixed_partial` cqp, `Clean.C40_negation` cqp, `Clean.C40_negation_endless` cqp
* C41: `Units.C41_negation_prefixes` cqp, `Units.C41_prefixes_partial` cqp, `Units.C41_with_prefix` cqp, `Units.C41_reduced` cqp, `Units.C41_add_sub_partial` cqp, `Units.C41_unit_mismatch` cqp, `Units.C41_mul_div_partial` cqp, `Units.C41_scale_partial` cqp, `Units.C41_floordiv_mod_partial` cqp, `Units.C41_abs_partial` cqp, `Units.C41_negation_resplit` cqp, `Units.C41_negation_no_unit` cqp, `Units.C41_add_right_iff` cqp, `Units.C41_line_break` cqp
* C42: `Cli.C42_crash` cqp, `Cli.C42_restarts` cqp, `Cli.C42_complete` cqp
* C43: `Cli.C43_negation` qp, `Cli.C43_kept_partial` qp, `Cli.C43_unchanged_partial` qp, `Cli.C43_sequential_partial` qp, `Cli.C43_negation_bytes` p
* C44: `Cli.C44_structure` p, `Cli.C44_injective` p, `Cli.C44_identifier` cqp, `Cli.C44_same_identifier` cqp, `Cli.C44_first_occurrences` cqp, `Cli.C44_models` cqp
* C45: `Parse.C45_flop_counts_partial` cqp, `Parse.C45_steps` cqp, `Parse.C45_negation` cqp
* C46: `Parse.C46_accepted_heads` cqp, `Parse.C46_iterations_partial` cqp, `Parse.C46_negation_octal` cqp, `Parse.C46_negation_zero` cqp, `Parse.C46_negation_counter` cqp
* C47: `Sim.C47_meaning` cqp, `Sim.C47_antisymmetric` cqp, `Sim.C47_transitive` cqp
* C48: `Sim.C48_terminates` qp, `Sim.C48_aligned_partial` cqp, `Sim.C48_negation_alignment` qp, `Sim.C48_negation_beyond` p, `Sim.C48_ranges_partial` cqp
* C49: `Perf.C49_blocking` cqp, `Perf.C49_zero_block_rejected` qp, `Perf.C49_negation` cqp, `Perf.C49_round_partial` cqp, `Perf.C49_round_truncates` cqp, `Perf.C49_round_iff` cqp, `Perf.C49_ceildiv` cqp
* C50: `Machine.C50_call_wins` p, `Machine.C50_command_line_next` p, `Machine.C50_machine_file_last` cqp, `Machine.C50_none_available` qp, `Machine.C50_unknown_compiler_no_flags` p
* C51: `Paths.C51_kernels` cqp, `Paths.C51_setups_partial` cqp, `Paths.C51_negation_machines` cqp, `Paths.C51_negation_flags` cqp
* C52: `Standalone.C52_adjustment` cqp, `Standalone.C52_limits` cqp, `Standalone.C52_terminates_partial` cqp, `Standalone.C52_negation_zero_start` cqp, `Standalone.C52_negation_zero_runtime` cqp
* C53: `CodeGen.C53_call` qp, `CodeGen.C53_order` qp, `CodeGen.C53_scalars` qp, `CodeGen.C53_negation_names` p, `CodeGen.C53_names` cqp
* C54: `Machine.C54_negation` p, `Machine.C54_negation_shared` p, `Machine.C54_first_model_partial` qp, `Machine.C54_other_files_untouched_partial` qp, `Machine.C54_rejections` p, `Machine.C54_later_iff` qp
* C55: `Parse.C55_accepted_iff_grammar` cqp
* C56: `Asm.C56_justified_partial` cqp, `Asm.C56_negation_unrecognised` cqp, `Asm.C56_negation_lea` cqp, `Asm.C56_no_late_error` p, `Asm.C56_one_instruction_partial` cqp
* C57: `Perf.C57_scaled` cqp, `Perf.C57_not_below_throughput` cqp, `Perf.C57_rejected_iff` cqp
* C58: `LayerCond.C58_telescope` cqp, `LayerCond.C58_count` cqp, `LayerCond.C58_nonneg` qp, `LayerCond.C58_code_order_nonneg` cqp, `LayerCond.C58_predictor_distances` cqp, `LayerCond.C58_code_order_negative` p
* C59: `Cli.C59_negation` p, `Cli.C59_stored_partial` qp, `Cli.C59_stored_iff` qp
* C60: `Cli.C60_negation` p, `Cli.C60_prefix_partial` qp, `Cli.C60_accepted_partial` qp, `Cli.C60_accepted_iff` qp
* C61: `Bench.C61_minimal_partial` cqp, `Bench.C61_negation` qp
* C62: `Tile.C62_negation` cqp, `Tile.C62_close_partial` cqp
* C63: `Asm.C63_addresses_partial` cqp, `Asm.C63_right_iff` cqp, `Asm.C63_negation` cqp
* C64: `Asm.C64_negation` p, `Asm.C64_order_partial` cqp
* C65: `Clean.C65_exact_partial` cqp, `Clean.C65_negation_adjacent` cqp, `Clean.C65_negation_overlap` cqp, `Clean.C65_negation_wrap` cqp
* C66: `Parse.C66_references_partial` cqp, `Parse.C66_negation_octal` cqp
* C67: `Parse.C67_index_type` cqp, `Parse.C67_differing_types` cqp
* C68: `Paths.C68_same_file` qp, `Paths.C68_not_longer` qp
* C69: `Standalone.C69_loop_ends_partial` cqp, `Standalone.C69_negation` cqp
* C70: `Standalone.C70_iterations_partial` cqp, `Standalone.C70_iterations_iff` cqp, `Standalone.C70_negation_step` cqp, `Standalone.C70_negation_empty` cqp
* C71: `CodeGen.C71_values_partial` cqp, `CodeGen.C71_large` cqp, `CodeGen.C71_values_iff` cqp, `CodeGen.C71_negation` cqp
* C72: `CodeGen.C72_reuse_partial` cqp, `CodeGen.C72_value_iff` cqp, `CodeGen.C72_new_constants` qp, `CodeGen.C72_negation` cqp
* C73: `Measure.C73_repetitions` cqp, `Measure.C73_terminates_partial` cqp, `Measure.C73_long_enough_partial` cqp, `Measure.C73_result_iff` cqp, `Measure.C73_negation_zero` cqp, `Measure.C73_negation_iterations` cqp
* C74: `Measure.C74_iterations_partial` cqp, `Measure.C74_iterations_iff` cqp, `Measure.C74_negation_step` cqp, `Measure.C74_negation_empty` cqp
* C75: `Measure.C75_sound` qp, `Measure.C75_complete_partial` cqp, `Measure.C75_names_partial` cqp, `Measure.C75_negation` qp
* C76: `Clean.C76_exact_partial` cqp, `Clean.C76_negation_space` cqp, `Clean.C76_negation_pragma` cqp, `Clean.C76_negation_continued` cqp
* C77: `Transfer.C77_cache_level` cqp, `Transfer.C77_cache_level_rejected` cqp, `Transfer.C77_memory_partial` cqp, `Transfer.C77_memory_iff` cqp, `Transfer.C77_negation_duplex` cqp, `Transfer.C77_negation_element` cqp, `Transfer.C77_all_levels_partial` cqp, `Transfer.C77_penalty` cqp
* C78: `Transfer.C78_limits_partial` cqp, `Transfer.C78_negation` cqp, `Transfer.C78_limits_iff` cqp, `Transfer.C78_nothing_moved_rejected` cqp
* C79: `Transfer.C79_units_partial` cqp, `Transfer.C79_negation_increment` cqp, `Transfer.C79_units_iff` cqp, `Transfer.C79_zero_rejected` cqp
* C80: `Transfer.C80_negation` cqp, `Transfer.C80_reported_peak_partial` cqp, `Transfer.C80_verdict_partial` cqp, `Transfer.C80_wrong_iff` cqp, `Transfer.C80_unlimited` cqp, `Transfer.C80_asm_limit` cqp, `Transfer.C80_asm_rejected` cqp
* C81: `Units.C81_round_trip_partial` cqp, `Units.C81_negation_large` cqp, `Units.C81_negation_no_unit` cqp, `Units.C81_negation_negative` cqp, `Units.C81_negation_unit` cqp
* C82: `Asm.C82_x86_partial` cqp, `Asm.C82_aarch64_partial` cqp, `Asm.C82_negation` cqp, `Asm.C82_negation_aarch64` p
* C83: `CodeGen.C83_allocated` qp, `CodeGen.C83_size_partial` cqp, `CodeGen.C83_size_iff` cqp, `CodeGen.C83_position_partial` cqp, `CodeGen.C83_negation` p
* C84: `DistKey.C84_order_partial` cqp, `DistKey.C84_equal_partial` cqp, `DistKey.C84_infinite` cqp, `DistKey.C84_negation_symbols` cqp, `DistKey.C84_negation_sign` qp, `DistKey.C84_negation_rejected` p
* C85: `Split.C85_same_element` cqp, `Split.C85_subscripts_partial` cqp, `Split.C85_negation_literals` cqp, `Split.C85_negation_rejected` cqp
* C86: `Applicable.C86_advances_partial` cqp, `Applicable.C86_increments` cqp, `Applicable.C86_subscripts_partial` cqp, `Applicable.C86_stencils_partial` cqp, `Applicable.C86_negation_power` cqp, `Applicable.C86_negation_literals` cqp, `Applicable.C86_negation_outer` cqp
* C87: `PredCache.C87_one_machine_partial` cqp, `PredCache.C87_reused` cqp, `PredCache.C87_negation` cqp, `PredCache.C87_other_machine_iff` cqp
* C88: `BenchUpdate.C88_exceeds_previous_partial` cqp, `BenchUpdate.C88_fits_partial` cqp, `BenchUpdate.C88_first_level` cqp, `BenchUpdate.C88_memory_partial` cqp, `BenchUpdate.C88_memory_iff` cqp, `BenchUpdate.C88_sizes` cqp, `BenchUpdate.C88_negation_groups` cqp, `BenchUpdate.C88_negation_small` cqp, `BenchUpdate.C88_negation_memory` cqp
* C89: `BenchUpdate.C89_replaced_iff_incomplete` cqp, `BenchUpdate.C89_current_partial` cqp, `BenchUpdate.C89_negation` cqp
* C90: `BenchUpdate.C90_results` cqp, `BenchUpdate.C90_kept_partial` qp, `BenchUpdate.C90_negation_interrupted` cqp, `BenchUpdate.C90_kept_iff` cqp
* C91: `Relational.C91_same_truth` cqp, `Relational.C91_form` cqp, `Relational.C91_rejected_iff` cqp
* C92: `PerfMetric.C92_found_partial` cqp, `PerfMetric.C92_renamed_partial` cqp, `PerfMetric.C92_identifier` cqp, `PerfMetric.C92_event` cqp, `PerfMetric.C92_negation_minus` cqp, `PerfMetric.C92_negation_inside` cqp, `PerfMetric.C92_negation_name` cqp
* C93: `A64.C93_names` cqp, `A64.C93_registers_partial` cqp, `A64.C93_addresses_partial` cqp, `A64.C93_found` cqp, `A64.C93_executions` cqp, `A64.C93_movement_unique` cqp, `A64.C93_negation_difference` cqp, `A64.C93_negation_shift` cqp, `A64.C93_negation_overwritten` cqp, `A64.C93_negation_scale` cqp, `A64.C93_negation_both` cqp, `A64.C93_negation_index` cqp, `A64.C93_negation_sub` cqp, `A64.C93_negation_update` cqp
* C94: `Replace.C94_replaced_partial` qp, `Replace.C94_names` qp, `Replace.C94_main_partial` qp, `Replace.C94_order_partial` qp, `Replace.C94_negation_skipped` p, `Replace.C94_negation_endless` p, `Replace.C94_negation_name` p
* C95: `ArrayInit.C95_initialised_partial` cqp, `ArrayInit.C95_negation_swap` cqp
* C96: `Topology.C96_hierarchy_partial` cqp, `Topology.C96_chain_partial` cqp, `Topology.C96_cores_partial` cqp, `Topology.C96_negation_placeholders` cqp, `Topology.C96_negation_groups` cqp
* C97: `Topology.C97_readouts_partial` cqp, `Topology.C97_readouts_iff` cqp, `Topology.C97_negation_numa` cqp
* C98: `Analyzer.C98_mca_partial` cqp, `Analyzer.C98_rows` qp, `Analyzer.C98_negation_names` cqp
* C99: `Analyzer.C99_iaca` cqp
* C100: `BenchRun.C100_fastest` cqp, `BenchRun.C100_bandwidth` cqp
* C101: `BenchRun.C101_threads_partial` cqp, `BenchRun.C101_threads_iff` cqp, `BenchRun.C101_negation_three` cqp
* C102: `Pheno.C102_loop_partial` cqp, `Pheno.C102_negation_fraction` cqp, `Pheno.C102_negation_rest` cqp
* C103: `Pheno.C103_define_partial` cqp, `Pheno.C103_negation_any` cqp, `Pheno.C103_negation_points` cqp, `Pheno.C103_negation_point` cqp
* C104: `Pheno.C104_repetitions` cqp, `Pheno.C104_flops` cqp, `Pheno.C104_flops_twice` cqp
* C105: `MainRun.C105_repetitions_partial` cqp, `MainRun.C105_iff` cqp, `MainRun.C105_negation_overflow` cqp
* C106: `PerfOut.C106_output_partial` cqp, `PerfOut.C106_negation_cores` cqp, `PerfOut.C106_negation_option` cqp, `PerfOut.C106_negation_missing` cqp
* C107: `Marking.C107_increment_partial` cqp, `Marking.C107_negation_negative` cqp, `Marking.C107_negation_other` cqp, `Marking.C107_increment_iff` cqp
* C108: `Marking.C108_block_partial` cqp, `Marking.C108_increment` cqp, `Marking.C108_undetected` cqp, `Marking.C108_success` cqp, `Marking.C108_negation_number` cqp, `Marking.C108_negation_in_place` cqp
* C109: `PhenoEcm.C109_measurement` cqp, `PhenoEcm.C109_conversion_partial` cqp, `PhenoEcm.C109_conversion_iff` cqp, `PhenoEcm.C109_negation_step` cqp
* C110: `PhenoEcm.C110_transfers_partial` cqp, `PhenoEcm.C110_per_cacheline` cqp, `PhenoEcm.C110_negation_duplex` cqp, `PhenoEcm.C110_negation_levels` cqp, `PhenoEcm.C110_negation_nonoverlapping` cqp
* C111: `KernelFn.C111_call_partial` cqp, `KernelFn.C111_call_iff` cqp, `KernelFn.C111_negation_names` p
* C112: `Pragmas.C112_sequential` cqp, `Pragmas.C112_parallel_partial` cqp, `Pragmas.C112_negation_place` cqp, `Pragmas.C112_negation_letters` cqp, `Pragmas.C112_negation_region` cqp
* C113: `LockOrder.C113_no_deadlock` cqp, `LockOrder.C113_ends` cqp, `LockOrder.C113_exclusive` cqp
* C114: `CleanUp.C114_partial` cqp, `CleanUp.C114_negation_writers` cqp, `CleanUp.C114_negation_reader` cqp
* C115: `SimResult.C115_per_line_partial` cqp, `SimResult.C115_negation_short` cqp, `SimResult.C115_negation_negative` cqp, `SimResult.C115_negation_stride` cqp
* C116: `Version.C116_order_partial` cqp, `Version.C116_order_iff` cqp, `Version.C116_accepted_partial` cqp, `Version.C116_negation_release` cqp, `Version.C116_negation_development` cqp, `Version.C116_negation_text` cqp, `Version.C116_accepted_iff` cqp
* C117: `Json.C117_all_results` cqp, `Json.C117_values_partial` cqp, `Json.C117_tuples_partial` cqp, `Json.C117_texts_partial` cqp, `Json.C117_negation_none` cqp, `Json.C117_negation_keys` cqp
* C118: `Generate.C118_update_partial` p, `Generate.C118_new_partial` p, `Generate.C118_compare_partial` p, `Generate.C118_missing` qp, `Generate.C118_others` qp, `Generate.C118_negation_same` p, `Generate.C118_negation_compare` p, `Generate.C118_negation_stdout` p, `Generate.C118_negation_stdin` p, `Generate.C118_negation_render` p
* C119: `Units.C119_sizes_partial` cqp, `Units.C119_same_prefix` cqp, `Units.C119_sizes_iff` cqp, `Units.C119_order` cqp, `Units.C119_objects` cqp, `Units.C119_negation_prefix` cqp, `Units.C119_negation_units` cqp, `Units.C119_negation_text` cqp
* C120: `Intervals.C120_sound` cqp, `Intervals.C120_iff_partial` cqp, `Intervals.C120_negation` cqp
* C121: `Required.C121_needed` qp, `Required.C121_numbers_partial` cqp, `Required.C121_numbers_iff` cqp, `Required.C121_negation_increment` p, `Required.C121_negation_triangular` p
* C122: `Osaca.C122_throughput` cqp, `Osaca.C122_ports` qp, `Osaca.C122_ports_last` cqp, `Osaca.C122_ecm` cqp
* C123: `Options.C123_block` cqp, `Options.C123_increment` cqp, `Options.C123_unit_partial` p, `Options.C123_unit_iff` p, `Options.C123_negation_unit` cqp, `Options.C123_incore_partial` cqp, `Options.C123_first` cqp, `Options.C123_negation_incore` -
* C124: `Readout.C124_history` cqp, `Readout.C124_update` cqp
* C125: `Readout.C125_same_partial` cqp, `Readout.C125_missing` cqp, `Readout.C125_right_iff` cqp, `Readout.C125_negation_caches` p
* C126: `RegionOut.C126_regions_partial` cqp, `RegionOut.C126_negation_option` cqp, `RegionOut.C126_negation_cores` cqp
* C127: `RoofReport.C127_asm_partial` cqp, `RoofReport.C127_flop_partial` cqp, `RoofReport.C127_negation_unit` cqp
* C128: `KernelText.C128_lines` cqp, `KernelText.C128_parsed_partial` cqp, `KernelText.C128_cleaned` cqp, `KernelText.C128_negation_block` cqp
* C129: `Datatype.C129_declare` cqp, `Datatype.C129_describe` qp, `Datatype.C129_precision_partial` p, `Datatype.C129_precision_iff` cqp, `Datatype.C129_negation_precision` cqp
* C130: `Description.C130_read_partial` cqp, `Description.C130_negation_number` cqp, `Description.C130_negation_function` cqp
* C131: `TileRun.C131_choice_partial` cqp, `TileRun.C131_constants` cqp, `TileRun.C131_negation_scalar` cqp, `TileRun.C131_negation_arguments` cqp
* C132: `Reports.C132_stdout` qp, `Reports.C132_file_partial` cqp, `Reports.C132_verbose` qp, `Reports.C132_results` cqp, `Reports.C132_warning_partial` cqp, `Reports.C132_negation_file` cqp, `Reports.C132_negation_warning` cqp
* C133: `Reports.C133_benchmark` cqp, `Reports.C133_standalone_partial` cqp, `Reports.C133_negation_columns` cqp
* C134: `Refs.C134_simulated_partial` cqp, `Refs.C134_layer_conditions` qp, `Refs.C134_layer_conditions_accepted` qp, `Refs.C134_negation_undeclared` cqp, `Refs.C134_negation_subscripts` cqp
* C135: `Repetitions.C135_own_partial` cqp, `Repetitions.C135_shared` cqp, `Repetitions.C135_own_iff` cqp, `Repetitions.C135_missing` cqp, `Repetitions.C135_negation_shared` cqp
* C136: `Guard.C136_machine` cqp, `Guard.C136_model_partial` cqp, `Guard.C136_model_standalone_partial` p, `Guard.C136_clock_partial` cqp, `Guard.C136_clock_standalone_partial` cqp, `Guard.C136_standalone_needs_clock` cqp, `Guard.C136_negation_incomplete` cqp, `Guard.C136_negation_no_clock` cqp, `Guard.C136_negation_arguments` cqp
* C137: `Freshness.C137_current_partial` cqp, `Freshness.C137_reused` cqp, `Freshness.C137_changed` cqp, `Freshness.C137_no_file` qp, `Freshness.C137_negation_changed_while_running` p, `Freshness.C137_negation_stamp` p, `Freshness.C137_negation_zone` cqp
* C138: `Predict.C138_ecm_partial` cqp, `Predict.C138_ecm_inner_partial` cqp, `Predict.C138_ecm_reading_partial` cqp, `Predict.C138_roofline_partial` cqp, `Predict.C138_roofline_reading_partial` cqp, `Predict.C138_negation_ecm` cqp, `Predict.C138_negation_roofline` cqp
* C139: `Names.C139_layer` cqp, `Names.C139_ecm` cqp, `Names.C139_roofline` cqp, `Names.C139_simulation_partial` cqp, `Names.C139_elements` cqp, `Names.C139_negation_sets` cqp
* C140: `Sizes.C140_symbolic` cqp, `Sizes.C140_literal` cqp, `Sizes.C140_ecm` cqp, `Sizes.C140_distances` cqp
* C141: `LayerCond.C141_negation` cqp, `LayerCond.C141_any_order_partial` cqp, `LayerCond.C141_leading` cqp
* C142: `RegionEcm.C142_ecm_partial` cqp, `RegionEcm.C142_numbers_partial` cqp, `RegionEcm.C142_negation_accesses` cqp, `RegionEcm.C142_negation_parameters` cqp, `RegionEcm.C142_negation_foreign` p, `RegionEcm.C142_negation_volumes` cqp, `RegionEcm.C142_negation_steps` cqp
* C143: `AloneStore.C143_stored` cqp, `AloneStore.C143_apart_partial` cqp, `AloneStore.C143_apart_iff` cqp, `AloneStore.C143_negation_lost` cqp, `AloneStore.C143_negation_order` cqp
* C144: `Limits.C144_incore_partial` cqp, `Limits.C144_memory_partial` cqp, `Limits.C144_saturated` cqp, `Limits.C144_negation_cores` cqp, `Limits.C144_negation_increment` cqp, `Limits.C144_negation_duplex` cqp
* C145: `Share.C145_share_partial` qp, `Share.C145_fits_partial` qp, `Share.C145_more_cores` qp, `Share.C145_saturated` qp, `Share.C145_transfers` cqp, `Share.C145_ecm_partial` cqp, `Share.C145_negation_group` -, `Share.C145_negation_domain` -, `Share.C145_negation_ecm` cqp
* C146: `CoreRuns.C146_predictions_partial` qp, `CoreRuns.C146_conditions_partial` qp, `CoreRuns.C146_conditions_one` qp, `CoreRuns.C146_negation_layer` p, `CoreRuns.C146_negation_heading` p, `CoreRuns.C146_negation_before` p, `CoreRuns.C146_negation_after` p
* C147: `Settings.C147_arguments` cqp, `Settings.C147_rejected` cqp, `Settings.C147_unknown` cqp, `Settings.C147_keywords_partial` cqp, `Settings.C147_negation_predictor` cqp, `Settings.C147_predictor_iff` cqp, `Settings.C147_negation_number` cqp
* C148: `Install.C148_untouched` qp, `Install.C148_complete` cqp, `Install.C148_found_partial` qp, `Install.C148_failed` qp, `Install.C148_find` qp, `Install.C148_existing` p, `Install.C148_installs_partial` cqp, `Install.C148_repeat_partial` cqp, `Install.C148_negation_repeat` qp, `Install.C148_negation_fresh` cqp, `Install.C148_negation_forced` p, `Install.C148_negation_system` cqp
* C149: `LayerCond.C149_negation` cqp, `LayerCond.C149_hits_iff` cqp, `LayerCond.C149_count` cqp, `LayerCond.C149_misses_partial` cqp
* C150: `Scopes.C150_main_partial` cqp, `Scopes.C150_taken` cqp, `Scopes.C150_kernel` cqp, `Scopes.C150_dummy` qp, `Scopes.C150_negation_repeat` cqp, `Scopes.C150_negation_swap` cqp, `Scopes.C150_negation_kernel` cqp
* C151: `Parallel.C151_independent_partial` cqp, `Parallel.C151_one_thread_partial` cqp, `Parallel.C151_possible` cqp, `Parallel.C151_completes` cqp, `Parallel.C151_negation_update` p, `Parallel.C151_negation_late` p, `Parallel.C151_negation_auxiliary` p, `Parallel.C151_negation_recurrence` p, `Parallel.C151_negation` qp
* C152: `Parallel.C152_initialised` qp, `Parallel.C152_determined` qp, `Parallel.C152_result` cqp, `Parallel.C152_possible` cqp
* C153: `Parallel.C153_values` cqp, `Parallel.C153_threads_partial` cqp, `Parallel.C153_one_thread_partial` cqp, `Parallel.C153_same_partial` cqp, `Parallel.C153_possible` cqp, `Parallel.C153_negation_orders` cqp, `Parallel.C153_negation` cqp
* C154: `Cli.MergeFiles.C154_merged_partial` qp, `Cli.MergeFiles.C154_failed` qp, `Cli.MergeFiles.C154_rejected` qp, `Cli.MergeFiles.C154_negation_version` qp, `Cli.MergeFiles.C154_negation_stopped` cqp, `Cli.MergeFiles.C154_negation` cqp
* C155: `Launch.C155_environment` cqp, `Launch.C155_cores_partial` cqp, `Launch.C155_iff` cqp, `Launch.C155_negation` cqp, `Launch.C155_socket_partial` cqp
* C156: `Indent.C156_indent_iff` cqp, `Indent.C156_negation_later` cqp, `Indent.C156_printed_read` cqp, `Indent.C156_accesses_lines` cqp, `Indent.C156_accesses_read` cqp, `Indent.C156_head` cqp, `Indent.C156_columns_iff` cqp, `Indent.C156_negation_columns` cqp, `Indent.C156_loops_partial` cqp, `Indent.C156_operations_partial` cqp, `Indent.C156_variables_partial` cqp, `Indent.C156_constants_partial` cqp
* C157: `Regions.C157_regions` cqp, `Regions.C157_result_iff` cqp, `Regions.C157_ends` cqp
* C158: `Refresh.C158_keeps_iff` cqp, `Refresh.C158_keeps_partial` cqp, `Refresh.C158_negation_throughput` cqp, `Refresh.C158_negation_overwrite` cqp, `Refresh.C158_negation_name` cqp, `Refresh.C158_entries` cqp
* C159: `Whole.C159_accepted` qp, `Whole.C159_whole_partial` cqp, `Whole.C159_accepted_iff` cqp, `Whole.C159_negation` p
* C160: `DataTable.C160_table_partial` cqp, `DataTable.C160_written_iff` cqp, `DataTable.C160_negation` cqp
* C161: `Dialect.C161_version` cqp, `Dialect.C161_markers` cqp, `Dialect.C161_marked_iff` cqp, `Dialect.C161_llvm_mca` cqp, `Dialect.C161_osaca_partial` cqp, `Dialect.C161_before` qp, `Dialect.C161_negation` cqp
* C162: `Contexts.C162_restored` qp, `Contexts.C162_key` p, `Contexts.C162_room_partial` qp, `Contexts.C162_depth_iff` cqp, `Contexts.C162_negation` cqp
* C163: `Contexts.C163_total` cqp, `Contexts.C163_transitive` cqp, `Contexts.C163_grouped` cqp
* C164: `Plot.C164_ends_iff` cqp, `Plot.C164_samples_partial` cqp, `Plot.C164_samples_iff` cqp, `Plot.C164_outside` cqp, `Plot.C164_roof_partial` cqp, `Plot.C164_line_partial` cqp, `Plot.C164_negation` cqp
* C165: `Sanitize.C165_name_iff` qp, `Sanitize.C165_name_partial` qp, `Sanitize.C165_unchanged_iff` qp, `Sanitize.C165_idempotent` qp, `Sanitize.C165_characters` qp, `Sanitize.C165_negation` qp
* C166: `Units.C166_text_partial` cqp, `Units.C166_reduced` cqp, `Units.C166_negative` cqp, `Units.C166_negation_negative` cqp, `Units.C166_right_iff` cqp
