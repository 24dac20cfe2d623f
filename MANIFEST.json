{
 "claims": [
  {
   "property": "C01",
   "status": "proved",
   "theorems": [
    "Verif.Intervals.C01_contains_iff_covered",
    "Verif.Intervals.C01_order_irrelevant",
    "Verif.Intervals.C01_empty_ranges_ignored"
   ],
   "note": "Membership equals coverage by any given non-empty range, for every list of ranges in every order."
  },
  {
   "property": "C02",
   "status": "partial",
   "theorems": [
    "Verif.Intervals.C02_len_exact_loose_partial",
    "Verif.Intervals.C02_negation",
    "Verif.Intervals.C02_len_upper_bound_partial",
    "Verif.Intervals.C02_len_exact_of_disjoint_partial",
    "Verif.Intervals.C02_len_exact_le_two_partial",
    "Verif.Intervals.C02_len_exact_separated_partial"
   ],
   "note": "The claim is false in the code: three nested or overlapping ranges can be counted twice (C02_negation). Proved: the length never under-counts, and it is exact for at most two ranges, for disjoint ranges and for ranges separated in input order, and more generally if of any three ranges one is apart from the two others."
  },
  {
   "property": "C03",
   "status": "proved",
   "theorems": [
    "Verif.Intervals.C03_and_is_union",
    "Verif.Intervals.C03_result_well_formed",
    "Verif.Intervals.C03_and_is_union_pure"
   ],
   "note": "The result of & contains exactly the members of both operands, and its stored ranges are well formed."
  },
  {
   "property": "C04",
   "status": "partial",
   "theorems": [
    "Verif.Intervals.C04_negation",
    "Verif.Intervals.C04_operands_unchanged_partial",
    "Verif.Intervals.C04_members_never_lost_partial"
   ],
   "note": "The claim is false in the code: the left operand's list is extended in place (C04_negation). Proved: the right operand is untouched and the left one never loses members."
  },
  {
   "property": "C05",
   "status": "proved",
   "theorems": [
    "Verif.Iteration.C05_indices_match_execution",
    "Verif.Iteration.C05_global_iterator_counts_execution",
    "Verif.Iteration.C05_roundtrip_iteration",
    "Verif.Iteration.C05_roundtrip_indices",
    "Verif.Iteration.C05_max_iteration"
   ],
   "note": "Index arithmetic agrees with the executed order of the loop nest, both round trips and the last iteration number; any nesting depth."
  },
  {
   "property": "C06",
   "status": "partial",
   "theorems": [
    "Verif.Iteration.C06_negation",
    "Verif.Iteration.C06_negation_inverse",
    "Verif.Iteration.C06_first_iterations_partial",
    "Verif.Iteration.C06_iteration_iff",
    "Verif.Iteration.C06_loop_iff",
    "Verif.Iteration.C06_inverse_iff"
   ],
   "note": "The claim is false in the code for increments above one, in both directions (C06_negation, C06_negation_inverse). Proved: indices are right while outer iteration times increment stays below the trip count of the outermost loop. C06_iteration_iff, C06_loop_iff and C06_inverse_iff say exactly when the answer is right: for all iterations of the outermost loop if and only if its increment is one or it has at most one iteration."
  },
  {
   "property": "C07",
   "status": "partial",
   "theorems": [
    "Verif.Iteration.C07_negation",
    "Verif.Iteration.C07_negation_positive",
    "Verif.Iteration.C07_iteration_length_partial",
    "Verif.Iteration.C07_dimension_length_partial",
    "Verif.Iteration.C07_zero_increment_rejected",
    "Verif.Iteration.C07_requested_iterations_checked",
    "Verif.Iteration.C07_requested_iterations_iff",
    "Verif.Iteration.C07_single_iff"
   ],
   "note": "The claim is false for loops whose end lies below start - incr + 1 (C07_negation). Proved exactly for all other nests, per dimension, plus the rejection of zero increments and of out-of-range iterations. C07_single_iff gives the exact condition for one loop."
  },
  {
   "property": "C08",
   "status": "proved",
   "theorems": [
    "Verif.Layout.C08_in_bounds",
    "Verif.Layout.C08_injective",
    "Verif.Layout.C08_surjective",
    "Verif.Layout.C08_is_c_position"
   ],
   "note": "In-bounds, injective, surjective and equal to the C element position, for any number of dimensions."
  },
  {
   "property": "C09",
   "status": "proved",
   "theorems": [
    "Verif.Layout.C09_declaration",
    "Verif.Layout.C09_scalar_declaration",
    "Verif.Layout.C09_reference",
    "Verif.Layout.C09_unknown_array_rejected",
    "Verif.Layout.C09_declared_array",
    "Verif.Layout.C09_subscripted_array"
   ],
   "note": "Rewritten declarations have the modelled number of elements; rewritten references evaluate to the modelled position; unknown arrays are rejected. References with one subscript are left as they are, as in the code."
  },
  {
   "property": "C10",
   "status": "proved",
   "theorems": [
    "Verif.Layout.C10_regions_disjoint",
    "Verif.Layout.C10_offsets_are_element_addresses",
    "Verif.Layout.C10_offset_in_own_region",
    "Verif.Layout.C10_no_common_byte",
    "Verif.Layout.C10_counters"
   ],
   "note": "Array regions never overlap, offsets are element addresses inside their own region, and no byte is shared."
  },
  {
   "property": "C11",
   "status": "proved",
   "theorems": [
    "Verif.Layout.C11_bases_aligned",
    "Verif.Layout.C11_declaration_order_irrelevant",
    "Verif.Layout.C11_every_array_placed",
    "Verif.Layout.C11_padding_below_cacheline"
   ],
   "note": "Bases are multiples of the cacheline size for powers of two, do not depend on declaration order, every array is placed, and padding stays below a cacheline."
  },
  {
   "property": "C12",
   "status": "partial",
   "theorems": [
    "Verif.Constants.C12_negation",
    "Verif.Constants.C12_fresh_partial",
    "Verif.Constants.C12_clear_set_use_partial",
    "Verif.Constants.C12_values_partial",
    "Verif.Constants.C12_since_clear_partial"
   ],
   "note": "The claim is false: set_constant after a query returns stale results (C12_negation). Proved for histories without memoised values and for clear_state, set_constant, query sequences. For all histories the result has the constants of now or of an earlier time since the last clear_state (C12_since_clear_partial). C12_values_partial gives the value of the result independently of the substitution."
  },
  {
   "property": "C13",
   "status": "partial",
   "theorems": [
    "Verif.Constants.C13_last_write_wins",
    "Verif.Constants.C13_set_constant_effect",
    "Verif.Constants.C13_rejections",
    "Verif.Constants.C13_sorted",
    "Verif.Constants.C13_negation_mixed_symbols",
    "Verif.Constants.C13_strictly_sorted_partial",
    "Verif.Constants.C13_order_independent_partial"
   ],
   "note": "Last write wins, rejection of bad values, sorted output. Sorting by name is not total on mixed symbols (C13_negation_mixed_symbols); strict sortedness and order independence hold for plain symbols."
  },
  {
   "property": "C14",
   "status": "proved",
   "theorems": [
    "Verif.Locking.C14_writer_is_exclusive",
    "Verif.Locking.C14_reader_sees_complete_file",
    "Verif.Locking.C14_no_writer_beside_reader",
    "Verif.Locking.C14_broken_without_flock"
   ],
   "note": "Invariant over all interleavings of any number of processes: a writer is alone, readers see complete files. C14_broken_without_flock shows that the lock is needed."
  },
  {
   "property": "C15",
   "status": "proved",
   "theorems": [
    "Verif.Locking.C15_no_deadlock",
    "Verif.Locking.C15_waiting_process_can_proceed",
    "Verif.Locking.C15_bounded_protocol_steps"
   ],
   "note": "In every reachable state with an unfinished process some process can move, and the number of protocol steps is bounded."
  },
  {
   "property": "C16",
   "status": "partial",
   "theorems": [
    "Verif.Locking.C16_negation",
    "Verif.Locking.C16_crash_outside_write_partial",
    "Verif.Locking.C16_crash_does_not_block_partial"
   ],
   "note": "The claim is false: a crash during the write leaves a truncated file that is read as up to date (C16_negation). Proved for crashes at all other points, and a crash never blocks other processes."
  },
  {
   "property": "C17",
   "status": "partial",
   "theorems": [
    "Verif.IncoreCache.C17_negation",
    "Verif.IncoreCache.C17_same_arguments_partial",
    "Verif.IncoreCache.C17_result_of_some_call_partial",
    "Verif.IncoreCache.C17_result",
    "Verif.IncoreCache.C17_right_iff"
   ],
   "note": "The claim is false: the cache key omits arguments that change the result (C17_negation). Proved: same arguments give the same result, and every cached result was produced by some call for the same key. C17_result: the result is always that of the first call for the in-core model since the inputs last changed that found a block; C17_right_iff says exactly when this is the result of the own arguments."
  },
  {
   "property": "C18",
   "status": "proved",
   "theorems": [
    "Verif.LayerCond.C18_every_access_counted"
   ],
   "note": "Hits plus misses is the number of accesses from which the distances were computed, in every option; evicts are bounded."
  },
  {
   "property": "C19",
   "status": "proved",
   "theorems": [
    "Verif.LayerCond.C19_larger_cache_misses_less"
   ],
   "note": "For every kernel, two cache sizes, and any enumeration order of equal keys."
  },
  {
   "property": "C20",
   "status": "partial",
   "theorems": [
    "Verif.LayerCond.C20_negation",
    "Verif.LayerCond.C20_any_order_partial",
    "Verif.LayerCond.C20_ascending_order_partial",
    "Verif.LayerCond.C20_full_caching",
    "Verif.LayerCond.C20_counted_hits_numeric",
    "Verif.LayerCond.C20_lines_any_order_partial",
    "Verif.LayerCond.C20_misses_per_line_partial",
    "Verif.LayerCond.C20_negation_lines"
   ],
   "note": "The claim is false for arbitrary orders within an iteration (C20_negation) and for lines of several elements in any order (C20_negation_lines). Proved for lines of one element: with one extra element per missing stream for every order, even changing ones; with exactly the requirement for the usual order of ascending offsets; and full caching for every trace. Proved for lines of several elements and arrays anywhere in memory: with two extra cachelines per missing stream accesses close behind another one hit, and the predicted misses bound the misses of every cacheline of iterations. Fully associative LRU; unit stride."
  },
  {
   "property": "C21",
   "status": "proved",
   "theorems": [
    "Verif.LayerCond.C21_option_selected",
    "Verif.LayerCond.C21_all_levels_resolved",
    "Verif.LayerCond.C21_statistics_consistent",
    "Verif.LayerCond.C21_no_cache_levels_rejected"
   ],
   "note": "An option is always selected, it is the first true one, its condition is what it claims, all levels resolve, and the per-level statistics agree."
  },
  {
   "property": "C22",
   "status": "proved",
   "theorems": [
    "Verif.Machine.C22_closest_ratio",
    "Verif.Machine.C22_read_only_target",
    "Verif.Machine.C22_only_reading_kernels",
    "Verif.Machine.C22_missing_load_rejected",
    "Verif.Machine.C22_measured_bandwidth"
   ],
   "note": "Closest ratio, ties, read-only targets, missing load kernel, and the returned value. Streams are integers; names are unique dictionary keys."
  },
  {
   "property": "C23",
   "status": "partial",
   "theorems": [
    "Verif.Machine.C23_negation",
    "Verif.Machine.C23_one_core_count_partial",
    "Verif.Machine.C23_first_request_partial",
    "Verif.Machine.C23_request_iff",
    "Verif.Machine.C23_zero_cores_rejected"
   ],
   "note": "False as stated: the simulator is memoised without the core count (C23_negation). Proved: it always matches the first requested core count, hence histories with one core count are right; zero cores are rejected."
  },
  {
   "property": "C24",
   "status": "proved",
   "theorems": [
    "Verif.Perf.C24_contributions",
    "Verif.Perf.C24_each_level_once",
    "Verif.Perf.C24_rejected_iff",
    "Verif.Perf.C24_total_is_max",
    "Verif.Perf.C24_total_bounds_each"
   ],
   "note": "Exact composition for hierarchies of any depth; every level once; rejection exactly when an overlapping level follows a non-overlapping one; total bounds every contribution."
  },
  {
   "property": "C25",
   "status": "proved",
   "theorems": [
    "Verif.Perf.C25_utilisation_bounds",
    "Verif.Perf.C25_utilisation_monotone",
    "Verif.Perf.C25_one_core",
    "Verif.Perf.C25_memory_bound",
    "Verif.Perf.C25_runtime_monotone",
    "Verif.Perf.C25_in_cache",
    "Verif.Perf.C25_saturation",
    "Verif.Perf.C25_too_many_cores_rejected"
   ],
   "note": "Utilisation in (0,1] and monotone for every core count; one-core equality; lower bound inside a NUMA domain; runtime monotone within and across NUMA domains; in-cache case and rejection. C25_saturation: utilisation and reported number of scaling cores follow what the cores ask for. Rational arithmetic instead of floats."
  },
  {
   "property": "C26",
   "status": "partial",
   "theorems": [
    "Verif.Perf.C26_negation_cpu",
    "Verif.Perf.C26_negation_increment",
    "Verif.Perf.C26_data_partial",
    "Verif.Perf.C26_cpu_partial",
    "Verif.Perf.C26_data_iff",
    "Verif.Perf.C26_models_agree_partial",
    "Verif.Perf.C26_oversized_element_rejected"
   ],
   "note": "False as stated (C26_negation_cpu: cycles per iteration multiplied; C26_negation_increment: loop increment ignored). Proved: ECMData is consistent for increment one; ECMCPU is right except cy/It. C26_data_iff: with cycles other than zero, ECMData is consistent if and only if the increment is one."
  },
  {
   "property": "C27",
   "status": "proved",
   "theorems": [
    "Verif.Perf.C27_bottleneck",
    "Verif.Perf.C27_no_loads_rejected",
    "Verif.Perf.C27_bottleneck_asm"
   ],
   "note": "First least level for the FLOP variant and the ASM variant, including infinite performances; no loads is rejected."
  },
  {
   "property": "C28",
   "status": "proved",
   "theorems": [
    "Verif.Bench.C28_valid_plan"
   ],
   "note": "Whenever the planner returns; also shows that no event waits while one of its registers is free."
  },
  {
   "property": "C29",
   "status": "proved",
   "theorems": [
    "Verif.Bench.C29_terminates",
    "Verif.Bench.C29_no_register_never_returns",
    "Verif.Bench.C29_no_register_runs_forever",
    "Verif.Bench.C29_described_events"
   ],
   "note": "Termination bound and run bound for valid descriptions with registers; non-termination for every fuel if an event has no register; the class of descriptions that always work."
  },
  {
   "property": "C30",
   "status": "proved",
   "theorems": [
    "Verif.Bench.C30_range",
    "Verif.Bench.C30_expansion",
    "Verif.Bench.C30_names",
    "Verif.Bench.C30_empty_description",
    "Verif.Bench.C30_empty_alternative"
   ],
   "note": "All descriptions of the grammar (literals, groups, ranges, unions) and the rejected empty ones."
  },
  {
   "property": "C31",
   "status": "proved",
   "theorems": [
    "Verif.Machine.C31_format_parse",
    "Verif.Machine.C31_parse_format",
    "Verif.Machine.C31_rejected_iff"
   ],
   "note": "Both directions and the rejection condition, for all strings. The forward direction needs parts without colons, which every parsed event satisfies."
  },
  {
   "property": "C32",
   "status": "proved",
   "theorems": [
    "Verif.Bench.C32_restored",
    "Verif.Bench.C32_fixed_inside",
    "Verif.Bench.C32_rejected_value",
    "Verif.Bench.C32_nested"
   ],
   "note": "All environments, names, values and block behaviours including exceptions and nesting; a rejected value never enters the block."
  },
  {
   "property": "C33",
   "status": "proved",
   "theorems": [
    "Verif.Cli.C33_all_integers",
    "Verif.Cli.C33_space",
    "Verif.Cli.C33_spaced",
    "Verif.Cli.C33_single",
    "Verif.Cli.C33_too_few_rejected",
    "Verif.Cli.C33_not_a_number_rejected"
   ],
   "note": "Ranges, spaced ranges (rational arithmetic, round half to even), single values and rejections. Logarithmic spacing is not modelled."
  },
  {
   "property": "C34",
   "status": "partial",
   "theorems": [
    "Verif.Cli.C34_negation",
    "Verif.Cli.C34_negation_default",
    "Verif.Cli.C34_all_combinations_partial",
    "Verif.Cli.C34_each_once_partial",
    "Verif.Cli.C34_each_once_iff",
    "Verif.Cli.C34_missing_rejected",
    "Verif.Cli.C34_no_constants"
   ],
   "note": "False as stated: a value given twice is analysed twice (C34_negation), a repeated default loses values (C34_negation_default). Proved for options without repetition; missing constants rejected. C34_each_once_iff: with at most one default, each combination is there once if and only if no value is given twice."
  },
  {
   "property": "C35",
   "status": "partial",
   "theorems": [
    "Verif.Cli.C35_new_leaves",
    "Verif.Cli.C35_old_leaves",
    "Verif.Cli.C35_nothing_else",
    "Verif.Cli.C35_rejected_iff",
    "Verif.Cli.MergeFiles.C35_negation_version",
    "Verif.Cli.MergeFiles.C35_version_partial"
   ],
   "note": "New leaves, untouched old leaves, nothing else, and exactly when the merge fails, for versions of Python that have collections.Mapping. Missing: since Python 3.10 every merge of something ends in an error (C35_negation_version)."
  },
  {
   "property": "C36",
   "status": "partial",
   "theorems": [
    "Verif.Tile.C36_terminates",
    "Verif.Tile.C36_zero_never_returns",
    "Verif.Tile.C36_window",
    "Verif.Tile.C36_negation",
    "Verif.Tile.C36_reported_partial",
    "Verif.Tile.C36_reported_iff"
   ],
   "note": "Termination and window proved. The reported length need not have been simulated (C36_negation, window of at most 10); proved for windows larger than 10. C36_reported_iff says exactly for which windows every reported length was simulated."
  },
  {
   "property": "C37",
   "status": "proved",
   "theorems": [
    "Verif.Asm.C37_first_best",
    "Verif.Asm.C37_empty",
    "Verif.Asm.C37_only_instructions",
    "Verif.Asm.C37_packed_first"
   ],
   "note": "Proved for every linearly ordered metric; both concrete metrics are modelled and shown to ignore lines that are no instructions."
  },
  {
   "property": "C38",
   "status": "partial",
   "theorems": [
    "Verif.Asm.C38_enclosed_partial",
    "Verif.Asm.C38_nothing_lost",
    "Verif.Asm.C38_negation"
   ],
   "note": "Positions are recovered by line equality, so repeated lines break the claim (C38_negation; equality of OSACA lines is a parameter). Proved when the first and the last line of the block have no earlier equal line."
  },
  {
   "property": "C39",
   "status": "partial",
   "theorems": [
    "Verif.Asm.C39_found_partial",
    "Verif.Asm.C39_new_file",
    "Verif.Asm.C39_others_partial",
    "Verif.Asm.C39_history_partial",
    "Verif.Asm.C39_negation_second",
    "Verif.Asm.C39_negation_incomplete"
   ],
   "note": "False: the first stored value wins (C39_negation_second) and files without final newline are damaged (C39_negation_incomplete). Proved: exact result for every history from an empty file, and the claim for blocks without earlier entry in complete files."
  },
  {
   "property": "C40",
   "status": "partial",
   "theorems": [
    "Verif.Clean.C40_macros",
    "Verif.Clean.C40_block_comments_partial",
    "Verif.Clean.C40_line_comments_partial",
    "Verif.Clean.C40_mixed_partial",
    "Verif.Clean.C40_negation",
    "Verif.Clean.C40_negation_endless"
   ],
   "note": "Macro and pragma removal: full. Comment removal: proved for texts without //, for texts without /* that end in a newline, and for mixed texts whose comment-free end is at least as long as the longest line. Refuted in general: after a line comment idx can become negative and Python slices wrap around (C40_negation, 4 lines become 5). The loop does not end for all texts: with C40_negation_endless the text grows without limit."
  },
  {
   "property": "C41",
   "status": "partial",
   "theorems": [
    "Verif.Units.C41_negation_prefixes",
    "Verif.Units.C41_prefixes_partial",
    "Verif.Units.C41_with_prefix",
    "Verif.Units.C41_reduced",
    "Verif.Units.C41_add_sub_partial",
    "Verif.Units.C41_unit_mismatch",
    "Verif.Units.C41_mul_div_partial",
    "Verif.Units.C41_scale_partial",
    "Verif.Units.C41_floordiv_mod_partial",
    "Verif.Units.C41_abs_partial",
    "Verif.Units.C41_negation_resplit",
    "Verif.Units.C41_negation_no_unit",
    "Verif.Units.C41_add_right_iff",
    "Verif.Units.C41_line_break"
   ],
   "note": "Prefix changes, prefix reduction and unit mismatch proved for all quantities. T, P and E have wrong factors (C41_negation_prefixes); units beginning with a prefix letter are re-split by every operation (C41_negation_resplit) and unit-less quantities are rejected (C41_negation_no_unit); arithmetic is proved for all other units. Floats are rationals, infinity is not modelled."
  },
  {
   "property": "C42",
   "status": "proved",
   "theorems": [
    "Verif.Cli.C42_crash",
    "Verif.Cli.C42_restarts",
    "Verif.Cli.C42_complete"
   ],
   "note": "Exact content of the result file after every prefix of file operations; restarts and complete runs. rename is taken as atomic, pickle as an injective dump."
  },
  {
   "property": "C43",
   "status": "partial",
   "theorems": [
    "Verif.Cli.C43_negation",
    "Verif.Cli.C43_kept_partial",
    "Verif.Cli.C43_unchanged_partial",
    "Verif.Cli.C43_sequential_partial",
    "Verif.Cli.C43_negation_bytes"
   ],
   "note": "False for overlapping runs (C43_negation: lost results; C43_negation_bytes: mixed file content and a failing run). Proved: results are kept if later stores come from runs that loaded them, hence for runs one after the other."
  },
  {
   "property": "C44",
   "status": "proved",
   "theorems": [
    "Verif.Cli.C44_structure",
    "Verif.Cli.C44_injective",
    "Verif.Cli.C44_identifier",
    "Verif.Cli.C44_same_identifier",
    "Verif.Cli.C44_first_occurrences",
    "Verif.Cli.C44_models"
   ],
   "note": "Equal up to list/tuple type is exactly what the conversion identifies; identifiers; deduplication."
  },
  {
   "property": "C45",
   "status": "partial",
   "theorems": [
    "Verif.Parse.C45_flop_counts_partial",
    "Verif.Parse.C45_steps",
    "Verif.Parse.C45_negation"
   ],
   "note": "The claim is false in the code for increments and decrements: counts of ++, --, p++ and p-- are derived from the count of their last character (C45_negation). Proved for all other operators and all accepted kernels. C45_steps says what is counted for the four."
  },
  {
   "property": "C46",
   "status": "partial",
   "theorems": [
    "Verif.Parse.C46_accepted_heads",
    "Verif.Parse.C46_iterations_partial",
    "Verif.Parse.C46_negation_octal",
    "Verif.Parse.C46_negation_zero",
    "Verif.Parse.C46_negation_counter"
   ],
   "note": "Accepted heads are characterised exactly. The recorded loops describe every C execution of the nest if constants are decimal, increments positive, counters distinct and neither counters nor bounds are assigned to in the body or depend on each other. False in the code without these conditions: octal bounds, increments of zero and assignments to the counter are accepted (three negations)."
  },
  {
   "property": "C47",
   "status": "proved",
   "theorems": [
    "Verif.Sim.C47_meaning",
    "Verif.Sim.C47_antisymmetric",
    "Verif.Sim.C47_transitive"
   ],
   "note": "Proved in full."
  },
  {
   "property": "C48",
   "status": "partial",
   "theorems": [
    "Verif.Sim.C48_terminates",
    "Verif.Sim.C48_aligned_partial",
    "Verif.Sim.C48_negation_alignment",
    "Verif.Sim.C48_negation_beyond",
    "Verif.Sim.C48_ranges_partial"
   ],
   "note": "Termination proved. The alignment helper moves past the boundary in some cases and warm-up can exceed the last iteration (C48_negation_alignment, C48_negation_beyond); the remaining ranges are proved under explicit conditions."
  },
  {
   "property": "C49",
   "status": "partial",
   "theorems": [
    "Verif.Perf.C49_blocking",
    "Verif.Perf.C49_zero_block_rejected",
    "Verif.Perf.C49_negation",
    "Verif.Perf.C49_round_partial",
    "Verif.Perf.C49_round_truncates",
    "Verif.Perf.C49_round_iff",
    "Verif.Perf.C49_ceildiv"
   ],
   "note": "Rounding is false for fractional bases (C49_negation), proved for integer bases. Blocking and ceildiv proved without restriction."
  },
  {
   "property": "C50",
   "status": "proved",
   "theorems": [
    "Verif.Machine.C50_call_wins",
    "Verif.Machine.C50_command_line_next",
    "Verif.Machine.C50_machine_file_last",
    "Verif.Machine.C50_none_available",
    "Verif.Machine.C50_unknown_compiler_no_flags"
   ],
   "note": "Precedence for every machine file table, command line and call."
  },
  {
   "property": "C51",
   "status": "partial",
   "theorems": [
    "Verif.Paths.C51_kernels",
    "Verif.Paths.C51_setups_partial",
    "Verif.Paths.C51_negation_machines",
    "Verif.Paths.C51_negation_flags"
   ],
   "note": "Kernel files: proved as equivalence (C51_kernels). Machine dependent files: proved for flags without slashes and underscores. False in the code for machine files of the same name in different directories and for flags that only differ in slashes, or in underscores against separation (negations)."
  },
  {
   "property": "C52",
   "status": "partial",
   "theorems": [
    "Verif.Standalone.C52_adjustment",
    "Verif.Standalone.C52_limits",
    "Verif.Standalone.C52_terminates_partial",
    "Verif.Standalone.C52_negation_zero_start",
    "Verif.Standalone.C52_negation_zero_runtime"
   ],
   "note": "Values only move towards the stop value and stay inside the limits, for all runtimes. Termination is proved for positive start values and runtimes; it is false for start value zero and for runtimes that stay zero (negations)."
  },
  {
   "property": "C53",
   "status": "partial",
   "theorems": [
    "Verif.CodeGen.C53_call",
    "Verif.CodeGen.C53_order",
    "Verif.CodeGen.C53_scalars",
    "Verif.CodeGen.C53_negation_names",
    "Verif.CodeGen.C53_names"
   ],
   "note": "Call and declaration agree in number, order, names and types for every kernel; distinctness of parameter names needs that no variable has the name of a scalar followed by an underscore (C53_negation_names)."
  },
  {
   "property": "C54",
   "status": "partial",
   "theorems": [
    "Verif.Machine.C54_negation",
    "Verif.Machine.C54_negation_shared",
    "Verif.Machine.C54_first_model_partial",
    "Verif.Machine.C54_other_files_untouched_partial",
    "Verif.Machine.C54_rejections",
    "Verif.Machine.C54_later_iff"
   ],
   "note": "False as stated: an already read path is served from a shared dictionary (C54_negation, C54_negation_shared). Proved: the first model of a path is fresh, other files are untouched, rejections. C54_later_iff: while no model is updated, a later one shows the current content exactly if it is that of the first."
  },
  {
   "property": "C55",
   "status": "proved",
   "theorems": [
    "Verif.Parse.C55_accepted_iff_grammar"
   ],
   "note": "Accepted statement sequences are exactly those of a grammar stated independently; any statements."
  },
  {
   "property": "C56",
   "status": "partial",
   "theorems": [
    "Verif.Asm.C56_justified_partial",
    "Verif.Asm.C56_negation_unrecognised",
    "Verif.Asm.C56_negation_lea",
    "Verif.Asm.C56_no_late_error",
    "Verif.Asm.C56_one_instruction_partial"
   ],
   "note": "Proved for blocks in which every change of an address register is one of the recognised instructions; negations for unrecognised changes and scaled lea. Registers are unbounded integers, sub-registers are separate names."
  },
  {
   "property": "C57",
   "status": "proved",
   "theorems": [
    "Verif.Perf.C57_scaled",
    "Verif.Perf.C57_not_below_throughput",
    "Verif.Perf.C57_rejected_iff"
   ],
   "note": "Maxima, throughput override, and exactly which pointer increments are rejected."
  },
  {
   "property": "C58",
   "status": "proved",
   "theorems": [
    "Verif.LayerCond.C58_telescope",
    "Verif.LayerCond.C58_count",
    "Verif.LayerCond.C58_nonneg",
    "Verif.LayerCond.C58_code_order_nonneg",
    "Verif.LayerCond.C58_predictor_distances",
    "Verif.LayerCond.C58_code_order_negative"
   ],
   "note": "Telescoping, count and sign for all lists. The code sorts subscript tuples: C58_code_order_nonneg gives the condition under which positions decrease, C58_code_order_negative a case outside it."
  },
  {
   "property": "C59",
   "status": "partial",
   "theorems": [
    "Verif.Cli.C59_negation",
    "Verif.Cli.C59_stored_partial",
    "Verif.Cli.C59_stored_iff"
   ],
   "note": "False for kernels without required constants (C59_negation: TypeError, unhashable dictionary). Proved with at least one constant. C59_stored_iff: results can be stored if and only if the kernel has constants."
  },
  {
   "property": "C60",
   "status": "partial",
   "theorems": [
    "Verif.Cli.C60_negation",
    "Verif.Cli.C60_prefix_partial",
    "Verif.Cli.C60_accepted_partial",
    "Verif.Cli.C60_accepted_iff"
   ],
   "note": "False as stated: the pattern is not anchored at the end (C60_negation). Proved: every documented value is accepted as described, and what is accepted begins with one."
  },
  {
   "property": "C61",
   "status": "partial",
   "theorems": [
    "Verif.Bench.C61_minimal_partial",
    "Verif.Bench.C61_negation"
   ],
   "note": "False in general (C61_negation). Proved for events whose register sets are equal or disjoint."
  },
  {
   "property": "C62",
   "status": "partial",
   "theorems": [
    "Verif.Tile.C62_negation",
    "Verif.Tile.C62_close_partial"
   ],
   "note": "False in general (C62_negation). Proved: the reported length is within 10 above a simulated length that is not slower."
  },
  {
   "property": "C63",
   "status": "partial",
   "theorems": [
    "Verif.Asm.C63_addresses_partial",
    "Verif.Asm.C63_right_iff",
    "Verif.Asm.C63_negation"
   ],
   "note": "False for scaled references whose base register is the chosen one (C63_negation). Proved for index registers and unscaled base registers. C63_right_iff: how far the addresses of every reference with the register move, and exactly when that is the increment."
  },
  {
   "property": "C64",
   "status": "partial",
   "theorems": [
    "Verif.Asm.C64_negation",
    "Verif.Asm.C64_order_partial"
   ],
   "note": "False in general (C64_negation: 8 or 64). Proved when all scales agree and every register is changed at most once."
  },
  {
   "property": "C65",
   "status": "partial",
   "theorems": [
    "Verif.Clean.C65_exact_partial",
    "Verif.Clean.C65_negation_adjacent",
    "Verif.Clean.C65_negation_overlap",
    "Verif.Clean.C65_negation_wrap"
   ],
   "note": "Exact result against an independent left-to-right comment reader for texts without *// and /*/, with closed comments and a comment-free end at least as long as the longest line. Refuted for adjacent block comments, for /*/ and for /// reached by the wrap-around."
  },
  {
   "property": "C66",
   "status": "partial",
   "theorems": [
    "Verif.Parse.C66_references_partial",
    "Verif.Parse.C66_negation_octal"
   ],
   "note": "Proved for kernels whose subscripts use decimal constants only. False in the code for octal constants, which are read as decimal (C66_negation_octal)."
  },
  {
   "property": "C67",
   "status": "proved",
   "theorems": [
    "Verif.Parse.C67_index_type",
    "Verif.Parse.C67_differing_types"
   ],
   "note": "Both results characterised for every accepted kernel. Type names are compared as written, long and long int count as different types."
  },
  {
   "property": "C68",
   "status": "proved",
   "theorems": [
    "Verif.Paths.C68_same_file",
    "Verif.Paths.C68_not_longer"
   ],
   "note": "Proved for every path and every absolute working directory, without symbolic links."
  },
  {
   "property": "C69",
   "status": "partial",
   "theorems": [
    "Verif.Standalone.C69_loop_ends_partial",
    "Verif.Standalone.C69_negation"
   ],
   "note": "Proved if all loops of a variable belong to every region of the variable. False if the loops belong to different regions: only the loops of the short region are updated (C69_negation)."
  },
  {
   "property": "C70",
   "status": "partial",
   "theorems": [
    "Verif.Standalone.C70_iterations_partial",
    "Verif.Standalone.C70_iterations_iff",
    "Verif.Standalone.C70_negation_step",
    "Verif.Standalone.C70_negation_empty"
   ],
   "note": "Proved if steps divide the lengths of loops and no loop is empty; false otherwise (negations). C70_iterations_iff: for loops that are entered, the number is right if and only if every step divides its loop."
  },
  {
   "property": "C71",
   "status": "partial",
   "theorems": [
    "Verif.CodeGen.C71_values_partial",
    "Verif.CodeGen.C71_large",
    "Verif.CodeGen.C71_values_iff",
    "Verif.CodeGen.C71_negation"
   ],
   "note": "Proved for values of 32 bits; C71_large shows that no other value ever arrives (atoi), C71_negation is an instance with a 64 bit index type. C71_values_iff: right if and only if the constant has 32 bits."
  },
  {
   "property": "C72",
   "status": "partial",
   "theorems": [
    "Verif.CodeGen.C72_reuse_partial",
    "Verif.CodeGen.C72_value_iff",
    "Verif.CodeGen.C72_new_constants",
    "Verif.CodeGen.C72_negation"
   ],
   "note": "Proved for earlier runs with the same names of constants. False otherwise: the sources are stored independently of the constants (C72_negation). C72_value_iff: exactly which value each constant has; C72_new_constants: others have none."
  },
  {
   "property": "C73",
   "status": "partial",
   "theorems": [
    "Verif.Measure.C73_repetitions",
    "Verif.Measure.C73_terminates_partial",
    "Verif.Measure.C73_long_enough_partial",
    "Verif.Measure.C73_result_iff",
    "Verif.Measure.C73_negation_zero",
    "Verif.Measure.C73_negation_iterations"
   ],
   "note": "No division by zero, growth and the properties of the result are proved for all nonnegative runtimes; termination for runtimes of at least c > 0 seconds per repetition, and whenever enough repetitions take 1.5 seconds (C73_long_enough_partial); if more repetitions never take less time, exactly then (C73_result_iff). Never ends if runtimes stay zero; the command line argument --iterations has no influence (negations)."
  },
  {
   "property": "C74",
   "status": "partial",
   "theorems": [
    "Verif.Measure.C74_iterations_partial",
    "Verif.Measure.C74_iterations_iff",
    "Verif.Measure.C74_negation_step",
    "Verif.Measure.C74_negation_empty"
   ],
   "note": "Proved if steps divide the lengths of loops and no loop is empty; false otherwise (negations). C74_iterations_iff: for loops that are entered, the number is right if and only if every step divides its loop."
  },
  {
   "property": "C75",
   "status": "partial",
   "theorems": [
    "Verif.Measure.C75_sound",
    "Verif.Measure.C75_complete_partial",
    "Verif.Measure.C75_names_partial",
    "Verif.Measure.C75_negation"
   ],
   "note": "Soundness is proved in general. Every symbol gets a value if no event is measured in two runs, in particular if different events have different names. False in general: counters of an event in an earlier run are overwritten (C75_negation)."
  },
  {
   "property": "C76",
   "status": "partial",
   "theorems": [
    "Verif.Clean.C76_exact_partial",
    "Verif.Clean.C76_negation_space",
    "Verif.Clean.C76_negation_pragma",
    "Verif.Clean.C76_negation_continued"
   ],
   "note": "Proved for texts with plain directives. False in the code for white space behind a backslash, for a blank between # and pragma, and for lines beginning with # that continue a pragma (negations)."
  },
  {
   "property": "C77",
   "status": "partial",
   "theorems": [
    "Verif.Transfer.C77_cache_level",
    "Verif.Transfer.C77_cache_level_rejected",
    "Verif.Transfer.C77_memory_partial",
    "Verif.Transfer.C77_memory_iff",
    "Verif.Transfer.C77_negation_duplex",
    "Verif.Transfer.C77_negation_element",
    "Verif.Transfer.C77_all_levels_partial",
    "Verif.Transfer.C77_penalty"
   ],
   "note": "Cache levels, penalties and one time per level are proved for all inputs. Memory levels need element sizes that divide the cacheline and a known duplexness; both gaps have witnesses. C77_memory_iff: right for memory if and only if elements fill the cacheline."
  },
  {
   "property": "C78",
   "status": "partial",
   "theorems": [
    "Verif.Transfer.C78_limits_partial",
    "Verif.Transfer.C78_negation",
    "Verif.Transfer.C78_limits_iff",
    "Verif.Transfer.C78_nothing_moved_rejected"
   ],
   "note": "Proved for increment one and elements that divide the cacheline; false for other increments (witness). Loads and stores of a level are those for one cacheline of iterations. C78_limits_iff: if data moves beyond L1, right if and only if the increment is one."
  },
  {
   "property": "C79",
   "status": "partial",
   "theorems": [
    "Verif.Transfer.C79_units_partial",
    "Verif.Transfer.C79_negation_increment",
    "Verif.Transfer.C79_units_iff",
    "Verif.Transfer.C79_zero_rejected"
   ],
   "note": "Proved for increment one, false for other increments (witness). C79_units_iff: a finite performance is consistent if and only if the increment is one."
  },
  {
   "property": "C80",
   "status": "partial",
   "theorems": [
    "Verif.Transfer.C80_negation",
    "Verif.Transfer.C80_reported_peak_partial",
    "Verif.Transfer.C80_verdict_partial",
    "Verif.Transfer.C80_wrong_iff",
    "Verif.Transfer.C80_unlimited",
    "Verif.Transfer.C80_asm_limit",
    "Verif.Transfer.C80_asm_rejected"
   ],
   "note": "False for more than one flop per iteration: the peak in FLOP/s is converted as if it were It/s (witness). Proved for one flop per iteration, for unlimited memory and for the in-core variant. C80_wrong_iff: the verdict is wrong if and only if the peak lies between iterations per second and their operations."
  },
  {
   "property": "C81",
   "status": "partial",
   "theorems": [
    "Verif.Units.C81_round_trip_partial",
    "Verif.Units.C81_negation_large",
    "Verif.Units.C81_negation_no_unit",
    "Verif.Units.C81_negation_negative",
    "Verif.Units.C81_negation_unit"
   ],
   "note": "Proved for non-negative values below 8e18 with a unit that is not empty, has no newline, no trailing space and no prefix letter at its beginning. False for larger values, negative values, missing units and units that begin with a prefix letter (one witness each)."
  },
  {
   "property": "C82",
   "status": "partial",
   "theorems": [
    "Verif.Asm.C82_x86_partial",
    "Verif.Asm.C82_aarch64_partial",
    "Verif.Asm.C82_negation",
    "Verif.Asm.C82_negation_aarch64"
   ],
   "note": "Proved for the packed instructions that the pattern knows, against an independent ranking. Other packed instructions (square roots, multiply-subtract, aligned moves) and AArch64 fused multiply-add are not counted: witnesses."
  },
  {
   "property": "C83",
   "status": "partial",
   "theorems": [
    "Verif.CodeGen.C83_allocated",
    "Verif.CodeGen.C83_size_partial",
    "Verif.CodeGen.C83_size_iff",
    "Verif.CodeGen.C83_position_partial",
    "Verif.CodeGen.C83_negation"
   ],
   "note": "Allocation proved for all kernels. Absence of overflow proved if the number of elements fits the index type; false for larger arrays (two dimensions of 50000 with 32-bit int). C83_size_iff: the number of elements is calculated if and only if it fits."
  },
  {
   "property": "C84",
   "status": "partial",
   "theorems": [
    "Verif.DistKey.C84_order_partial",
    "Verif.DistKey.C84_equal_partial",
    "Verif.DistKey.C84_infinite",
    "Verif.DistKey.C84_negation_symbols",
    "Verif.DistKey.C84_negation_sign",
    "Verif.DistKey.C84_negation_rejected"
   ],
   "note": "Proved for distances that are eventually not negative if all symbols have the same value. False for symbols with different values and for negative distances; some distances have no key (AssertionError): witnesses."
  },
  {
   "property": "C85",
   "status": "partial",
   "theorems": [
    "Verif.Split.C85_same_element",
    "Verif.Split.C85_subscripts_partial",
    "Verif.Split.C85_negation_literals",
    "Verif.Split.C85_negation_rejected"
   ],
   "note": "Same element: proved for all references that are accepted. Same subscripts: proved for symbolic extents and subscripts made of a counter and a literal. False for literal extents (9-point stencil: order of references and sign of distances change); some subscripts are rejected: witnesses."
  },
  {
   "property": "C86",
   "status": "partial",
   "theorems": [
    "Verif.Applicable.C86_advances_partial",
    "Verif.Applicable.C86_increments",
    "Verif.Applicable.C86_subscripts_partial",
    "Verif.Applicable.C86_stencils_partial",
    "Verif.Applicable.C86_negation_power",
    "Verif.Applicable.C86_negation_literals",
    "Verif.Applicable.C86_negation_outer"
   ],
   "note": "First part proved for subscripts that are linear in the inner counter, with a witness for powers. Second part proved for symbolic extents; literal extents in three dimensions and arrays without the inner counter are rejected: witnesses."
  },
  {
   "property": "C87",
   "status": "partial",
   "theorems": [
    "Verif.PredCache.C87_one_machine_partial",
    "Verif.PredCache.C87_reused",
    "Verif.PredCache.C87_negation",
    "Verif.PredCache.C87_other_machine_iff"
   ],
   "note": "Proved if only one machine file is used with a kernel. False for several machines: the path does not depend on the machine, so that the prediction for the first machine is used for all others (C87_negation, C87_other_machine_iff)."
  },
  {
   "property": "C88",
   "status": "partial",
   "theorems": [
    "Verif.BenchUpdate.C88_exceeds_previous_partial",
    "Verif.BenchUpdate.C88_fits_partial",
    "Verif.BenchUpdate.C88_first_level",
    "Verif.BenchUpdate.C88_memory_partial",
    "Verif.BenchUpdate.C88_memory_iff",
    "Verif.BenchUpdate.C88_sizes",
    "Verif.BenchUpdate.C88_negation_groups",
    "Verif.BenchUpdate.C88_negation_small",
    "Verif.BenchUpdate.C88_negation_memory"
   ],
   "note": "Proved for numbers of cores that fill their groups, for levels at least 1.2 times as large as the previous one, and for main memory with fewer than fifteen groups; witnesses for the other three cases. Floats are rationals. C88_sizes: one working set per number of cores, with fitting sizes per core and thread. C88_memory_iff: the set for memory exceeds the caches if and only if these are fewer than fifteen."
  },
  {
   "property": "C89",
   "status": "partial",
   "theorems": [
    "Verif.BenchUpdate.C89_replaced_iff_incomplete",
    "Verif.BenchUpdate.C89_current_partial",
    "Verif.BenchUpdate.C89_negation"
   ],
   "note": "False: the new sizes are compared with themselves, so every complete entry is kept (witness, and C89_replaced_iff_incomplete for all entries). Proved for entries that are current or incomplete."
  },
  {
   "property": "C90",
   "status": "partial",
   "theorems": [
    "Verif.BenchUpdate.C90_results",
    "Verif.BenchUpdate.C90_kept_partial",
    "Verif.BenchUpdate.C90_negation_interrupted",
    "Verif.BenchUpdate.C90_kept_iff"
   ],
   "note": "First part proved for one kernel, level and number of threads. Second part false: after an interruption within a list the whole list is measured again (for all interruptions); complete lists are kept. C90_kept_iff says exactly when nothing is measured again."
  },
  {
   "property": "C91",
   "status": "proved",
   "theorems": [
    "Verif.Relational.C91_same_truth",
    "Verif.Relational.C91_form",
    "Verif.Relational.C91_rejected_iff"
   ],
   "note": "Proved for the whole function and positive integer constants (C91_same_truth, C91_form), with the exact condition for an error (C91_rejected_iff). Sympy's own rewriting in line 194 is a parameter that keeps the truth of conditions; the common factor and the signs it finds are arbitrary (the factor is not zero)."
  },
  {
   "property": "C92",
   "status": "partial",
   "theorems": [
    "Verif.PerfMetric.C92_found_partial",
    "Verif.PerfMetric.C92_renamed_partial",
    "Verif.PerfMetric.C92_identifier",
    "Verif.PerfMetric.C92_event",
    "Verif.PerfMetric.C92_negation_minus",
    "Verif.PerfMetric.C92_negation_inside",
    "Verif.PerfMetric.C92_negation_name"
   ],
   "note": "Parsing by sympy is not modelled. Missing: counters next to a minus sign without blank, counters that occur in other counters of the metric, counters that differ only in special characters; each of the three is shown to go wrong."
  },
  {
   "property": "C93",
   "status": "partial",
   "theorems": [
    "Verif.A64.C93_names",
    "Verif.A64.C93_registers_partial",
    "Verif.A64.C93_addresses_partial",
    "Verif.A64.C93_found",
    "Verif.A64.C93_executions",
    "Verif.A64.C93_movement_unique",
    "Verif.A64.C93_negation_difference",
    "Verif.A64.C93_negation_shift",
    "Verif.A64.C93_negation_overwritten",
    "Verif.A64.C93_negation_scale",
    "Verif.A64.C93_negation_both",
    "Verif.A64.C93_negation_index",
    "Verif.A64.C93_negation_sub",
    "Verif.A64.C93_negation_update"
   ],
   "note": "Increments of registers and of addresses against executions of the loop (register contents as integers), for tidy blocks with one scale; detection of a single addition; existence of executions and uniqueness of the movement. False for updates by a register, overwritten results of shifts, shifts in sums, differences, mixed scales, base and index that both move, indices that are not understood; subtractions of constants are never found. Negations proved."
  },
  {
   "property": "C94",
   "status": "partial",
   "theorems": [
    "Verif.Replace.C94_replaced_partial",
    "Verif.Replace.C94_names",
    "Verif.Replace.C94_main_partial",
    "Verif.Replace.C94_order_partial",
    "Verif.Replace.C94_negation_skipped",
    "Verif.Replace.C94_negation_endless",
    "Verif.Replace.C94_negation_name"
   ],
   "note": "Partial: replacements do not contain the placeholder; an empty list is only used if the node that follows the placeholder is without it; names of placeholders are not used by the kernel. Negations show what happens otherwise. The parts inserted into the main program are arguments (see C53, C71, C83)."
  },
  {
   "property": "C95",
   "status": "partial",
   "theorems": [
    "Verif.ArrayInit.C95_initialised_partial",
    "Verif.ArrayInit.C95_negation_swap"
   ],
   "note": "Partial: variables in heads of loops and in subscripts are not assigned to in the body; the arrays are those of the names. C95_negation_swap: the initialisation contains the kernel's calls of swap, after which pointers refer to arrays that were initialised elsewhere. Strings of pragmas, the transformation to one subscript (C09) and the division among threads are not part of the model."
  },
  {
   "property": "C96",
   "status": "partial",
   "theorems": [
    "Verif.Topology.C96_hierarchy_partial",
    "Verif.Topology.C96_chain_partial",
    "Verif.Topology.C96_cores_partial",
    "Verif.Topology.C96_negation_placeholders",
    "Verif.Topology.C96_negation_groups"
   ],
   "note": "C96_negation_placeholders: every call without placeholders raises KeyError as 'cache per group' is only created with placeholders (MachineModel.update with overwrite=False does this). C96_negation_groups: cores per group is rounded down for groups of different sizes."
  },
  {
   "property": "C97",
   "status": "partial",
   "theorems": [
    "Verif.Topology.C97_readouts_partial",
    "Verif.Topology.C97_readouts_iff",
    "Verif.Topology.C97_negation_numa"
   ],
   "note": "C97_negation_numa: one domain that spans two sockets is counted once per socket, with the cores of one socket only. C97_readouts_iff: the numbers agree if and only if they divide."
  },
  {
   "property": "C98",
   "status": "partial",
   "theorems": [
    "Verif.Analyzer.C98_mca_partial",
    "Verif.Analyzer.C98_rows",
    "Verif.Analyzer.C98_negation_names"
   ],
   "note": "Resource names of letters and digits. C98_negation_names: names are cut at other characters, so that P_A and P_B become one port."
  },
  {
   "property": "C99",
   "status": "proved",
   "theorems": [
    "Verif.Analyzer.C99_iaca"
   ],
   "note": "Units with different names. Numbers have a fraction, as IACA prints them."
  },
  {
   "property": "C100",
   "status": "proved",
   "theorems": [
    "Verif.BenchRun.C100_fastest",
    "Verif.BenchRun.C100_bandwidth"
   ],
   "note": "Runs without any output stop the program and are excluded."
  },
  {
   "property": "C101",
   "status": "partial",
   "theorems": [
    "Verif.BenchRun.C101_threads_partial",
    "Verif.BenchRun.C101_threads_iff",
    "Verif.BenchRun.C101_negation_three"
   ],
   "note": "Proved if the number of threads per core divides the number of hardware threads per core; C101_negation_three shows the uneven spreading of three threads on four. C101_threads_iff: right if and only if there is one core or the number of threads divides the one of the hardware threads."
  },
  {
   "property": "C102",
   "status": "partial",
   "theorems": [
    "Verif.Pheno.C102_loop_partial",
    "Verif.Pheno.C102_negation_fraction",
    "Verif.Pheno.C102_negation_rest"
   ],
   "note": "C102_loop_partial is the part for arguments of the form with natural numbers. Missing: arguments of another form are not refused, C102_negation_fraction (a fraction matches, and the text is stored instead of a loop) and C102_negation_rest (what follows is ignored)."
  },
  {
   "property": "C103",
   "status": "partial",
   "theorems": [
    "Verif.Pheno.C103_define_partial",
    "Verif.Pheno.C103_negation_any",
    "Verif.Pheno.C103_negation_points",
    "Verif.Pheno.C103_negation_point"
   ],
   "note": "C103_define_partial is the part for arguments of the form, whose numbers begin with a digit. Missing: arguments of another form are not refused, C103_negation_any and C103_negation_points, and a start such as '.5' is taken for a region, C103_negation_point."
  },
  {
   "property": "C104",
   "status": "proved",
   "theorems": [
    "Verif.Pheno.C104_repetitions",
    "Verif.Pheno.C104_flops",
    "Verif.Pheno.C104_flops_twice"
   ],
   "note": "C104_repetitions, C104_flops and C104_flops_twice; names and qualifiers consist of ASCII letters, digits and underscores."
  },
  {
   "property": "C105",
   "status": "partial",
   "theorems": [
    "Verif.MainRun.C105_repetitions_partial",
    "Verif.MainRun.C105_iff",
    "Verif.MainRun.C105_negation_overflow"
   ],
   "note": "The main program is a small imperative program with its trace of events; atoi on the decimal digits of the number, int with 32 bits. Partial: below 2^31 repetitions; C105_negation_overflow: with 2^31 repetitions nothing is measured. One thread; texts of floats with an exponent (from 10^16 on) are not modelled. C105_iff: the requested number is measured if and only if it is smaller than 2^31."
  },
  {
   "property": "C106",
   "status": "partial",
   "theorems": [
    "Verif.PerfOut.C106_output_partial",
    "Verif.PerfOut.C106_negation_cores",
    "Verif.PerfOut.C106_negation_option",
    "Verif.PerfOut.C106_negation_missing"
   ],
   "note": "The reading loop on the text; spec in Spec/PerfOut (lines built from names, numbers and counters). Partial: of the counts of an event only that of the first core is stored (C106_negation_cores), counters have no options without a value (C106_negation_option), a missing count is stored as zero (C106_negation_missing); names of events are not those of metrics. The key for the raw output is left out; numbers and digits are those of ASCII."
  },
  {
   "property": "C107",
   "status": "partial",
   "theorems": [
    "Verif.Marking.C107_increment_partial",
    "Verif.Marking.C107_negation_negative",
    "Verif.Marking.C107_negation_other",
    "Verif.Marking.C107_increment_iff"
   ],
   "note": "Text of the marked file and the search for the increment are modelled; lines and markers of OSACA are parameters. Partial: increments that are not negative (C107_negation_negative: the program ends otherwise) and files without the text pointer_increment= elsewhere before the comment (C107_negation_other)."
  },
  {
   "property": "C108",
   "status": "partial",
   "theorems": [
    "Verif.Marking.C108_block_partial",
    "Verif.Marking.C108_increment",
    "Verif.Marking.C108_undetected",
    "Verif.Marking.C108_success",
    "Verif.Marking.C108_negation_number",
    "Verif.Marking.C108_negation_in_place"
   ],
   "note": "Answers are a list of texts; C37, C38, C39 describe the best block, the markers and the cache. Partial: a block is never found by its number (C108_negation_number); a failing run in place destroys the file (C108_negation_in_place)."
  },
  {
   "property": "C109",
   "status": "partial",
   "theorems": [
    "Verif.PhenoEcm.C109_measurement",
    "Verif.PhenoEcm.C109_conversion_partial",
    "Verif.PhenoEcm.C109_conversion_iff",
    "Verif.PhenoEcm.C109_negation_step"
   ],
   "note": "Floats are rationals. Partial: the conversion agrees for an inner-most loop with step 1 whose written type is the element type, with elements that fill a cacheline (C109_negation_step: with a step of 2 a prediction with the same cycles has twice the iterations per second). C109_conversion_iff: consistent if and only if the step is one."
  },
  {
   "property": "C110",
   "status": "partial",
   "theorems": [
    "Verif.PhenoEcm.C110_transfers_partial",
    "Verif.PhenoEcm.C110_per_cacheline",
    "Verif.PhenoEcm.C110_negation_duplex",
    "Verif.PhenoEcm.C110_negation_levels",
    "Verif.PhenoEcm.C110_negation_nonoverlapping"
   ],
   "note": "Proved in general that all times refer to one cacheline of work (C110_per_cacheline). Floats are rationals; measured metrics are a function of level and name. Partial: three half-duplex caches, memory without penalties, the same bandwidth. C110_negation_duplex: full-duplex links are treated as half-duplex; C110_negation_levels: a KeyError without a third cache; C110_negation_nonoverlapping: the metric of the non-overlapping model has no influence."
  },
  {
   "property": "C111",
   "status": "partial",
   "theorems": [
    "Verif.KernelFn.C111_call_partial",
    "Verif.KernelFn.C111_call_iff",
    "Verif.KernelFn.C111_negation_names"
   ],
   "note": "Proved if the names differ and none is the name of a scalar followed by an underscore; with the scalars s and s_ a name is declared twice (`C111_negation_names`). One thread; the loop nest is any function of the scalars and arrays that it mentions. C111_call_iff says exactly when the function can be called."
  },
  {
   "property": "C112",
   "status": "partial",
   "theorems": [
    "Verif.Pragmas.C112_sequential",
    "Verif.Pragmas.C112_parallel_partial",
    "Verif.Pragmas.C112_negation_place",
    "Verif.Pragmas.C112_negation_letters",
    "Verif.Pragmas.C112_negation_region"
   ],
   "note": "Sequential code is proved for all codes in which directives are whole lines (`C112_sequential`). Parallel code is proved if the kernel has a directive `omp parallel for` or `omp for`, or neither OpenMP directives nor pragmas before the loop. The unchanged code puts a new directive before other pragmas (`C112_negation_place`), takes every pragma with the letters omp for a directive (`C112_negation_letters`) and turns `omp parallel` into a directive without a name (`C112_negation_region`)."
  },
  {
   "property": "C113",
   "status": "proved",
   "theorems": [
    "Verif.LockOrder.C113_no_deadlock",
    "Verif.LockOrder.C113_ends",
    "Verif.LockOrder.C113_exclusive"
   ],
   "note": "Locks on all intermediate files of a run, nested as in kernel.py and cacheprediction.py. Freshness is arbitrary at each check, conversions of locks are not atomic, processes may die at any time. All files are taken in one order, which the proof makes explicit; an example shows two programs with different orders that block each other. Work between locks is assumed to end, and lock files are assumed not to be removed."
  },
  {
   "property": "C114",
   "status": "partial",
   "theorems": [
    "Verif.CleanUp.C114_partial",
    "Verif.CleanUp.C114_negation_writers",
    "Verif.CleanUp.C114_negation_reader"
   ],
   "note": "Proved for removals while no other run is active. Not true in general: the removal takes the lock files with it, and since locks belong to files and not to names, a run that waits for the old lock file and a run that makes a new one both get the exclusive lock and write (C114_negation_writers); a run that holds the shared lock finds no file (C114_negation_reader). One intermediate file; inputs do not change during the runs; crashes are left out (C16)."
  },
  {
   "property": "C115",
   "status": "partial",
   "theorems": [
    "Verif.SimResult.C115_per_line_partial",
    "Verif.SimResult.C115_negation_short",
    "Verif.SimResult.C115_negation_negative",
    "Verif.SimResult.C115_negation_stride"
   ],
   "note": "Proved for loops of more than two cachelines whose stores go linearly through an array in steps that divide a cacheline, for any simulator. Missing, because the code violates it: loops of few iterations, where the measured range is empty (ZeroDivisionError) or negative, and strides larger than a cacheline, where the factor is not the number of cachelines. Floats are rationals."
  },
  {
   "property": "C116",
   "status": "partial",
   "theorems": [
    "Verif.Version.C116_order_partial",
    "Verif.Version.C116_order_iff",
    "Verif.Version.C116_accepted_partial",
    "Verif.Version.C116_negation_release",
    "Verif.Version.C116_negation_development",
    "Verif.Version.C116_negation_text",
    "Verif.Version.C116_accepted_iff"
   ],
   "note": "Proved for all versions a.b.c and a.b.c.devN other than the release 0.8.3 and development versions of 0.8.17, and that the comparison agrees with the order of versions unless only one of two versions with the same numbers is a development version. Missing, because the code violates it: the release 0.8.3 is rejected, development versions of 0.8.17 are rejected, and versions of other forms end in a TypeError. LooseVersion of Python's distutils is modelled from its documentation and source. C116_order_iff and C116_accepted_iff give the exact conditions."
  },
  {
   "property": "C117",
   "status": "partial",
   "theorems": [
    "Verif.Json.C117_all_results",
    "Verif.Json.C117_values_partial",
    "Verif.Json.C117_tuples_partial",
    "Verif.Json.C117_texts_partial",
    "Verif.Json.C117_negation_none",
    "Verif.Json.C117_negation_keys"
   ],
   "note": "Proved that identifiers have distinct texts, so that every combination has its own entry and is found again, and that plain values (texts, numbers, truth values, lists and dictionaries with texts as keys) are read as they were. Missing, because the code violates it: None and other objects become texts, and keys which are numbers collide with equal texts; tuples are read as lists (C117_tuples_partial). C117_texts_partial: of several keys with the same text the last value is read. Characters beyond ASCII count as printable and floats are rational."
  },
  {
   "property": "C118",
   "status": "partial",
   "theorems": [
    "Verif.Generate.C118_update_partial",
    "Verif.Generate.C118_new_partial",
    "Verif.Generate.C118_compare_partial",
    "Verif.Generate.C118_missing",
    "Verif.Generate.C118_others",
    "Verif.Generate.C118_negation_same",
    "Verif.Generate.C118_negation_compare",
    "Verif.Generate.C118_negation_stdout",
    "Verif.Generate.C118_negation_stdin",
    "Verif.Generate.C118_negation_render"
   ],
   "note": "Proved that only the output changes, and what is written for an output file other than the basis, with and without basis, and the result of a comparison; a basis that does not exist is rejected (C118_missing). Missing, because the code violates it: argparse empties the output file before anything is read, so the basis as output file is lost, a comparison empties the output file and a failing run loses it; - for standard output writes a file <stdout>, - for standard input reads a file <stdin>. Reading, updating and writing descriptions are parameters; the intermediate writes of the benchmarks to the output file are left out."
  },
  {
   "property": "C119",
   "status": "partial",
   "theorems": [
    "Verif.Units.C119_sizes_partial",
    "Verif.Units.C119_same_prefix",
    "Verif.Units.C119_sizes_iff",
    "Verif.Units.C119_order",
    "Verif.Units.C119_objects",
    "Verif.Units.C119_negation_prefix",
    "Verif.Units.C119_negation_units",
    "Verif.Units.C119_negation_text"
   ],
   "note": "Proved for all prefixes but T, P and E, for equal prefixes, and the consistency of the comparisons in general. Missing, because the code violates it: T, P and E are ten times too large, so that 2 TB exceed 15000 GB; units are ignored, so that 1 GHz equals 1 GB; the comparison with a text raises a ValueError. Values are rational."
  },
  {
   "property": "C120",
   "status": "partial",
   "theorems": [
    "Verif.Intervals.C120_sound",
    "Verif.Intervals.C120_iff_partial",
    "Verif.Intervals.C120_negation"
   ],
   "note": "Proved that equal intervals have the same members for all ranges, and the converse if of any three ranges one is apart from the two others. Missing, because the code violates it: three connected ranges are not merged into one."
  },
  {
   "property": "C121",
   "status": "partial",
   "theorems": [
    "Verif.Required.C121_needed",
    "Verif.Required.C121_numbers_partial",
    "Verif.Required.C121_numbers_iff",
    "Verif.Required.C121_negation_increment",
    "Verif.Required.C121_negation_triangular"
   ],
   "note": "Proved which symbols are required for all kernels, and that sizes, bounds and subscripts are numbers with them if sizes and bounds are free of loop indices and increments are literals. Missing, because the code violates it: bounds of triangular nests have no value, and symbols in increments, which kernel descriptions may have, are not required. Expressions are not simplified, while symbols may cancel in sympy. C121_numbers_iff says exactly when the required constants are enough."
  },
  {
   "property": "C122",
   "status": "proved",
   "theorems": [
    "Verif.Osaca.C122_throughput",
    "Verif.Osaca.C122_ports",
    "Verif.Osaca.C122_ports_last",
    "Verif.Osaca.C122_ecm"
   ],
   "note": "Proved for all analyses. The analysis by OSACA itself is a parameter, floats are rational. C122_ports_last covers machines with several ports of one name."
  },
  {
   "property": "C123",
   "status": "partial",
   "theorems": [
    "Verif.Options.C123_block",
    "Verif.Options.C123_increment",
    "Verif.Options.C123_unit_partial",
    "Verif.Options.C123_unit_iff",
    "Verif.Options.C123_negation_unit",
    "Verif.Options.C123_incore_partial",
    "Verif.Options.C123_first",
    "Verif.Options.C123_negation_incore"
   ],
   "note": "Proved in general for blocks and pointer increments, for given units and models of the same unit, for given in-core models and for machines whose first model is OSACA; the method of the machine itself takes the first model (C123_first). Missing, because the code violates it: an ECM model together with a Roofline model is reported in FLOP/s, and the default of --incore-model is OSACA although the help names the first in the machine description, which is IACA for example for BroadwellEP_E5-2630v4. Python's int is modelled for ASCII texts, without its limit on the number of digits. C123_unit_iff: each model has its unit if and only if all agree on one."
  },
  {
   "property": "C124",
   "status": "proved",
   "theorems": [
    "Verif.Readout.C124_history",
    "Verif.Readout.C124_update"
   ],
   "note": "C124_history: after any calls every comparison and update answers as in a new process. C124_update: an update changes exactly the requested entries. The machine is constant while the program runs; values are not changed in place; the benchmarks of an update are not included here."
  },
  {
   "property": "C125",
   "status": "partial",
   "theorems": [
    "Verif.Readout.C125_same_partial",
    "Verif.Readout.C125_missing",
    "Verif.Readout.C125_right_iff",
    "Verif.Readout.C125_negation_caches"
   ],
   "note": "Proved for the eight compared entries when both sides have them. Missing: the memory hierarchy is read but not compared (C125_negation_caches, C125_right_iff is the exact condition); descriptions without one of the entries are KeyErrors (C125_missing)."
  },
  {
   "property": "C126",
   "status": "partial",
   "theorems": [
    "Verif.RegionOut.C126_regions_partial",
    "Verif.RegionOut.C126_negation_option",
    "Verif.RegionOut.C126_negation_cores"
   ],
   "note": "C126_regions_partial for outputs of one core whose counters have no options. Missing: counters with options are not stored (C126_negation_option); of several cores only the first is used (C126_negation_cores). The check of the clock afterwards is not modelled."
  },
  {
   "property": "C127",
   "status": "partial",
   "theorems": [
    "Verif.RoofReport.C127_asm_partial",
    "Verif.RoofReport.C127_flop_partial",
    "Verif.RoofReport.C127_negation_unit"
   ],
   "note": "C127_asm_partial and C127_flop_partial. Missing: increments of the inner loop other than one (C78, C79), several flops per iteration in the FLOP variant (C80), and the unit of the peak performance, for which the dictionary of all units is printed (C127_negation_unit). Tables of verbose output and rounding of numbers are not modelled."
  },
  {
   "property": "C128",
   "status": "partial",
   "theorems": [
    "Verif.KernelText.C128_lines",
    "Verif.KernelText.C128_parsed_partial",
    "Verif.KernelText.C128_cleaned",
    "Verif.KernelText.C128_negation_block"
   ],
   "note": "C128_lines for all codes; C128_cleaned for code cleaned by clean_code (as on the command line); C128_parsed_partial for code with line comments only. Missing: block comments are given to the parser and their end may be cut (C128_negation_block)."
  },
  {
   "property": "C129",
   "status": "partial",
   "theorems": [
    "Verif.Datatype.C129_declare",
    "Verif.Datatype.C129_describe",
    "Verif.Datatype.C129_precision_partial",
    "Verif.Datatype.C129_precision_iff",
    "Verif.Datatype.C129_negation_precision"
   ],
   "note": "C129_declare and C129_describe in full. Missing: the precision of kernels with double precision, for which the peak of single precision is taken because a tuple is compared with a text (C129_negation_precision). Other spellings of the supported types and other types are rejected. C129_precision_iff: right if and only if the type is not a double."
  },
  {
   "property": "C130",
   "status": "partial",
   "theorems": [
    "Verif.Description.C130_read_partial",
    "Verif.Description.C130_negation_number",
    "Verif.Description.C130_negation_function"
   ],
   "note": "C130_read_partial for descriptions without names of several letters that sympy defines. Missing: such names: pi becomes a number (C130_negation_number) and beta is rejected (C130_negation_function). Texts are trees of sums, differences, products and quotients; sympy's names are a parameter; expressions are not simplified."
  },
  {
   "property": "C131",
   "status": "partial",
   "theorems": [
    "Verif.TileRun.C131_choice_partial",
    "Verif.TileRun.C131_constants",
    "Verif.TileRun.C131_negation_scalar",
    "Verif.TileRun.C131_negation_arguments"
   ],
   "note": "C131_choice_partial for arguments with all options that the model reads and kernels without scalars; C131_constants in full. Missing: scalars are a TypeError (C131_negation_scalar), and with the options of cachetile the search never begins since ECMData asks for cache_predictor (C131_negation_arguments, for all inputs)."
  },
  {
   "property": "C132",
   "status": "partial",
   "theorems": [
    "Verif.Reports.C132_stdout",
    "Verif.Reports.C132_file_partial",
    "Verif.Reports.C132_verbose",
    "Verif.Reports.C132_results",
    "Verif.Reports.C132_warning_partial",
    "Verif.Reports.C132_negation_file",
    "Verif.Reports.C132_negation_warning"
   ],
   "note": "C132_results, C132_stdout and C132_verbose in full; C132_file_partial says exactly which reports are written to a file completely, C132_warning_partial is for all models but the benchmarks. Missing: the penalty of ECMData, the parts of a verbose ECM report, tables and dumps of benchmarks, names of regions and all layer conditions are printed to the standard output (C132_negation_file); benchmarks report FLOP/s without the warning (C132_negation_warning). Texts are not modelled, only what a piece is about, its unit and its stream."
  },
  {
   "property": "C133",
   "status": "partial",
   "theorems": [
    "Verif.Reports.C133_benchmark",
    "Verif.Reports.C133_standalone_partial",
    "Verif.Reports.C133_negation_columns"
   ],
   "note": "C133_benchmark in full for the table of Benchmark. C133_standalone_partial says that a row of the stand-alone benchmark fits exactly if the cache has the metrics of the first one. Missing: other caches (C133_negation_columns). Widths of columns are not modelled."
  },
  {
   "property": "C134",
   "status": "partial",
   "theorems": [
    "Verif.Refs.C134_simulated_partial",
    "Verif.Refs.C134_layer_conditions",
    "Verif.Refs.C134_layer_conditions_accepted",
    "Verif.Refs.C134_negation_undeclared",
    "Verif.Refs.C134_negation_subscripts"
   ],
   "note": "C134_simulated_partial, C134_layer_conditions and C134_layer_conditions_accepted for declared arrays and references with one subscript per dimension. Missing: references to arrays that are not declared, which a description may contain, are left out without notice (C134_negation_undeclared), and too many subscripts are not rejected (C134_negation_subscripts). Symbols that cancel out count as used; extents are numbers."
  },
  {
   "property": "C135",
   "status": "partial",
   "theorems": [
    "Verif.Repetitions.C135_own_partial",
    "Verif.Repetitions.C135_shared",
    "Verif.Repetitions.C135_own_iff",
    "Verif.Repetitions.C135_missing",
    "Verif.Repetitions.C135_negation_shared"
   ],
   "note": "C135_own_partial and C135_missing. Missing: regions without own argument share one dictionary, so with the counter as default all of them use the number of calls of the region visited last (C135_negation_shared); C135_shared shows that all times are right only if these regions were called equally often."
  },
  {
   "property": "C136",
   "status": "partial",
   "theorems": [
    "Verif.Guard.C136_machine",
    "Verif.Guard.C136_model_partial",
    "Verif.Guard.C136_model_standalone_partial",
    "Verif.Guard.C136_clock_partial",
    "Verif.Guard.C136_clock_standalone_partial",
    "Verif.Guard.C136_standalone_needs_clock",
    "Verif.Guard.C136_negation_incomplete",
    "Verif.Guard.C136_negation_no_clock",
    "Verif.Guard.C136_negation_arguments"
   ],
   "note": "C136_machine, C136_clock_partial, C136_clock_standalone_partial, C136_standalone_needs_clock, C136_model_partial, C136_model_standalone_partial, for outputs with the usual form of the clock. Missing: results without a clock are used by Benchmark (C136_negation_no_clock); undefined metrics are not recognised, because the test looks for a misspelt placeholder (C136_negation_incomplete); without arguments no benchmark can be created (C136_negation_arguments). Floats are rationals."
  },
  {
   "property": "C137",
   "status": "partial",
   "theorems": [
    "Verif.Freshness.C137_current_partial",
    "Verif.Freshness.C137_reused",
    "Verif.Freshness.C137_changed",
    "Verif.Freshness.C137_no_file",
    "Verif.Freshness.C137_negation_changed_while_running",
    "Verif.Freshness.C137_negation_stamp",
    "Verif.Freshness.C137_negation_zone"
   ],
   "note": "C137_current_partial, C137_reused, C137_changed and C137_no_file. Missing: an input that is changed after it was read and before the result is written is not noticed (C137_negation_changed_while_running), nor is a file replaced by one with an older time stamp (C137_negation_stamp); for machines without a file local time is compared with UTC (C137_negation_zone). Files are not deleted."
  },
  {
   "property": "C138",
   "status": "partial",
   "theorems": [
    "Verif.Predict.C138_ecm_partial",
    "Verif.Predict.C138_ecm_inner_partial",
    "Verif.Predict.C138_ecm_reading_partial",
    "Verif.Predict.C138_roofline_partial",
    "Verif.Predict.C138_roofline_reading_partial",
    "Verif.Predict.C138_negation_ecm",
    "Verif.Predict.C138_negation_roofline"
   ],
   "note": "C138_ecm_partial and C138_roofline_partial (bandwidths do not fall with the traffic), C138_ecm_inner_partial (caches next to memory keep their sizes), C138_ecm_reading_partial and C138_roofline_reading_partial (nothing is written). Missing: the claim itself is false, C138_negation_ecm and C138_negation_roofline: with less traffic another benchmark may be chosen whose bandwidth is lower; the witness uses the memory bandwidths of a machine file of the repository."
  },
  {
   "property": "C139",
   "status": "partial",
   "theorems": [
    "Verif.Names.C139_layer",
    "Verif.Names.C139_ecm",
    "Verif.Names.C139_roofline",
    "Verif.Names.C139_simulation_partial",
    "Verif.Names.C139_elements",
    "Verif.Names.C139_negation_sets"
   ],
   "note": "C139_layer, C139_ecm and C139_roofline (layer conditions, in full), C139_elements (numbers of distinct elements), C139_simulation_partial (renaming with a fully associative LRU cache). Missing: the claim is false for the simulation of caches with sets, C139_negation_sets: arrays are laid out in the order of their names, so names decide which lines share a set."
  },
  {
   "property": "C140",
   "status": "proved",
   "theorems": [
    "Verif.Sizes.C140_symbolic",
    "Verif.Sizes.C140_literal",
    "Verif.Sizes.C140_ecm",
    "Verif.Sizes.C140_distances"
   ],
   "note": "C140_symbolic (extents that contain constants, any sort keys of their expressions), C140_literal (literal extents), C140_distances (reuse distances do not shrink), C140_ecm (bandwidths that do not fall with the traffic)."
  },
  {
   "property": "C141",
   "status": "partial",
   "theorems": [
    "Verif.LayerCond.C141_negation",
    "Verif.LayerCond.C141_any_order_partial",
    "Verif.LayerCond.C141_leading"
   ],
   "note": "C141_any_order_partial (with a slack of one element per access that is at least as far behind), C141_leading. Missing: without the slack the claim is false, C141_negation. Lines of one element, unit stride; the counterpart for hits is C20."
  },
  {
   "property": "C142",
   "status": "partial",
   "theorems": [
    "Verif.RegionEcm.C142_ecm_partial",
    "Verif.RegionEcm.C142_numbers_partial",
    "Verif.RegionEcm.C142_negation_accesses",
    "Verif.RegionEcm.C142_negation_parameters",
    "Verif.RegionEcm.C142_negation_foreign",
    "Verif.RegionEcm.C142_negation_volumes",
    "Verif.RegionEcm.C142_negation_steps"
   ],
   "note": "C142_ecm_partial (metrics of neighbouring levels are the same, the first level has `accesses`, events without parameters and with different names), C142_numbers_partial (steps divide the ranges of their loops). Missing: the claim is false without `accesses` (C142_negation_accesses), for counters with parameters (C142_negation_parameters, C142_negation_foreign), for other metrics of the memory (C142_negation_volumes) and for other steps (C142_negation_steps)."
  },
  {
   "property": "C143",
   "status": "partial",
   "theorems": [
    "Verif.AloneStore.C143_stored",
    "Verif.AloneStore.C143_apart_partial",
    "Verif.AloneStore.C143_apart_iff",
    "Verif.AloneStore.C143_negation_lost",
    "Verif.AloneStore.C143_negation_order"
   ],
   "note": "C143_stored (the key is the base name of the program and the arguments of the last measurement; other keys and other models keep their results), C143_apart_partial (two runs with other names of programs or definitions). Missing: the claim is false for programs of the same name, other machine files and other numbers of cores (C143_negation_lost), and the key depends on the order of the definitions (C143_negation_order)."
  },
  {
   "property": "C144",
   "status": "partial",
   "theorems": [
    "Verif.Limits.C144_incore_partial",
    "Verif.Limits.C144_memory_partial",
    "Verif.Limits.C144_saturated",
    "Verif.Limits.C144_negation_cores",
    "Verif.Limits.C144_negation_increment",
    "Verif.Limits.C144_negation_duplex"
   ],
   "note": "C144_incore_partial (increments upwards or multiples of the element), C144_memory_partial (largest limit over the numbers of cores of a NUMA domain, half-duplex memory), C144_saturated (equality). Missing: the claim is false for the limit of the same number of cores (C144_negation_cores), downward increments that are no multiple (C144_negation_increment) and full-duplex memory (C144_negation_duplex)."
  },
  {
   "property": "C145",
   "status": "partial",
   "theorems": [
    "Verif.Share.C145_share_partial",
    "Verif.Share.C145_fits_partial",
    "Verif.Share.C145_more_cores",
    "Verif.Share.C145_saturated",
    "Verif.Share.C145_transfers",
    "Verif.Share.C145_ecm_partial",
    "Verif.Share.C145_negation_group",
    "Verif.Share.C145_negation_domain",
    "Verif.Share.C145_negation_ecm"
   ],
   "note": "C145_share_partial (private caches, caches of a NUMA domain, few cores), C145_fits_partial (no cache shared by more cores than a NUMA domain has), C145_more_cores, C145_saturated, C145_transfers, C145_ecm_partial (bandwidths that do not fall with the traffic). Missing: the claim is false for caches shared by fewer (C145_negation_group, Zen2_EPYC-7452) or more cores than a NUMA domain has (C145_negation_domain), and for times with measured bandwidths (C145_negation_ecm)."
  },
  {
   "property": "C146",
   "status": "partial",
   "theorems": [
    "Verif.CoreRuns.C146_predictions_partial",
    "Verif.CoreRuns.C146_conditions_partial",
    "Verif.CoreRuns.C146_conditions_one",
    "Verif.CoreRuns.C146_negation_layer",
    "Verif.CoreRuns.C146_negation_heading",
    "Verif.CoreRuns.C146_negation_before",
    "Verif.CoreRuns.C146_negation_after"
   ],
   "note": "C146_predictions_partial (runs that do not mix LC with predicting models, after any such runs), C146_conditions_partial (one core or no shared cache), C146_conditions_one (LC shows the conditions for one core). Missing: the claim is false for LC with several cores (C146_negation_layer, C146_negation_heading) and for mixed runs, which also spoil later runs (C146_negation_before, C146_negation_after)."
  },
  {
   "property": "C147",
   "status": "partial",
   "theorems": [
    "Verif.Settings.C147_arguments",
    "Verif.Settings.C147_rejected",
    "Verif.Settings.C147_unknown",
    "Verif.Settings.C147_keywords_partial",
    "Verif.Settings.C147_negation_predictor",
    "Verif.Settings.C147_predictor_iff",
    "Verif.Settings.C147_negation_number"
   ],
   "note": "C147_arguments, C147_rejected, C147_unknown (other predictors), C147_keywords_partial (block and pointer increment as words, ECM model with simulation). Missing: the claim is false for the predictor of the ECM model (C147_negation_predictor) and for numbers as keyword arguments, which raise an AttributeError (C147_negation_number)."
  },
  {
   "property": "C148",
   "status": "partial",
   "theorems": [
    "Verif.Install.C148_untouched",
    "Verif.Install.C148_complete",
    "Verif.Install.C148_found_partial",
    "Verif.Install.C148_failed",
    "Verif.Install.C148_find",
    "Verif.Install.C148_existing",
    "Verif.Install.C148_installs_partial",
    "Verif.Install.C148_repeat_partial",
    "Verif.Install.C148_negation_repeat",
    "Verif.Install.C148_negation_fresh",
    "Verif.Install.C148_negation_forced",
    "Verif.Install.C148_negation_system"
   ],
   "note": "C148_untouched, C148_complete, C148_failed and C148_existing in full; C148_found_partial says exactly when the new installation is found, C148_installs_partial when a run installs, C148_repeat_partial when it can be repeated. Missing: the claim is false for repetitions after failures, which leave directories that are not used again (C148_negation_repeat), for --force without an installation (C148_negation_fresh), for forced installations beside one in the home directory (C148_negation_forced) and for the system given as argument (C148_negation_system). Extraction of a version is one step. C148_find: a location is found if and only if all links to the tools lead to versions that are there."
  },
  {
   "property": "C149",
   "status": "partial",
   "theorems": [
    "Verif.LayerCond.C149_negation",
    "Verif.LayerCond.C149_hits_iff",
    "Verif.LayerCond.C149_count",
    "Verif.LayerCond.C149_misses_partial"
   ],
   "note": "The counts agree unless a requirement is exactly one element larger than the cache (C149_misses_partial). C149_hits_iff shows that each trailing access hits if and only if its requirement is at most one element larger than the cache, C149_count gives the misses for every cache. C149_negation: a[i] + a[i+1] with a cache of one element hits although two are required. Lines of several elements and strides are not covered."
  },
  {
   "property": "C150",
   "status": "partial",
   "theorems": [
    "Verif.Scopes.C150_main_partial",
    "Verif.Scopes.C150_taken",
    "Verif.Scopes.C150_kernel",
    "Verif.Scopes.C150_dummy",
    "Verif.Scopes.C150_negation_repeat",
    "Verif.Scopes.C150_negation_swap",
    "Verif.Scopes.C150_negation_kernel"
   ],
   "note": "Main program: proved if no variable or constant has one of the names that the program uses itself and no array called t is swapped (C150_main_partial); such names always spoil it, only aligned_malloc may be harmless (C150_taken). Kernel function: exactly for kernels without swaps where no name is that of a scalar with an underscore (C150_kernel). C150_dummy: calls of dummy. C150_negation_repeat: with a constant called repeat the kernel is called with the number of repetitions. C150_negation_swap: an array called t is not exchanged by the macro. C150_negation_kernel: swap is not declared in the file of the kernel function."
  },
  {
   "property": "C151",
   "status": "partial",
   "theorems": [
    "Verif.Parallel.C151_independent_partial",
    "Verif.Parallel.C151_one_thread_partial",
    "Verif.Parallel.C151_possible",
    "Verif.Parallel.C151_completes",
    "Verif.Parallel.C151_negation_update",
    "Verif.Parallel.C151_negation_late",
    "Verif.Parallel.C151_negation_auxiliary",
    "Verif.Parallel.C151_negation_recurrence",
    "Verif.Parallel.C151_negation"
   ],
   "note": "C151_independent_partial (kernels with independent outer iterations that do not write scalars: any threads, distribution, calls and interleaving), C151_one_thread_partial (all kernels with one thread), C151_completes and C151_possible (no deadlock). Missing: the claim is false for sums (lost updates C151_negation_update; a thread that enters late resets the sum, C151_negation_late), auxiliary scalars, which are static and shared (C151_negation_auxiliary), and recurrences (C151_negation_recurrence), together C151_negation."
  },
  {
   "property": "C152",
   "status": "proved",
   "theorems": [
    "Verif.Parallel.C152_initialised",
    "Verif.Parallel.C152_determined",
    "Verif.Parallel.C152_result",
    "Verif.Parallel.C152_possible"
   ],
   "note": "C152_initialised, C152_determined, C152_result (with C151: what the region leaves for kernels with independent iterations) and C152_possible. Loops end with a barrier; nowait and swap are not modelled."
  },
  {
   "property": "C153",
   "status": "partial",
   "theorems": [
    "Verif.Parallel.C153_values",
    "Verif.Parallel.C153_threads_partial",
    "Verif.Parallel.C153_one_thread_partial",
    "Verif.Parallel.C153_same_partial",
    "Verif.Parallel.C153_possible",
    "Verif.Parallel.C153_negation_orders",
    "Verif.Parallel.C153_negation"
   ],
   "note": "C153_threads_partial and C153_same_partial (any number of threads, kernels with independent outer iterations that do not write scalars), C153_one_thread_partial (all kernels), C153_values (initial values), C153_possible. Missing: kernels with races, for which the claim is false (C153_negation_orders, C153_negation). Repetitions are below 2^31 (C105)."
  },
  {
   "property": "C154",
   "status": "partial",
   "theorems": [
    "Verif.Cli.MergeFiles.C154_merged_partial",
    "Verif.Cli.MergeFiles.C154_failed",
    "Verif.Cli.MergeFiles.C154_rejected",
    "Verif.Cli.MergeFiles.C154_negation_version",
    "Verif.Cli.MergeFiles.C154_negation_stopped",
    "Verif.Cli.MergeFiles.C154_negation"
   ],
   "note": "C154_merged_partial, C154_failed and C154_rejected. Missing, because the code violates it: since Python 3.10, which setup.py lists and all workflows use, collections.Mapping does not exist and every run ends in an error (C154_negation_version), and the destination is emptied before it is written (C154_negation_stopped). Pickles are parameters with the round trip as hypothesis."
  },
  {
   "property": "C155",
   "status": "partial",
   "theorems": [
    "Verif.Launch.C155_environment",
    "Verif.Launch.C155_cores_partial",
    "Verif.Launch.C155_iff",
    "Verif.Launch.C155_negation",
    "Verif.Launch.C155_socket_partial"
   ],
   "note": "C155_cores_partial, C155_environment, C155_iff (exactly if the first socket has the cores), C155_socket_partial (machines with one socket). Missing, because the code violates it: the processors are always taken from the first socket, so that more cores are rejected or share physical cores (C155_negation). How likwid-perfctr reads its command line is a specification; paths of programs do not begin with a dash."
  },
  {
   "property": "C156",
   "status": "partial",
   "theorems": [
    "Verif.Indent.C156_indent_iff",
    "Verif.Indent.C156_negation_later",
    "Verif.Indent.C156_printed_read",
    "Verif.Indent.C156_accesses_lines",
    "Verif.Indent.C156_accesses_read",
    "Verif.Indent.C156_head",
    "Verif.Indent.C156_columns_iff",
    "Verif.Indent.C156_negation_columns",
    "Verif.Indent.C156_loops_partial",
    "Verif.Indent.C156_operations_partial",
    "Verif.Indent.C156_variables_partial",
    "Verif.Indent.C156_constants_partial"
   ],
   "note": "Exactly when a text is indented as documented is C156_indent_iff; a later prefix of one character is replaced by blanks (C156_negation_later). Different tables are printed differently (C156_printed_read), and the accesses can be read back from their table whatever the lengths (C156_accesses_read). The bars of that table are below each other exactly if no name has more than eight characters (C156_columns_iff, C156_negation_columns); the columns of the other tables are shown for values that fit into them."
  },
  {
   "property": "C157",
   "status": "proved",
   "theorems": [
    "Verif.Regions.C157_regions",
    "Verif.Regions.C157_result_iff",
    "Verif.Regions.C157_ends"
   ],
   "note": "Values of the arguments are parameters (C102 to C104); that regions share one dictionary of repetitions is treated in C135. An empty name in the list is dropped if there is another one."
  },
  {
   "property": "C158",
   "status": "partial",
   "theorems": [
    "Verif.Refresh.C158_keeps_iff",
    "Verif.Refresh.C158_keeps_partial",
    "Verif.Refresh.C158_negation_throughput",
    "Verif.Refresh.C158_negation_overwrite",
    "Verif.Refresh.C158_negation_name",
    "Verif.Refresh.C158_entries"
   ],
   "note": "C158_keeps_iff says exactly when information is kept; C158_negation_throughput, C158_negation_overwrite and C158_negation_name show that it may be lost. Values are opaque, and which entries are read or marked as required is what counts."
  },
  {
   "property": "C159",
   "status": "partial",
   "theorems": [
    "Verif.Whole.C159_accepted",
    "Verif.Whole.C159_whole_partial",
    "Verif.Whole.C159_accepted_iff",
    "Verif.Whole.C159_negation"
   ],
   "note": "C159_accepted_iff says exactly which code is accepted. C159_whole_partial: all of it is analysed exactly if the braces match; C159_negation: otherwise code may be dropped without a message. The parser of pycparser is modelled as far as braces, statements and functions go."
  },
  {
   "property": "C160",
   "status": "partial",
   "theorems": [
    "Verif.DataTable.C160_table_partial",
    "Verif.DataTable.C160_written_iff",
    "Verif.DataTable.C160_negation"
   ],
   "note": "C160_table_partial: lines, levels and bytes are right, and the columns are right exactly if the two names have at most six characters together and the bytes are below 999.5; C160_negation: sixteen cache lines of 64 bytes move the columns. C160_written_iff says when the table is written at all."
  },
  {
   "property": "C161",
   "status": "partial",
   "theorems": [
    "Verif.Dialect.C161_version",
    "Verif.Dialect.C161_markers",
    "Verif.Dialect.C161_marked_iff",
    "Verif.Dialect.C161_llvm_mca",
    "Verif.Dialect.C161_osaca_partial",
    "Verif.Dialect.C161_before",
    "Verif.Dialect.C161_negation"
   ],
   "note": "C161_markers, C161_marked_iff and C161_llvm_mca: marking and the analysis by LLVM-MCA use the syntax of the code. C161_osaca_partial: OSACA does exactly if that is its default syntax, C161_negation: otherwise not, because no syntax is named. C161_before: before version 0.7 of OSACA there is one syntax. The library is a parameter; its markers are readable in their syntax."
  },
  {
   "property": "C162",
   "status": "partial",
   "theorems": [
    "Verif.Contexts.C162_restored",
    "Verif.Contexts.C162_key",
    "Verif.Contexts.C162_room_partial",
    "Verif.Contexts.C162_depth_iff",
    "Verif.Contexts.C162_negation"
   ],
   "note": "C162_restored: the settings are restored for every program. C162_room_partial: what runs without the limit runs with it if the limit is not lowered; C162_negation: a limit above 100000 is lowered for the block. C162_depth_iff says exactly how deep calls may be. Calls inside the context managers are not counted."
  },
  {
   "property": "C163",
   "status": "proved",
   "theorems": [
    "Verif.Contexts.C163_total",
    "Verif.Contexts.C163_transitive",
    "Verif.Contexts.C163_grouped"
   ],
   "note": "C163_total, C163_transitive and C163_grouped. Types are compared by the code points of their texts; different objects with the same text of the type have different identities."
  },
  {
   "property": "C164",
   "status": "partial",
   "theorems": [
    "Verif.Plot.C164_ends_iff",
    "Verif.Plot.C164_samples_partial",
    "Verif.Plot.C164_samples_iff",
    "Verif.Plot.C164_outside",
    "Verif.Plot.C164_roof_partial",
    "Verif.Plot.C164_line_partial",
    "Verif.Plot.C164_negation"
   ],
   "note": "C164_roof_partial: every point is on the roofline. C164_samples_partial: there are as many points as the range needs, a step apart, but each is a step too far; C164_samples_iff: they are right only for an empty range; C164_outside: the lower end is never a point and the last point is never below the upper end; C164_ends_iff says when the samples end. Numbers are rational, rounding of floats is not modelled."
  },
  {
   "property": "C165",
   "status": "partial",
   "theorems": [
    "Verif.Sanitize.C165_name_iff",
    "Verif.Sanitize.C165_name_partial",
    "Verif.Sanitize.C165_unchanged_iff",
    "Verif.Sanitize.C165_idempotent",
    "Verif.Sanitize.C165_characters",
    "Verif.Sanitize.C165_negation"
   ],
   "note": "C165_name_iff: the result is a name exactly if the text is not empty (C165_negation: the empty text). C165_unchanged_iff, C165_idempotent and C165_characters hold for all texts. Keywords count as names. Nothing in kerncraft calls the function."
  },
  {
   "property": "C166",
   "status": "partial",
   "theorems": [
    "Verif.Units.C166_text_partial",
    "Verif.Units.C166_reduced",
    "Verif.Units.C166_negative",
    "Verif.Units.C166_negation_negative",
    "Verif.Units.C166_right_iff"
   ],
   "note": "C166_reduced: all of it for reduced quantities. C166_text_partial: quantities that are not negative. C166_negative: negative quantities never have a prefix, because the allowed error is negative as well; C166_right_iff says when that is right, C166_negation_negative is -5 kB. Values are rational, rounding is half to even; rounding of floats is not modelled."
  }
 ]
}
