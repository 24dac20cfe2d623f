{
 "C01": "Membership equals coverage by any given non-empty range, for every list of ranges in every order.",
 "C02": "The claim is false in the code: three nested or overlapping ranges can be counted twice (C02_negation). Proved: the length never under-counts, and it is exact for at most two ranges, for disjoint ranges and for ranges separated in input order, and more generally if of any three ranges one is apart from the two others.",
 "C03": "The result of & contains exactly the members of both operands, and its stored ranges are well formed.",
 "C04": "The claim is false in the code: the left operand's list is extended in place (C04_negation). Proved: the right operand is untouched and the left one never loses members.",
 "C05": "Index arithmetic agrees with the executed order of the loop nest, both round trips and the last iteration number; any nesting depth.",
 "C06": "The claim is false in the code for increments above one, in both directions (C06_negation, C06_negation_inverse). Proved: indices are right while outer iteration times increment stays below the trip count of the outermost loop. C06_iteration_iff, C06_loop_iff and C06_inverse_iff say exactly when the answer is right: for all iterations of the outermost loop if and only if its increment is one or it has at most one iteration.",
 "C07": "The claim is false for loops whose end lies below start - incr + 1 (C07_negation). Proved exactly for all other nests, per dimension, plus the rejection of zero increments and of out-of-range iterations. C07_single_iff gives the exact condition for one loop.",
 "C08": "In-bounds, injective, surjective and equal to the C element position, for any number of dimensions.",
 "C09": "Rewritten declarations have the modelled number of elements; rewritten references evaluate to the modelled position; unknown arrays are rejected. References with one subscript are left as they are, as in the code.",
 "C10": "Array regions never overlap, offsets are element addresses inside their own region, and no byte is shared.",
 "C100": "Runs without any output stop the program and are excluded.",
 "C101": "Proved if the number of threads per core divides the number of hardware threads per core; C101_negation_three shows the uneven spreading of three threads on four. C101_threads_iff: right if and only if there is one core or the number of threads divides the one of the hardware threads.",
 "C102": "C102_loop_partial is the part for arguments of the form with natural numbers. Missing: arguments of another form are not refused, C102_negation_fraction (a fraction matches, and the text is stored instead of a loop) and C102_negation_rest (what follows is ignored).",
 "C103": "C103_define_partial is the part for arguments of the form, whose numbers begin with a digit. Missing: arguments of another form are not refused, C103_negation_any and C103_negation_points, and a start such as '.5' is taken for a region, C103_negation_point.",
 "C104": "C104_repetitions, C104_flops and C104_flops_twice; names and qualifiers consist of ASCII letters, digits and underscores.",
 "C105": "The main program is a small imperative program with its trace of events; atoi on the decimal digits of the number, int with 32 bits. Partial: below 2^31 repetitions; C105_negation_overflow: with 2^31 repetitions nothing is measured. One thread; texts of floats with an exponent (from 10^16 on) are not modelled. C105_iff: the requested number is measured if and only if it is smaller than 2^31.",
 "C106": "The reading loop on the text; spec in Spec/PerfOut (lines built from names, numbers and counters). Partial: of the counts of an event only that of the first core is stored (C106_negation_cores), counters have no options without a value (C106_negation_option), a missing count is stored as zero (C106_negation_missing); names of events are not those of metrics. The key for the raw output is left out; numbers and digits are those of ASCII.",
 "C107": "Text of the marked file and the search for the increment are modelled; lines and markers of OSACA are parameters. Partial: increments that are not negative (C107_negation_negative: the program ends otherwise) and files without the text pointer_increment= elsewhere before the comment (C107_negation_other).",
 "C108": "Answers are a list of texts; C37, C38, C39 describe the best block, the markers and the cache. Partial: a block is never found by its number (C108_negation_number); a failing run in place destroys the file (C108_negation_in_place).",
 "C109": "Floats are rationals. Partial: the conversion agrees for an inner-most loop with step 1 whose written type is the element type, with elements that fill a cacheline (C109_negation_step: with a step of 2 a prediction with the same cycles has twice the iterations per second). C109_conversion_iff: consistent if and only if the step is one.",
 "C11": "Bases are multiples of the cacheline size for powers of two, do not depend on declaration order, every array is placed, and padding stays below a cacheline.",
 "C110": "Proved in general that all times refer to one cacheline of work (C110_per_cacheline). Floats are rationals; measured metrics are a function of level and name. Partial: three half-duplex caches, memory without penalties, the same bandwidth. C110_negation_duplex: full-duplex links are treated as half-duplex; C110_negation_levels: a KeyError without a third cache; C110_negation_nonoverlapping: the metric of the non-overlapping model has no influence.",
 "C111": "Proved if the names differ and none is the name of a scalar followed by an underscore; with the scalars s and s_ a name is declared twice (`C111_negation_names`). One thread; the loop nest is any function of the scalars and arrays that it mentions. C111_call_iff says exactly when the function can be called.",
 "C112": "Sequential code is proved for all codes in which directives are whole lines (`C112_sequential`). Parallel code is proved if the kernel has a directive `omp parallel for` or `omp for`, or neither OpenMP directives nor pragmas before the loop. The unchanged code puts a new directive before other pragmas (`C112_negation_place`), takes every pragma with the letters omp for a directive (`C112_negation_letters`) and turns `omp parallel` into a directive without a name (`C112_negation_region`).",
 "C113": "Locks on all intermediate files of a run, nested as in kernel.py and cacheprediction.py. Freshness is arbitrary at each check, conversions of locks are not atomic, processes may die at any time. All files are taken in one order, which the proof makes explicit; an example shows two programs with different orders that block each other. Work between locks is assumed to end, and lock files are assumed not to be removed.",
 "C114": "Proved for removals while no other run is active. Not true in general: the removal takes the lock files with it, and since locks belong to files and not to names, a run that waits for the old lock file and a run that makes a new one both get the exclusive lock and write (C114_negation_writers); a run that holds the shared lock finds no file (C114_negation_reader). One intermediate file; inputs do not change during the runs; crashes are left out (C16).",
 "C115": "Proved for loops of more than two cachelines whose stores go linearly through an array in steps that divide a cacheline, for any simulator. Missing, because the code violates it: loops of few iterations, where the measured range is empty (ZeroDivisionError) or negative, and strides larger than a cacheline, where the factor is not the number of cachelines. Floats are rationals.",
 "C116": "Proved for all versions a.b.c and a.b.c.devN other than the release 0.8.3 and development versions of 0.8.17, and that the comparison agrees with the order of versions unless only one of two versions with the same numbers is a development version. Missing, because the code violates it: the release 0.8.3 is rejected, development versions of 0.8.17 are rejected, and versions of other forms end in a TypeError. LooseVersion of Python's distutils is modelled from its documentation and source. C116_order_iff and C116_accepted_iff give the exact conditions.",
 "C117": "Proved that identifiers have distinct texts, so that every combination has its own entry and is found again, and that plain values (texts, numbers, truth values, lists and dictionaries with texts as keys) are read as they were. Missing, because the code violates it: None and other objects become texts, and keys which are numbers collide with equal texts; tuples are read as lists (C117_tuples_partial). C117_texts_partial: of several keys with the same text the last value is read. Characters beyond ASCII count as printable and floats are rational.",
 "C118": "Proved that only the output changes, and what is written for an output file other than the basis, with and without basis, and the result of a comparison; a basis that does not exist is rejected (C118_missing). Missing, because the code violates it: argparse empties the output file before anything is read, so the basis as output file is lost, a comparison empties the output file and a failing run loses it; - for standard output writes a file <stdout>, - for standard input reads a file <stdin>. Reading, updating and writing descriptions are parameters; the intermediate writes of the benchmarks to the output file are left out.",
 "C119": "Proved for all prefixes but T, P and E, for equal prefixes, and the consistency of the comparisons in general. Missing, because the code violates it: T, P and E are ten times too large, so that 2 TB exceed 15000 GB; units are ignored, so that 1 GHz equals 1 GB; the comparison with a text raises a ValueError. Values are rational.",
 "C12": "The claim is false: set_constant after a query returns stale results (C12_negation). Proved for histories without memoised values and for clear_state, set_constant, query sequences. For all histories the result has the constants of now or of an earlier time since the last clear_state (C12_since_clear_partial). C12_values_partial gives the value of the result independently of the substitution.",
 "C120": "Proved that equal intervals have the same members for all ranges, and the converse if of any three ranges one is apart from the two others. Missing, because the code violates it: three connected ranges are not merged into one.",
 "C121": "Proved which symbols are required for all kernels, and that sizes, bounds and subscripts are numbers with them if sizes and bounds are free of loop indices and increments are literals. Missing, because the code violates it: bounds of triangular nests have no value, and symbols in increments, which kernel descriptions may have, are not required. Expressions are not simplified, while symbols may cancel in sympy. C121_numbers_iff says exactly when the required constants are enough.",
 "C122": "Proved for all analyses. The analysis by OSACA itself is a parameter, floats are rational. C122_ports_last covers machines with several ports of one name.",
 "C123": "Proved in general for blocks and pointer increments, for given units and models of the same unit, for given in-core models and for machines whose first model is OSACA; the method of the machine itself takes the first model (C123_first). Missing, because the code violates it: an ECM model together with a Roofline model is reported in FLOP/s, and the default of --incore-model is OSACA although the help names the first in the machine description, which is IACA for example for BroadwellEP_E5-2630v4. Python's int is modelled for ASCII texts, without its limit on the number of digits. C123_unit_iff: each model has its unit if and only if all agree on one.",
 "C124": "C124_history: after any calls every comparison and update answers as in a new process. C124_update: an update changes exactly the requested entries. The machine is constant while the program runs; values are not changed in place; the benchmarks of an update are not included here.",
 "C125": "Proved for the eight compared entries when both sides have them. Missing: the memory hierarchy is read but not compared (C125_negation_caches, C125_right_iff is the exact condition); descriptions without one of the entries are KeyErrors (C125_missing).",
 "C126": "C126_regions_partial for outputs of one core whose counters have no options. Missing: counters with options are not stored (C126_negation_option); of several cores only the first is used (C126_negation_cores). The check of the clock afterwards is not modelled.",
 "C127": "C127_asm_partial and C127_flop_partial. Missing: increments of the inner loop other than one (C78, C79), several flops per iteration in the FLOP variant (C80), and the unit of the peak performance, for which the dictionary of all units is printed (C127_negation_unit). Tables of verbose output and rounding of numbers are not modelled.",
 "C128": "C128_lines for all codes; C128_cleaned for code cleaned by clean_code (as on the command line); C128_parsed_partial for code with line comments only. Missing: block comments are given to the parser and their end may be cut (C128_negation_block).",
 "C129": "C129_declare and C129_describe in full. Missing: the precision of kernels with double precision, for which the peak of single precision is taken because a tuple is compared with a text (C129_negation_precision). Other spellings of the supported types and other types are rejected. C129_precision_iff: right if and only if the type is not a double.",
 "C13": "Last write wins, rejection of bad values, sorted output. Sorting by name is not total on mixed symbols (C13_negation_mixed_symbols); strict sortedness and order independence hold for plain symbols.",
 "C130": "C130_read_partial for descriptions without names of several letters that sympy defines. Missing: such names: pi becomes a number (C130_negation_number) and beta is rejected (C130_negation_function). Texts are trees of sums, differences, products and quotients; sympy's names are a parameter; expressions are not simplified.",
 "C131": "C131_choice_partial for arguments with all options that the model reads and kernels without scalars; C131_constants in full. Missing: scalars are a TypeError (C131_negation_scalar), and with the options of cachetile the search never begins since ECMData asks for cache_predictor (C131_negation_arguments, for all inputs).",
 "C132": "C132_results, C132_stdout and C132_verbose in full; C132_file_partial says exactly which reports are written to a file completely, C132_warning_partial is for all models but the benchmarks. Missing: the penalty of ECMData, the parts of a verbose ECM report, tables and dumps of benchmarks, names of regions and all layer conditions are printed to the standard output (C132_negation_file); benchmarks report FLOP/s without the warning (C132_negation_warning). Texts are not modelled, only what a piece is about, its unit and its stream.",
 "C133": "C133_benchmark in full for the table of Benchmark. C133_standalone_partial says that a row of the stand-alone benchmark fits exactly if the cache has the metrics of the first one. Missing: other caches (C133_negation_columns). Widths of columns are not modelled.",
 "C134": "C134_simulated_partial, C134_layer_conditions and C134_layer_conditions_accepted for declared arrays and references with one subscript per dimension. Missing: references to arrays that are not declared, which a description may contain, are left out without notice (C134_negation_undeclared), and too many subscripts are not rejected (C134_negation_subscripts). Symbols that cancel out count as used; extents are numbers.",
 "C135": "C135_own_partial and C135_missing. Missing: regions without own argument share one dictionary, so with the counter as default all of them use the number of calls of the region visited last (C135_negation_shared); C135_shared shows that all times are right only if these regions were called equally often.",
 "C136": "C136_machine, C136_clock_partial, C136_clock_standalone_partial, C136_standalone_needs_clock, C136_model_partial, C136_model_standalone_partial, for outputs with the usual form of the clock. Missing: results without a clock are used by Benchmark (C136_negation_no_clock); undefined metrics are not recognised, because the test looks for a misspelt placeholder (C136_negation_incomplete); without arguments no benchmark can be created (C136_negation_arguments). Floats are rationals.",
 "C137": "C137_current_partial, C137_reused, C137_changed and C137_no_file. Missing: an input that is changed after it was read and before the result is written is not noticed (C137_negation_changed_while_running), nor is a file replaced by one with an older time stamp (C137_negation_stamp); for machines without a file local time is compared with UTC (C137_negation_zone). Files are not deleted.",
 "C138": "C138_ecm_partial and C138_roofline_partial (bandwidths do not fall with the traffic), C138_ecm_inner_partial (caches next to memory keep their sizes), C138_ecm_reading_partial and C138_roofline_reading_partial (nothing is written). Missing: the claim itself is false, C138_negation_ecm and C138_negation_roofline: with less traffic another benchmark may be chosen whose bandwidth is lower; the witness uses the memory bandwidths of a machine file of the repository.",
 "C139": "C139_layer, C139_ecm and C139_roofline (layer conditions, in full), C139_elements (numbers of distinct elements), C139_simulation_partial (renaming with a fully associative LRU cache). Missing: the claim is false for the simulation of caches with sets, C139_negation_sets: arrays are laid out in the order of their names, so names decide which lines share a set.",
 "C14": "Invariant over all interleavings of any number of processes: a writer is alone, readers see complete files. C14_broken_without_flock shows that the lock is needed.",
 "C140": "C140_symbolic (extents that contain constants, any sort keys of their expressions), C140_literal (literal extents), C140_distances (reuse distances do not shrink), C140_ecm (bandwidths that do not fall with the traffic).",
 "C141": "C141_any_order_partial (with a slack of one element per access that is at least as far behind), C141_leading. Missing: without the slack the claim is false, C141_negation. Lines of one element, unit stride; the counterpart for hits is C20.",
 "C142": "C142_ecm_partial (metrics of neighbouring levels are the same, the first level has `accesses`, events without parameters and with different names), C142_numbers_partial (steps divide the ranges of their loops). Missing: the claim is false without `accesses` (C142_negation_accesses), for counters with parameters (C142_negation_parameters, C142_negation_foreign), for other metrics of the memory (C142_negation_volumes) and for other steps (C142_negation_steps).",
 "C143": "C143_stored (the key is the base name of the program and the arguments of the last measurement; other keys and other models keep their results), C143_apart_partial (two runs with other names of programs or definitions). Missing: the claim is false for programs of the same name, other machine files and other numbers of cores (C143_negation_lost), and the key depends on the order of the definitions (C143_negation_order).",
 "C144": "C144_incore_partial (increments upwards or multiples of the element), C144_memory_partial (largest limit over the numbers of cores of a NUMA domain, half-duplex memory), C144_saturated (equality). Missing: the claim is false for the limit of the same number of cores (C144_negation_cores), downward increments that are no multiple (C144_negation_increment) and full-duplex memory (C144_negation_duplex).",
 "C145": "C145_share_partial (private caches, caches of a NUMA domain, few cores), C145_fits_partial (no cache shared by more cores than a NUMA domain has), C145_more_cores, C145_saturated, C145_transfers, C145_ecm_partial (bandwidths that do not fall with the traffic). Missing: the claim is false for caches shared by fewer (C145_negation_group, Zen2_EPYC-7452) or more cores than a NUMA domain has (C145_negation_domain), and for times with measured bandwidths (C145_negation_ecm).",
 "C146": "C146_predictions_partial (runs that do not mix LC with predicting models, after any such runs), C146_conditions_partial (one core or no shared cache), C146_conditions_one (LC shows the conditions for one core). Missing: the claim is false for LC with several cores (C146_negation_layer, C146_negation_heading) and for mixed runs, which also spoil later runs (C146_negation_before, C146_negation_after).",
 "C147": "C147_arguments, C147_rejected, C147_unknown (other predictors), C147_keywords_partial (block and pointer increment as words, ECM model with simulation). Missing: the claim is false for the predictor of the ECM model (C147_negation_predictor) and for numbers as keyword arguments, which raise an AttributeError (C147_negation_number).",
 "C148": "C148_untouched, C148_complete, C148_failed and C148_existing in full; C148_found_partial says exactly when the new installation is found, C148_installs_partial when a run installs, C148_repeat_partial when it can be repeated. Missing: the claim is false for repetitions after failures, which leave directories that are not used again (C148_negation_repeat), for --force without an installation (C148_negation_fresh), for forced installations beside one in the home directory (C148_negation_forced) and for the system given as argument (C148_negation_system). Extraction of a version is one step. C148_find: a location is found if and only if all links to the tools lead to versions that are there.",
 "C149": "The counts agree unless a requirement is exactly one element larger than the cache (C149_misses_partial). C149_hits_iff shows that each trailing access hits if and only if its requirement is at most one element larger than the cache, C149_count gives the misses for every cache. C149_negation: a[i] + a[i+1] with a cache of one element hits although two are required. Lines of several elements and strides are not covered.",
 "C15": "In every reachable state with an unfinished process some process can move, and the number of protocol steps is bounded.",
 "C150": "Main program: proved if no variable or constant has one of the names that the program uses itself and no array called t is swapped (C150_main_partial); such names always spoil it, only aligned_malloc may be harmless (C150_taken). Kernel function: exactly for kernels without swaps where no name is that of a scalar with an underscore (C150_kernel). C150_dummy: calls of dummy. C150_negation_repeat: with a constant called repeat the kernel is called with the number of repetitions. C150_negation_swap: an array called t is not exchanged by the macro. C150_negation_kernel: swap is not declared in the file of the kernel function.",
 "C151": "C151_independent_partial (kernels with independent outer iterations that do not write scalars: any threads, distribution, calls and interleaving), C151_one_thread_partial (all kernels with one thread), C151_completes and C151_possible (no deadlock). Missing: the claim is false for sums (lost updates C151_negation_update; a thread that enters late resets the sum, C151_negation_late), auxiliary scalars, which are static and shared (C151_negation_auxiliary), and recurrences (C151_negation_recurrence), together C151_negation.",
 "C152": "C152_initialised, C152_determined, C152_result (with C151: what the region leaves for kernels with independent iterations) and C152_possible. Loops end with a barrier; nowait and swap are not modelled.",
 "C153": "C153_threads_partial and C153_same_partial (any number of threads, kernels with independent outer iterations that do not write scalars), C153_one_thread_partial (all kernels), C153_values (initial values), C153_possible. Missing: kernels with races, for which the claim is false (C153_negation_orders, C153_negation). Repetitions are below 2^31 (C105).",
 "C154": "C154_merged_partial, C154_failed and C154_rejected. Missing, because the code violates it: since Python 3.10, which setup.py lists and all workflows use, collections.Mapping does not exist and every run ends in an error (C154_negation_version), and the destination is emptied before it is written (C154_negation_stopped). Pickles are parameters with the round trip as hypothesis.",
 "C155": "C155_cores_partial, C155_environment, C155_iff (exactly if the first socket has the cores), C155_socket_partial (machines with one socket). Missing, because the code violates it: the processors are always taken from the first socket, so that more cores are rejected or share physical cores (C155_negation). How likwid-perfctr reads its command line is a specification; paths of programs do not begin with a dash.",
 "C156": "Exactly when a text is indented as documented is C156_indent_iff; a later prefix of one character is replaced by blanks (C156_negation_later). Different tables are printed differently (C156_printed_read), and the accesses can be read back from their table whatever the lengths (C156_accesses_read). The bars of that table are below each other exactly if no name has more than eight characters (C156_columns_iff, C156_negation_columns); the columns of the other tables are shown for values that fit into them.",
 "C157": "Values of the arguments are parameters (C102 to C104); that regions share one dictionary of repetitions is treated in C135. An empty name in the list is dropped if there is another one.",
 "C158": "C158_keeps_iff says exactly when information is kept; C158_negation_throughput, C158_negation_overwrite and C158_negation_name show that it may be lost. Values are opaque, and which entries are read or marked as required is what counts.",
 "C159": "C159_accepted_iff says exactly which code is accepted. C159_whole_partial: all of it is analysed exactly if the braces match; C159_negation: otherwise code may be dropped without a message. The parser of pycparser is modelled as far as braces, statements and functions go.",
 "C16": "The claim is false: a crash during the write leaves a truncated file that is read as up to date (C16_negation). Proved for crashes at all other points, and a crash never blocks other processes.",
 "C160": "C160_table_partial: lines, levels and bytes are right, and the columns are right exactly if the two names have at most six characters together and the bytes are below 999.5; C160_negation: sixteen cache lines of 64 bytes move the columns. C160_written_iff says when the table is written at all.",
 "C161": "C161_markers, C161_marked_iff and C161_llvm_mca: marking and the analysis by LLVM-MCA use the syntax of the code. C161_osaca_partial: OSACA does exactly if that is its default syntax, C161_negation: otherwise not, because no syntax is named. C161_before: before version 0.7 of OSACA there is one syntax. The library is a parameter; its markers are readable in their syntax.",
 "C162": "C162_restored: the settings are restored for every program. C162_room_partial: what runs without the limit runs with it if the limit is not lowered; C162_negation: a limit above 100000 is lowered for the block. C162_depth_iff says exactly how deep calls may be. Calls inside the context managers are not counted.",
 "C163": "C163_total, C163_transitive and C163_grouped. Types are compared by the code points of their texts; different objects with the same text of the type have different identities.",
 "C164": "C164_roof_partial: every point is on the roofline. C164_samples_partial: there are as many points as the range needs, a step apart, but each is a step too far; C164_samples_iff: they are right only for an empty range; C164_outside: the lower end is never a point and the last point is never below the upper end; C164_ends_iff says when the samples end. Numbers are rational, rounding of floats is not modelled.",
 "C165": "C165_name_iff: the result is a name exactly if the text is not empty (C165_negation: the empty text). C165_unchanged_iff, C165_idempotent and C165_characters hold for all texts. Keywords count as names. Nothing in kerncraft calls the function.",
 "C166": "C166_reduced: all of it for reduced quantities. C166_text_partial: quantities that are not negative. C166_negative: negative quantities never have a prefix, because the allowed error is negative as well; C166_right_iff says when that is right, C166_negation_negative is -5 kB. Values are rational, rounding is half to even; rounding of floats is not modelled.",
 "C17": "The claim is false: the cache key omits arguments that change the result (C17_negation). Proved: same arguments give the same result, and every cached result was produced by some call for the same key. C17_result: the result is always that of the first call for the in-core model since the inputs last changed that found a block; C17_right_iff says exactly when this is the result of the own arguments.",
 "C18": "Hits plus misses is the number of accesses from which the distances were computed, in every option; evicts are bounded.",
 "C19": "For every kernel, two cache sizes, and any enumeration order of equal keys.",
 "C20": "The claim is false for arbitrary orders within an iteration (C20_negation) and for lines of several elements in any order (C20_negation_lines). Proved for lines of one element: with one extra element per missing stream for every order, even changing ones; with exactly the requirement for the usual order of ascending offsets; and full caching for every trace. Proved for lines of several elements and arrays anywhere in memory: with two extra cachelines per missing stream accesses close behind another one hit, and the predicted misses bound the misses of every cacheline of iterations. Fully associative LRU; unit stride.",
 "C21": "An option is always selected, it is the first true one, its condition is what it claims, all levels resolve, and the per-level statistics agree.",
 "C22": "Closest ratio, ties, read-only targets, missing load kernel, and the returned value. Streams are integers; names are unique dictionary keys.",
 "C23": "False as stated: the simulator is memoised without the core count (C23_negation). Proved: it always matches the first requested core count, hence histories with one core count are right; zero cores are rejected.",
 "C24": "Exact composition for hierarchies of any depth; every level once; rejection exactly when an overlapping level follows a non-overlapping one; total bounds every contribution.",
 "C25": "Utilisation in (0,1] and monotone for every core count; one-core equality; lower bound inside a NUMA domain; runtime monotone within and across NUMA domains; in-cache case and rejection. C25_saturation: utilisation and reported number of scaling cores follow what the cores ask for. Rational arithmetic instead of floats.",
 "C26": "False as stated (C26_negation_cpu: cycles per iteration multiplied; C26_negation_increment: loop increment ignored). Proved: ECMData is consistent for increment one; ECMCPU is right except cy/It. C26_data_iff: with cycles other than zero, ECMData is consistent if and only if the increment is one.",
 "C27": "First least level for the FLOP variant and the ASM variant, including infinite performances; no loads is rejected.",
 "C28": "Whenever the planner returns; also shows that no event waits while one of its registers is free.",
 "C29": "Termination bound and run bound for valid descriptions with registers; non-termination for every fuel if an event has no register; the class of descriptions that always work.",
 "C30": "All descriptions of the grammar (literals, groups, ranges, unions) and the rejected empty ones.",
 "C31": "Both directions and the rejection condition, for all strings. The forward direction needs parts without colons, which every parsed event satisfies.",
 "C32": "All environments, names, values and block behaviours including exceptions and nesting; a rejected value never enters the block.",
 "C33": "Ranges, spaced ranges (rational arithmetic, round half to even), single values and rejections. Logarithmic spacing is not modelled.",
 "C34": "False as stated: a value given twice is analysed twice (C34_negation), a repeated default loses values (C34_negation_default). Proved for options without repetition; missing constants rejected. C34_each_once_iff: with at most one default, each combination is there once if and only if no value is given twice.",
 "C35": "New leaves, untouched old leaves, nothing else, and exactly when the merge fails, for versions of Python that have collections.Mapping. Missing: since Python 3.10 every merge of something ends in an error (C35_negation_version).",
 "C36": "Termination and window proved. The reported length need not have been simulated (C36_negation, window of at most 10); proved for windows larger than 10. C36_reported_iff says exactly for which windows every reported length was simulated.",
 "C37": "Proved for every linearly ordered metric; both concrete metrics are modelled and shown to ignore lines that are no instructions.",
 "C38": "Positions are recovered by line equality, so repeated lines break the claim (C38_negation; equality of OSACA lines is a parameter). Proved when the first and the last line of the block have no earlier equal line.",
 "C39": "False: the first stored value wins (C39_negation_second) and files without final newline are damaged (C39_negation_incomplete). Proved: exact result for every history from an empty file, and the claim for blocks without earlier entry in complete files.",
 "C40": "Macro and pragma removal: full. Comment removal: proved for texts without //, for texts without /* that end in a newline, and for mixed texts whose comment-free end is at least as long as the longest line. Refuted in general: after a line comment idx can become negative and Python slices wrap around (C40_negation, 4 lines become 5). The loop does not end for all texts: with C40_negation_endless the text grows without limit.",
 "C41": "Prefix changes, prefix reduction and unit mismatch proved for all quantities. T, P and E have wrong factors (C41_negation_prefixes); units beginning with a prefix letter are re-split by every operation (C41_negation_resplit) and unit-less quantities are rejected (C41_negation_no_unit); arithmetic is proved for all other units. Floats are rationals, infinity is not modelled.",
 "C42": "Exact content of the result file after every prefix of file operations; restarts and complete runs. rename is taken as atomic, pickle as an injective dump.",
 "C43": "False for overlapping runs (C43_negation: lost results; C43_negation_bytes: mixed file content and a failing run). Proved: results are kept if later stores come from runs that loaded them, hence for runs one after the other.",
 "C44": "Equal up to list/tuple type is exactly what the conversion identifies; identifiers; deduplication.",
 "C45": "The claim is false in the code for increments and decrements: counts of ++, --, p++ and p-- are derived from the count of their last character (C45_negation). Proved for all other operators and all accepted kernels. C45_steps says what is counted for the four.",
 "C46": "Accepted heads are characterised exactly. The recorded loops describe every C execution of the nest if constants are decimal, increments positive, counters distinct and neither counters nor bounds are assigned to in the body or depend on each other. False in the code without these conditions: octal bounds, increments of zero and assignments to the counter are accepted (three negations).",
 "C47": "Proved in full.",
 "C48": "Termination proved. The alignment helper moves past the boundary in some cases and warm-up can exceed the last iteration (C48_negation_alignment, C48_negation_beyond); the remaining ranges are proved under explicit conditions.",
 "C49": "Rounding is false for fractional bases (C49_negation), proved for integer bases. Blocking and ceildiv proved without restriction.",
 "C50": "Precedence for every machine file table, command line and call.",
 "C51": "Kernel files: proved as equivalence (C51_kernels). Machine dependent files: proved for flags without slashes and underscores. False in the code for machine files of the same name in different directories and for flags that only differ in slashes, or in underscores against separation (negations).",
 "C52": "Values only move towards the stop value and stay inside the limits, for all runtimes. Termination is proved for positive start values and runtimes; it is false for start value zero and for runtimes that stay zero (negations).",
 "C53": "Call and declaration agree in number, order, names and types for every kernel; distinctness of parameter names needs that no variable has the name of a scalar followed by an underscore (C53_negation_names).",
 "C54": "False as stated: an already read path is served from a shared dictionary (C54_negation, C54_negation_shared). Proved: the first model of a path is fresh, other files are untouched, rejections. C54_later_iff: while no model is updated, a later one shows the current content exactly if it is that of the first.",
 "C55": "Accepted statement sequences are exactly those of a grammar stated independently; any statements.",
 "C56": "Proved for blocks in which every change of an address register is one of the recognised instructions; negations for unrecognised changes and scaled lea. Registers are unbounded integers, sub-registers are separate names.",
 "C57": "Maxima, throughput override, and exactly which pointer increments are rejected.",
 "C58": "Telescoping, count and sign for all lists. The code sorts subscript tuples: C58_code_order_nonneg gives the condition under which positions decrease, C58_code_order_negative a case outside it.",
 "C59": "False for kernels without required constants (C59_negation: TypeError, unhashable dictionary). Proved with at least one constant. C59_stored_iff: results can be stored if and only if the kernel has constants.",
 "C60": "False as stated: the pattern is not anchored at the end (C60_negation). Proved: every documented value is accepted as described, and what is accepted begins with one.",
 "C61": "False in general (C61_negation). Proved for events whose register sets are equal or disjoint.",
 "C62": "False in general (C62_negation). Proved: the reported length is within 10 above a simulated length that is not slower.",
 "C63": "False for scaled references whose base register is the chosen one (C63_negation). Proved for index registers and unscaled base registers. C63_right_iff: how far the addresses of every reference with the register move, and exactly when that is the increment.",
 "C64": "False in general (C64_negation: 8 or 64). Proved when all scales agree and every register is changed at most once.",
 "C65": "Exact result against an independent left-to-right comment reader for texts without *// and /*/, with closed comments and a comment-free end at least as long as the longest line. Refuted for adjacent block comments, for /*/ and for /// reached by the wrap-around.",
 "C66": "Proved for kernels whose subscripts use decimal constants only. False in the code for octal constants, which are read as decimal (C66_negation_octal).",
 "C67": "Both results characterised for every accepted kernel. Type names are compared as written, long and long int count as different types.",
 "C68": "Proved for every path and every absolute working directory, without symbolic links.",
 "C69": "Proved if all loops of a variable belong to every region of the variable. False if the loops belong to different regions: only the loops of the short region are updated (C69_negation).",
 "C70": "Proved if steps divide the lengths of loops and no loop is empty; false otherwise (negations). C70_iterations_iff: for loops that are entered, the number is right if and only if every step divides its loop.",
 "C71": "Proved for values of 32 bits; C71_large shows that no other value ever arrives (atoi), C71_negation is an instance with a 64 bit index type. C71_values_iff: right if and only if the constant has 32 bits.",
 "C72": "Proved for earlier runs with the same names of constants. False otherwise: the sources are stored independently of the constants (C72_negation). C72_value_iff: exactly which value each constant has; C72_new_constants: others have none.",
 "C73": "No division by zero, growth and the properties of the result are proved for all nonnegative runtimes; termination for runtimes of at least c > 0 seconds per repetition, and whenever enough repetitions take 1.5 seconds (C73_long_enough_partial); if more repetitions never take less time, exactly then (C73_result_iff). Never ends if runtimes stay zero; the command line argument --iterations has no influence (negations).",
 "C74": "Proved if steps divide the lengths of loops and no loop is empty; false otherwise (negations). C74_iterations_iff: for loops that are entered, the number is right if and only if every step divides its loop.",
 "C75": "Soundness is proved in general. Every symbol gets a value if no event is measured in two runs, in particular if different events have different names. False in general: counters of an event in an earlier run are overwritten (C75_negation).",
 "C76": "Proved for texts with plain directives. False in the code for white space behind a backslash, for a blank between # and pragma, and for lines beginning with # that continue a pragma (negations).",
 "C77": "Cache levels, penalties and one time per level are proved for all inputs. Memory levels need element sizes that divide the cacheline and a known duplexness; both gaps have witnesses. C77_memory_iff: right for memory if and only if elements fill the cacheline.",
 "C78": "Proved for increment one and elements that divide the cacheline; false for other increments (witness). Loads and stores of a level are those for one cacheline of iterations. C78_limits_iff: if data moves beyond L1, right if and only if the increment is one.",
 "C79": "Proved for increment one, false for other increments (witness). C79_units_iff: a finite performance is consistent if and only if the increment is one.",
 "C80": "False for more than one flop per iteration: the peak in FLOP/s is converted as if it were It/s (witness). Proved for one flop per iteration, for unlimited memory and for the in-core variant. C80_wrong_iff: the verdict is wrong if and only if the peak lies between iterations per second and their operations.",
 "C81": "Proved for non-negative values below 8e18 with a unit that is not empty, has no newline, no trailing space and no prefix letter at its beginning. False for larger values, negative values, missing units and units that begin with a prefix letter (one witness each).",
 "C82": "Proved for the packed instructions that the pattern knows, against an independent ranking. Other packed instructions (square roots, multiply-subtract, aligned moves) and AArch64 fused multiply-add are not counted: witnesses.",
 "C83": "Allocation proved for all kernels. Absence of overflow proved if the number of elements fits the index type; false for larger arrays (two dimensions of 50000 with 32-bit int). C83_size_iff: the number of elements is calculated if and only if it fits.",
 "C84": "Proved for distances that are eventually not negative if all symbols have the same value. False for symbols with different values and for negative distances; some distances have no key (AssertionError): witnesses.",
 "C85": "Same element: proved for all references that are accepted. Same subscripts: proved for symbolic extents and subscripts made of a counter and a literal. False for literal extents (9-point stencil: order of references and sign of distances change); some subscripts are rejected: witnesses.",
 "C86": "First part proved for subscripts that are linear in the inner counter, with a witness for powers. Second part proved for symbolic extents; literal extents in three dimensions and arrays without the inner counter are rejected: witnesses.",
 "C87": "Proved if only one machine file is used with a kernel. False for several machines: the path does not depend on the machine, so that the prediction for the first machine is used for all others (C87_negation, C87_other_machine_iff).",
 "C88": "Proved for numbers of cores that fill their groups, for levels at least 1.2 times as large as the previous one, and for main memory with fewer than fifteen groups; witnesses for the other three cases. Floats are rationals. C88_sizes: one working set per number of cores, with fitting sizes per core and thread. C88_memory_iff: the set for memory exceeds the caches if and only if these are fewer than fifteen.",
 "C89": "False: the new sizes are compared with themselves, so every complete entry is kept (witness, and C89_replaced_iff_incomplete for all entries). Proved for entries that are current or incomplete.",
 "C90": "First part proved for one kernel, level and number of threads. Second part false: after an interruption within a list the whole list is measured again (for all interruptions); complete lists are kept. C90_kept_iff says exactly when nothing is measured again.",
 "C91": "Proved for the whole function and positive integer constants (C91_same_truth, C91_form), with the exact condition for an error (C91_rejected_iff). Sympy's own rewriting in line 194 is a parameter that keeps the truth of conditions; the common factor and the signs it finds are arbitrary (the factor is not zero).",
 "C92": "Parsing by sympy is not modelled. Missing: counters next to a minus sign without blank, counters that occur in other counters of the metric, counters that differ only in special characters; each of the three is shown to go wrong.",
 "C93": "Increments of registers and of addresses against executions of the loop (register contents as integers), for tidy blocks with one scale; detection of a single addition; existence of executions and uniqueness of the movement. False for updates by a register, overwritten results of shifts, shifts in sums, differences, mixed scales, base and index that both move, indices that are not understood; subtractions of constants are never found. Negations proved.",
 "C94": "Partial: replacements do not contain the placeholder; an empty list is only used if the node that follows the placeholder is without it; names of placeholders are not used by the kernel. Negations show what happens otherwise. The parts inserted into the main program are arguments (see C53, C71, C83).",
 "C95": "Partial: variables in heads of loops and in subscripts are not assigned to in the body; the arrays are those of the names. C95_negation_swap: the initialisation contains the kernel's calls of swap, after which pointers refer to arrays that were initialised elsewhere. Strings of pragmas, the transformation to one subscript (C09) and the division among threads are not part of the model.",
 "C96": "C96_negation_placeholders: every call without placeholders raises KeyError as 'cache per group' is only created with placeholders (MachineModel.update with overwrite=False does this). C96_negation_groups: cores per group is rounded down for groups of different sizes.",
 "C97": "C97_negation_numa: one domain that spans two sockets is counted once per socket, with the cores of one socket only. C97_readouts_iff: the numbers agree if and only if they divide.",
 "C98": "Resource names of letters and digits. C98_negation_names: names are cut at other characters, so that P_A and P_B become one port.",
 "C99": "Units with different names. Numbers have a fraction, as IACA prints them."
}