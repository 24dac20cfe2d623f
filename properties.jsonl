{"id": "C01", "title": "Interval membership is the union of the given ranges", "statement": "For an Intervals object built from ranges [lo,hi], `x in iv` is true exactly when some given range satisfies lo <= x < hi; ranges with hi <= lo contribute nothing, and the order in which ranges are given does not matter.", "quantifier": "every finite list of integer ranges (any order, overlapping, nested, empty or reversed) and every integer x", "why_tests_cant": "The normalisation loop deletes and merges entries while walking; a finite set of tests cannot cover every overlap pattern of arbitrarily many ranges.", "anchors": ["kerncraft/intervals.py: Intervals.__init__, _enforce_order, _enforce_no_overlap, __contains__"]}
{"id": "C02", "title": "Interval length counts each covered integer once", "statement": "`len(iv)` equals the number of distinct integers x with `x in iv`.", "quantifier": "every finite list of integer ranges", "why_tests_cant": "The claim is about every overlap pattern; existing unit tests use at most a few ranges and miss three-way nesting.", "anchors": ["kerncraft/intervals.py: Intervals.__len__, _enforce_no_overlap"]}
{"id": "C03", "title": "Combining intervals gives the union", "statement": "`x in (a & b)` holds exactly when `x in a or x in b`; the result is a well formed Intervals object (sorted by lower bound, no empty range).", "quantifier": "every pair of Intervals objects (however they were built, including with sane=True) and every integer x", "why_tests_cant": "Quantifies over all pairs of objects and all integers.", "anchors": ["kerncraft/intervals.py: Intervals.__and__"]}
{"id": "C04", "title": "Combining intervals leaves the operands unchanged", "statement": "Evaluating `a & b` does not change which integers are in `a` or `b`.", "quantifier": "every pair of Intervals objects and every history of `&` operations on them", "why_tests_cant": "A mutation of shared inner lists is only visible if a test re-inspects the operands after the operation for an overlapping pattern.", "anchors": ["kerncraft/intervals.py: Intervals.__init__, __and__, _enforce_no_overlap"]}
{"id": "C05", "title": "Global iteration number and loop indices are inverse for unit-stride nests", "statement": "For a loop nest whose loops all have increment 1, converting a global iteration number n (0 <= n < product of trip counts) into loop indices and back returns n; converting indices that lie in their ranges to a global iteration and back returns the same indices; increasing n enumerates the index tuples in the order in which the C loop nest executes them.", "quantifier": "every loop nest depth, all integer bounds with start < end, every n and every index tuple", "why_tests_cant": "Needs mixed-radix reasoning for every depth and every bound.", "anchors": ["kerncraft/kernel.py: Kernel.global_iterator_to_indices, Kernel.indices_to_global_iterator, Kernel.global_iterator"]}
{"id": "C06", "title": "Global iteration number maps to indices the C loop really takes, for any increment", "statement": "For a loop `for(i=start; i<end; i+=incr)` the indices produced from global iteration numbers 0,1,2,... are exactly start, start+incr, start+2*incr, ... while < end.", "quantifier": "every loop with any positive increment and every global iteration number below the trip count", "why_tests_cant": "Unit tests only use increment 1; the claim ranges over all increments.", "anchors": ["kerncraft/kernel.py: Kernel.global_iterator_to_indices, Kernel.iteration_length"]}
{"id": "C07", "title": "Iteration count equals the number of loop body executions", "statement": "The iteration length reported for a loop nest is the number of times the C program executes the innermost body.", "quantifier": "every nest of loops with integer bounds and positive increments", "why_tests_cant": "Universal over bounds and nesting depth.", "anchors": ["kerncraft/kernel.py: Kernel.iteration_length", "kerncraft/symbolic/utils.py: int_ceil"]}
{"id": "C08", "title": "Flattened array access is injective and in bounds", "statement": "For an array with declared dimensions, the linear position used by the cache model for an access with in-range subscripts lies in [0, number of elements), and two in-range subscript tuples get the same position only if they are equal.", "quantifier": "every number of dimensions, all positive extents and all in-range subscript tuples", "why_tests_cant": "Universal over dimensions and subscripts.", "anchors": ["kerncraft/kernel.py: Kernel.access_to_sympy, Kernel.array_sizes"]}
{"id": "C09", "title": "Generated one-dimensional code addresses the same element as the model", "statement": "Rewriting a multi-dimensional declaration and reference to one dimension (for generated code) yields an array with as many elements as the model computes, and a subscript whose value equals the model's flattened access, so generated code and analytical model touch the same element.", "quantifier": "every number of dimensions, all extents, all subscript values", "why_tests_cant": "Two independently written traversals (AST rewriting and symbolic) must agree on every input.", "anchors": ["kerncraft/kernel.py: transform_multidim_to_1d_decl, transform_multidim_to_1d_ref, Kernel.access_to_sympy, Kernel.array_sizes"]}
{"id": "C10", "title": "Virtual arrays never overlap", "statement": "In the byte offsets produced for cache simulation, accesses with in-range subscripts to two different arrays never address a common byte, and every access stays inside its own array's region.", "quantifier": "every set of arrays (names, element sizes, extents), spacing and cacheline size >= 1, and all in-range accesses", "why_tests_cant": "Universal over all array sets and sizes.", "anchors": ["kerncraft/kernel.py: Kernel.compile_global_offsets"]}
{"id": "C11", "title": "Virtual array base addresses are cacheline aligned and independent of declaration order", "statement": "Every array base offset is a multiple of the cacheline size when the cacheline size is a power of two, and does not depend on the order in which the arrays were declared.", "quantifier": "every set of arrays, every spacing and every power-of-two cacheline size", "why_tests_cant": "Bit-mask rounding must be right for all sizes.", "anchors": ["kerncraft/kernel.py: Kernel.compile_global_offsets"]}
{"id": "C12", "title": "Constant substitution reflects the current constants", "statement": "Evaluating a size or bound expression through the kernel uses the values of the constants that are set at that moment.", "quantifier": "every history of set_constant, clear_state and substitution calls", "why_tests_cant": "Staleness of a memo table depends on call histories; tests exercise a few fixed sequences.", "anchors": ["kerncraft/kernel.py: Kernel.subs_consts, Kernel.set_constant, Kernel.clear_state"]}
{"id": "C13", "title": "Constants: last write wins, sorted, order independent", "statement": "After any sequence of set_constant calls, each name maps to the value written last, iteration over constants is in ascending name order without duplicates, and the final table depends only on the last value per name and not on the order in which different names were set.", "quantifier": "every finite sequence of set_constant calls (after a clear_state)", "why_tests_cant": "Ranges over all call sequences.", "anchors": ["kerncraft/kernel.py: Kernel.set_constant"]}
{"id": "C14", "title": "Intermediate file locking: exclusive writer, readers see complete files", "statement": "For any number of processes using the intermediate-file protocol on the same file, without crashes: while one process holds the right to write, no other process is allowed to read or write; a process that is told it may read sees a file that was completely written and is newer than its inputs.", "quantifier": "every number of processes, every interleaving of their atomic steps", "why_tests_cant": "Depends on schedules; tests cannot enumerate interleavings.", "anchors": ["kerncraft/kernel.py: KernelCode.lock_intermediate, release_exclusive_lock, _check_freshness"]}
{"id": "C15", "title": "Intermediate file locking cannot deadlock", "statement": "In every reachable state in which some process has not finished, some process can take a step, and if every lock holder eventually releases, every waiting process can eventually proceed to a state in which it holds a lock.", "quantifier": "every number of processes and every reachable state", "why_tests_cant": "Deadlock freedom is about all schedules.", "anchors": ["kerncraft/kernel.py: KernelCode.lock_intermediate, release_exclusive_lock"]}
{"id": "C16", "title": "A crash while writing an intermediate file is never mistaken for a finished file", "statement": "If a process dies at any point while it produces an intermediate file, a later process never uses the partially written file.", "quantifier": "every crash point of the writer and every later process", "why_tests_cant": "Crash points cannot be enumerated by unit tests.", "anchors": ["kerncraft/kernel.py: KernelCode.lock_intermediate, _check_freshness, get_kernel_code, incore_analysis"]}
{"id": "C17", "title": "In-core analysis honours the requested block and pointer increment", "statement": "The in-core analysis returned for given asm_block and pointer_increment arguments is the one obtained by analysing with exactly these arguments.", "quantifier": "every history of analysis calls with arbitrary arguments on one kernel", "why_tests_cant": "Depends on what earlier runs left in the on-disk cache.", "anchors": ["kerncraft/kernel.py: KernelCode.incore_analysis, get_intermediate_location"]}
{"id": "C18", "title": "Layer conditions account for every access exactly once", "statement": "In every option produced by the layer-condition predictor, predicted hits plus misses equals the number of array accesses of one iteration, and the evicts never exceed the number of written streams.", "quantifier": "every kernel (list of access distances, number of written streams, array sizes, cache size)", "why_tests_cant": "Universal over all kernels and cache sizes.", "anchors": ["kerncraft/cacheprediction.py: LayerConditionPredictor.build_symbolic_LCs"]}
{"id": "C19", "title": "Layer conditions: a larger cache never misses more", "statement": "For fixed kernel, the number of misses predicted by the selected layer condition does not increase when the cache gets larger.", "quantifier": "every kernel and every pair of cache sizes", "why_tests_cant": "Monotonicity over all sizes.", "anchors": ["kerncraft/cacheprediction.py: LayerConditionPredictor.build_symbolic_LCs, desymbolize"]}
{"id": "C20", "title": "Accesses predicted as hits by layer conditions really hit in an LRU cache", "statement": "For a unit-stride stencil sweep, when the cache (fully associative, LRU, one element per line) is larger than the requirement of the selected layer condition, every access counted as hit finds its element in the cache once the sweep is warmed up, whatever the order of the accesses within one iteration.", "quantifier": "every set of arrays and access offsets, every order of accesses in an iteration, every cache size and every iteration after warm-up", "why_tests_cant": "Relates a closed formula to the behaviour of an LRU cache over unbounded executions.", "anchors": ["kerncraft/cacheprediction.py: LayerConditionPredictor.build_symbolic_LCs"]}
{"id": "C21", "title": "A layer condition option is always selected", "statement": "For any cache size the list of options contains one whose condition is true, the first such option is used, and the per-level statistics handed to the models (loads, stores, hits, misses, evicts) are consistent: loads at a level are the misses of the level above, and the last level never misses.", "quantifier": "every kernel, every number of cache levels and all cache sizes", "why_tests_cant": "Universal over inputs.", "anchors": ["kerncraft/cacheprediction.py: LayerConditionPredictor.desymbolize, get_loads, get_hits, get_misses, get_stores, get_evicts"]}
{"id": "C22", "title": "Bandwidth is taken from the benchmark kernel with the closest read/write ratio", "statement": "The benchmark kernel chosen for given read and write streams minimises the distance between its read/write ratio and the target ratio among all benchmark kernels, ties going to the alphabetically first; a read-only target selects the load kernel; the returned bandwidth is the measured one scaled by the write-allocate correction which is at least 1 for well-formed kernels.", "quantifier": "every table of benchmark kernels and every pair of stream counts", "why_tests_cant": "Universal over tables and stream counts.", "anchors": ["kerncraft/machinemodel.py: MachineModel.get_bandwidth"]}
{"id": "C23", "title": "The cache simulator matches the requested number of cores", "statement": "The simulator returned for a core count has its shared cache levels divided by that core count (capped at the cores of a NUMA domain) and private levels unchanged, whatever was requested before.", "quantifier": "every machine description and every history of requests", "why_tests_cant": "Depends on request history.", "anchors": ["kerncraft/machinemodel.py: MachineModel.get_cachesim"]}
{"id": "C24", "title": "ECM single-core prediction composes overlapping and non-overlapping contributions", "statement": "The predicted single-core runtime is the maximum of the sum of all non-overlapping contributions and each overlapping contribution; every hierarchy level contributes exactly once; a hierarchy in which an overlapping level follows a non-overlapping one is rejected.", "quantifier": "every memory hierarchy (any depth, any overlap flags) and all non-negative cycle counts", "why_tests_cant": "Universal over hierarchies.", "anchors": ["kerncraft/models/ecm.py: ECM.analyze"]}
{"id": "C25", "title": "ECM multi-core prediction is bounded and monotone", "statement": "Memory bus utilisation lies in (0,1] for every core count; the prediction for one core equals the single-core prediction; runtime per cacheline never drops below the memory transfer time inside a NUMA domain, and never increases when cores are added.", "quantifier": "every positive memory time not exceeding the single-core time, every number of cores", "why_tests_cant": "The recurrence must be bounded for every core count.", "anchors": ["kerncraft/models/ecm.py: ECM.analyze"]}
{"id": "C26", "title": "Unit conversions of ECM results agree with each other", "statement": "cy/CL, cy/It, It/s and FLOP/s of one result describe the same performance: cy/It times iterations per cacheline is cy/CL, It/s times cy/It is the clock, FLOP/s is It/s times flops per iteration.", "quantifier": "every cycle count, clock, cacheline and element size, and flop count", "why_tests_cant": "Universal over numbers; the two implementations differ.", "anchors": ["kerncraft/models/ecm.py: ECMData.conv_cy, ECMCPU.conv_cy"]}
{"id": "C27", "title": "Roofline reports the slowest level as bottleneck", "statement": "The reported bottleneck level is the first level with the least performance and the reported minimum performance is the performance of that level; for the ASM variant the CPU-L1 level is ignored.", "quantifier": "every list of level performances", "why_tests_cant": "Universal over lists.", "anchors": ["kerncraft/models/roofline.py: RooflineFLOP.calculate_cache_access, RooflineASM.analyze"]}
{"id": "C28", "title": "Measurement runs schedule every event once without register conflicts", "statement": "Whenever the run planner returns, each distinct requested event occurs in exactly one run exactly once, in a register it supports and with its parameters, and no run uses a register twice.", "quantifier": "every list of events with their register options", "why_tests_cant": "Scheduling depends on all combinations of register options.", "anchors": ["kerncraft/models/benchmark.py: build_minimal_runs"]}
{"id": "C29", "title": "The run planner terminates", "statement": "The run planner returns for every list of events that each have at least one possible register, using no more runs than there are distinct events; it does not return when an event has no possible register.", "quantifier": "every list of events", "why_tests_cant": "Termination cannot be tested.", "anchors": ["kerncraft/models/benchmark.py: build_minimal_runs"]}
{"id": "C30", "title": "Register descriptions expand to the documented set of registers", "statement": "A register description made of literal characters, bracketed groups and unions expands to exactly the names obtained by choosing one character per position, in order; a group with a range expands to the characters between its ends and to nothing if reversed.", "quantifier": "every register description", "why_tests_cant": "Universal over descriptions.", "anchors": ["kerncraft/models/benchmark.py: group_iterator, register_options"]}
{"id": "C31", "title": "Performance event strings round-trip", "statement": "Formatting an event tuple and parsing the resulting string gives the tuple back; parsing a string with at least one colon and formatting it gives the string back; strings without a colon are rejected.", "quantifier": "every event whose parts contain no colon, every string", "why_tests_cant": "Universal over strings.", "anchors": ["kerncraft/models/benchmark.py: eventstr", "kerncraft/machinemodel.py: MachineModel.parse_perfctr_event"]}
{"id": "C32", "title": "Fixed environment variables are restored on every exit", "statement": "After a block run with a fixed environment variable, that variable is back to its state from before the block (value or absence), whether the block returned or raised, and whatever it did to the environment; other variables are untouched by the wrapper.", "quantifier": "every environment, name, value or unset request, and every behaviour of the block, also nested", "why_tests_cant": "Universal over block behaviours, including exceptions.", "anchors": ["kerncraft/models/benchmark.py: fix_env_variable"]}
{"id": "C33", "title": "Define ranges have the requested endpoints and count", "statement": "A range start-stop expands to all integers from start to stop; start-stop:num expands to exactly num integers, the first being start, the last stop, monotone in between, each within 1/2 of the exact linear position.", "quantifier": "every start, stop and num", "why_tests_cant": "Universal over numbers.", "anchors": ["kerncraft/kerncraft.py: space, AppendStringRange.__call__"]}
{"id": "C34", "title": "All combinations of defined constants are analysed exactly once", "statement": "The list of analysed definitions contains every combination of the values given for the required constants, each exactly once, and nothing else; missing constants are rejected.", "quantifier": "every list of -D options including repeated names and the default name", "why_tests_cant": "Universal over option lists.", "anchors": ["kerncraft/kerncraft.py: run"]}
{"id": "C35", "title": "Merging result dictionaries keeps all information", "statement": "Merging a dictionary tree u into d yields, for every key path ending in a leaf of u, the value of u, and keeps every leaf of d whose path is not touched by u.", "quantifier": "every pair of nested dictionaries", "why_tests_cant": "Universal over trees.", "anchors": ["kerncraft/picklemerge.py: update"]}
{"id": "C36", "title": "Tile size search terminates inside its window", "statement": "The blocking-length search terminates for every runtime function and positive minimum length, evaluates only lengths inside the search window, and if it reports a length then that length was evaluated.", "quantifier": "every runtime function, minimum and maximum length", "why_tests_cant": "Termination and window for all runtime functions.", "anchors": ["kerncraft/cachetile.py: run, simulate"]}
{"id": "C37", "title": "Automatic block selection picks the first best block", "statement": "The selected block maximises the metric among all blocks, earlier blocks winning ties; an empty set of blocks is rejected.", "quantifier": "every ordered collection of blocks and every metric", "why_tests_cant": "Universal over collections.", "anchors": ["kerncraft/incore_model.py: ISA.select_best_block"]}
{"id": "C38", "title": "Instrumentation encloses exactly the selected block and changes nothing else", "statement": "The instrumented assembly consists of all original lines in their order plus the start marker directly before the first and the end marker directly after the last line of the selected block.", "quantifier": "every assembly file and every selected block", "why_tests_cant": "Block position is recovered by searching for equal lines, which depends on duplicates anywhere in the file.", "anchors": ["kerncraft/incore_model.py: asm_instrumentation"]}
{"id": "C39", "title": "A stored pointer increment is found again", "statement": "After a pointer increment was stored for a block, looking it up returns the value stored last for this block; lookups for other blocks are unaffected.", "quantifier": "every history of store operations and pre-existing cache file content", "why_tests_cant": "Depends on histories of the append-only file.", "anchors": ["kerncraft/incore_model.py: store_increment_to_cache, find_increment_in_cache"]}
{"id": "C40", "title": "Comment and macro stripping keeps line numbers", "statement": "Stripping comments, macros or pragmas terminates and keeps the number of lines, so that code after the stripped parts stays on its original line.", "quantifier": "every source text and every combination of flags", "why_tests_cant": "Universal over texts, e.g. comment at end of file without newline.", "anchors": ["kerncraft/pycparser_utils.py: clean_code"]}
{"id": "C41", "title": "Arithmetic on quantities is exact in base units", "statement": "Sum, difference, product and quotient of quantities have the base value of the corresponding arithmetic on base values; adding or subtracting different units is rejected; changing or reducing the prefix never changes the base value; SI prefixes denote the SI factors.", "quantifier": "every pair of quantities and every prefix", "why_tests_cant": "Universal over values, prefixes and unit strings.", "anchors": ["kerncraft/prefixedunit.py: PrefixedUnit"]}
{"id": "C42", "title": "Stored results survive crashes", "statement": "At every crash point while results are stored, the result file contains either all results stored before or all results including the new ones, never a partial file.", "quantifier": "every crash point, any number of store operations", "why_tests_cant": "Crash points.", "anchors": ["kerncraft/kerncraft.py: run"]}
{"id": "C43", "title": "Stored results of concurrent runs are all kept", "statement": "If several runs store results to the same file, all their results are in the file after all finished.", "quantifier": "every interleaving of runs", "why_tests_cant": "Schedules.", "anchors": ["kerncraft/kerncraft.py: run"]}
{"id": "C44", "title": "Result identifiers distinguish different definitions", "statement": "Converting nested argument lists to tuples keeps structure: two argument values are mapped to the same identifier part only if they are equal up to list/tuple type; the list of models is deduplicated keeping first occurrences in order.", "quantifier": "every nested argument value and every list", "why_tests_cant": "Universal over nested values.", "anchors": ["kerncraft/kerncraft.py: to_tuple, uniquify, identifier_from_arguments"]}
{"id": "C45", "title": "Flop counts equal the number of operations in the kernel", "statement": "For each operator the reported flop count equals the number of its occurrences in the loop body's right hand sides (plus compound assignments).", "quantifier": "every expression tree and every list of assignments", "why_tests_cant": "Universal over expression trees.", "anchors": ["kerncraft/kernel.py: KernelCode._p_assignment, _p_sources"]}
{"id": "C46", "title": "Accepted loops are iterated as in C", "statement": "If a for loop is accepted, the recorded start, end and step describe exactly the index values that the C loop takes; every other loop shape is rejected.", "quantifier": "every loop header of the supported AST shapes", "why_tests_cant": "Universal over loop headers.", "anchors": ["kerncraft/kernel.py: KernelCode._p_for"]}
{"id": "C47", "title": "Distance keys are ordered consistently", "statement": "Comparing two keys of possibly different length is a total preorder: exactly one of less, equal, greater holds, it is antisymmetric and transitive, and agrees with comparing after padding with leading zeros.", "quantifier": "every pair and triple of keys", "why_tests_cant": "Universal over keys of all lengths.", "anchors": ["kerncraft/cacheprediction.py: uneven_tuple_cmp"]}
{"id": "C48", "title": "Cache simulation aligns and bounds its warm-up", "statement": "Warm-up terminates after a bounded number of steps, never simulates beyond the last iteration, and the alignment helper returns an iteration whose store address starts a cacheline, moving in the requested direction by less than one cacheline.", "quantifier": "every kernel size, cache size and offset", "why_tests_cant": "Universal over sizes.", "anchors": ["kerncraft/cacheprediction.py: CacheSimulationPredictor.simulate, _align_iteration_with_cl_boundary"]}
{"id": "C49", "title": "Blocking returns exactly the touched blocks, rounding goes up to the next multiple", "statement": "The block list is strictly increasing and contains b exactly if some index lies in block b; rounding x to the next multiple of base returns the least multiple of base not below x.", "quantifier": "every index list, block size > 0 and boundary; every x and base > 0", "why_tests_cant": "Universal over lists and numbers.", "anchors": ["kerncraft/models/ecm.py: blocking, round_to_next", "kerncraft/cacheprediction.py: ceildiv"]}
{"id": "C50", "title": "Compiler selection precedence", "statement": "The compiler is taken from the call, else from the command line, else it is the first compiler of the machine file found on the system; if none is available an error is raised; flags follow the same precedence and default to those of the machine file for the chosen compiler.", "quantifier": "every combination of arguments, machine files and available programs", "why_tests_cant": "Universal over combinations.", "anchors": ["kerncraft/machinemodel.py: MachineModel.get_compiler"]}
{"id": "C51", "title": "Different kernels use different intermediate directories", "statement": "Two kernel files at different absolute paths never share an intermediate directory; results for different machines, compilers or flags are kept apart where requested.", "quantifier": "every pair of paths", "why_tests_cant": "Universal over paths.", "anchors": ["kerncraft/kernel.py: KernelCode.get_intermediate_location"]}
{"id": "C52", "title": "Automatic adjustment of benchmark ranges stays inside the user's limits and terminates", "statement": "Adjusted variables move monotonically from their current value towards the user's stop value and never beyond, and the measure-adjust loop stops.", "quantifier": "every set of adjustable variables and every sequence of measured runtimes", "why_tests_cant": "Depends on measurement sequences.", "anchors": ["kerncraft/models/standalone_benchmark.py: adjust_variables, analyze"]}
{"id": "C53", "title": "Generated kernel call matches the kernel's declaration", "statement": "The arguments of the generated kernel call correspond one to one, in order and kind, to the parameters of the generated kernel function: arrays, then scalars, then constants.", "quantifier": "every set of variables and constants", "why_tests_cant": "Universal over variable sets.", "anchors": ["kerncraft/kernel.py: KernelCode._build_kernel_function_declaration, _build_kernel_call"]}
{"id": "C54", "title": "Machine descriptions are isolated and fresh", "statement": "Creating a machine model from a path gives the content of that file at that time, independent of other machine model objects created before.", "quantifier": "every history of creating, updating and re-creating machine models", "why_tests_cant": "Depends on histories of a process-wide cache.", "anchors": ["kerncraft/machinemodel.py: MachineModel.__init__, update"]}
{"id": "C55", "title": "Kernel code sections are parsed in order", "statement": "Kernel code is accepted exactly if it consists of declarations, then one loop nest (pragmas followed by one for loop), then swap calls; all statements in any other order are rejected.", "quantifier": "every sequence of top-level statements", "why_tests_cant": "Universal over sequences.", "anchors": ["kerncraft/kernel.py: KernelCode._process_code"]}
{"id": "C56", "title": "Detected pointer increments are justified by the block", "statement": "For x86 blocks, an increment that is reported (and not taken from the user cache) equals the single constant change of an address register per block iteration times the common scale of the references that use it.", "quantifier": "every block of instructions", "why_tests_cant": "Universal over instruction sequences and over set iteration orders.", "anchors": ["kerncraft/incore_model.py: x86.get_pointer_increment"]}
{"id": "C57", "title": "In-core cycles are scaled consistently to a cacheline", "statement": "The overlapping and non-overlapping in-core times per cacheline are the maxima of the respective port cycles scaled by cacheline size over block size, the reported core time is never below the throughput prediction when that prediction exceeds the data time, and a zero block size is rejected.", "quantifier": "every port cycle table, pointer increment and cacheline size", "why_tests_cant": "Universal over tables.", "anchors": ["kerncraft/models/ecm.py: ECMCPU.analyze"]}
{"id": "C58", "title": "Relative distances between accesses are recovered from global offsets", "statement": "For the access positions of one array sorted in decreasing order, the distances used by the predictors telescope: any two positions differ by the sum of the distances between them, all distances are non-negative, and there is exactly one distance less than there are accesses.", "quantifier": "every list of access positions", "why_tests_cant": "Universal over lists.", "anchors": ["kerncraft/cacheprediction.py: LayerConditionPredictor.build_symbolic_LCs", "kerncraft/kernel.py: Kernel.compile_relative_distances"]}
{"id": "C59", "title": "Every analysed combination has a usable result identifier", "statement": "For every set of required constants and every combination of their values, the result can be stored under its identifier, and different combinations are stored under different identifiers.", "quantifier": "every set of required constants, including none, and every combination of values", "why_tests_cant": "Universal over combinations; the case without constants needs a kernel no test uses.", "anchors": ["kerncraft/kerncraft.py: run, to_tuple, identifier_from_arguments"]}
{"id": "C60", "title": "Only values of the documented range format are accepted", "statement": "A -D value is accepted exactly if the whole string has the format start[-stop[:num[log[base]]]], and it is read as the numbers in it.", "quantifier": "every string", "why_tests_cant": "Universal over strings.", "anchors": ["kerncraft/kerncraft.py: AppendStringRange.__call__"]}
{"id": "C61", "title": "The run planner uses the least possible number of runs", "statement": "No valid assignment of the requested events to registers has fewer runs than the one returned by the planner.", "quantifier": "every list of events and register options", "why_tests_cant": "Comparison with every other assignment.", "anchors": ["kerncraft/models/benchmark.py: build_minimal_runs"]}
{"id": "C62", "title": "The reported blocking length is not slower than the minimum length", "statement": "If the search reports a blocking length, the simulated runtime at that length is not larger than the runtime at the minimum length.", "quantifier": "every runtime function, minimum and maximum length", "why_tests_cant": "Comparison at every possible end of the search.", "anchors": ["kerncraft/cachetile.py: run"]}
{"id": "C63", "title": "Reported pointer increments are the movement of addresses", "statement": "If an increment is reported for an x86 block, the addresses of the references that use the chosen register move by exactly this increment in one execution of the block.", "quantifier": "every block, every initial register content", "why_tests_cant": "Universal over instruction sequences and register contents.", "anchors": ["kerncraft/incore_model.py: x86.get_pointer_increment"]}
{"id": "C64", "title": "Pointer increments do not depend on set iteration order", "statement": "The result of the increment detection is the same for every iteration order of the set of candidate registers.", "quantifier": "every block and every pair of orders", "why_tests_cant": "Python's string hashing is randomised; a test sees one order.", "anchors": ["kerncraft/incore_model.py: x86.get_pointer_increment"]}
{"id": "C65", "title": "Exactly the comments are removed", "statement": "Stripping comments yields the text in which every line comment and every block comment, read from left to right, is replaced by the newlines it contains, and nothing else is changed.", "quantifier": "every source text (string literals not treated specially, as documented)", "why_tests_cant": "Universal over texts; failures need particular adjacencies or distances to the end of the file.", "anchors": ["kerncraft/pycparser_utils.py: clean_code"]}
{"id": "C66", "title": "All references of the body are recorded with their subscripts", "statement": "For an accepted kernel the recorded sources are exactly the scalars and array elements read by the assignments of the loop body (including the targets of compound assignments), the recorded destinations exactly the assignment targets; the recorded subscripts evaluate, for all values of counters and constants and from left to right, to the C values of the subscripts.", "quantifier": "every accepted kernel, every expression, every value of the variables", "why_tests_cant": "Universal over expression trees and environments.", "anchors": ["kerncraft/kernel.py: KernelCode._get_offsets, _p_assignment, _p_sources, conv_ast_to_sym"]}
{"id": "C67", "title": "The index type is the common type of all counters", "statement": "For an accepted kernel get_index_type returns t exactly if every loop of the nest declares its counter with type t; it raises ValueError exactly if there is no common type.", "quantifier": "every accepted kernel, any nesting depth", "why_tests_cant": "Universal over loop nests.", "anchors": ["kerncraft/kernel.py: KernelCode.get_index_type"]}
{"id": "C68", "title": "Shortened paths denote the same file", "statement": "reduce_path returns, for every path and every absolute working directory, a path that denotes the same file as the given one, and never a longer one.", "quantifier": "every path, every working directory", "why_tests_cant": "Universal over paths with dots, double dots and repeated slashes.", "anchors": ["kerncraft/kernel.py: reduce_path"]}
{"id": "C69", "title": "Loop ends follow the adjusted variables", "statement": "After the stand-alone benchmark has adjusted its variables, every loop whose end is given by a variable ends at the final value of that variable minus its offset.", "quantifier": "every setup of variables, regions and loops, every sequence of measured runtimes", "why_tests_cant": "Universal over measurement sequences; the interaction of several regions needs an invariant.", "anchors": ["kerncraft/models/benchmark.py: adjust_variables", "kerncraft/standalone_pheno.py: AppendLoopRange"]}
{"id": "C70", "title": "Iterations per repetition of stand-alone loops", "statement": "The number of iterations per repetition computed for a region is the number of times that the body of its loop nest is executed.", "quantifier": "every loop nest with integer bounds and positive steps", "why_tests_cant": "Universal over bounds, steps and nesting depth.", "anchors": ["kerncraft/kernel.py: region__iterations_per_repetition"]}
{"id": "C71", "title": "Constants reach the benchmark with their value", "statement": "The generated main program reads every constant from the argument at which the benchmark model passes its value, and gets the value that the analysis uses.", "quantifier": "every kernel, every table of integer constants", "why_tests_cant": "Universal over tables and values; positions are computed in two different places.", "anchors": ["kerncraft/kernel.py: KernelCode._build_const_declartions", "kerncraft/models/benchmark.py: Benchmark.analyze"]}
{"id": "C72", "title": "Reused generated sources fit the constants of the run", "statement": "If the main program generated by an earlier run is reused, its constants have the values of the present run.", "quantifier": "every pair of runs of the same kernel", "why_tests_cant": "Depends on the history of earlier runs.", "anchors": ["kerncraft/kernel.py: KernelCode.get_main_code, lock_intermediate"]}
{"id": "C73", "title": "The number of repetitions is found by growing runs of at least 1.5 seconds", "statement": "The loop that determines the repetitions never divides by zero, increases the repetitions from run to run, ends, and its result is a run of at least 1.5 s together with its time per repetition; the number of iterations of the command line is taken into account.", "quantifier": "every sequence of nonnegative measured runtimes", "why_tests_cant": "Universal over runtimes, and termination.", "anchors": ["kerncraft/models/benchmark.py: Benchmark.analyze"]}
{"id": "C74", "title": "Iterations per repetition of the benchmark", "statement": "The iterations per repetition used for all metrics of the benchmark model are the number of times that the loop body is executed.", "quantifier": "every loop nest with integer bounds and positive steps", "why_tests_cant": "Universal over bounds, steps and nesting depth.", "anchors": ["kerncraft/models/benchmark.py: Benchmark.analyze"]}
{"id": "C75", "title": "Measured counters are matched to their symbols", "statement": "Every symbol of the performance metrics gets a value, and the value was measured for its event and its parameters in a register of its description.", "quantifier": "every list of symbols and events, every reported counter value", "why_tests_cant": "Universal over event lists and register descriptions; depends on the distribution of events over runs.", "anchors": ["kerncraft/models/benchmark.py: Benchmark.analyze, perfctr, build_minimal_runs"]}
{"id": "C76", "title": "Exactly the lines of macros and pragmas are removed", "statement": "Stripping macros or pragmas empties exactly the lines that belong to preprocessor macros or pragmas (with the lines that continue them) and leaves every other line unchanged.", "quantifier": "every text and every choice of what is stripped", "why_tests_cant": "Universal over all texts; depends on continuation of lines.", "anchors": ["kerncraft/pycparser_utils.py: clean_code"]}
{"id": "C77", "title": "ECM transfer times follow data volume and throughput", "statement": "Every level below L1 contributes one transfer time, in the order of the hierarchy: the cachelines on its bus (loads plus stores if half-duplex, the larger of both if full-duplex) times the cacheline size divided by its throughput, converted to cycles for memory bandwidths; any other duplexness is rejected; the penalty is the sum of loads and stores of memory levels weighted with their penalties.", "quantifier": "every hierarchy, cacheline and element size, clock, throughput, bandwidth, number of loads and stores", "why_tests_cant": "Rational inputs per level and hierarchies of any length; tests use a few machine files.", "anchors": ["kerncraft/models/ecm.py: ECMData.calculate_cycles"]}
{"id": "C78", "title": "Roofline limits use exactly the available bandwidth", "statement": "The performance reported for a level is the number of iterations per second at which the bytes moved per iteration use the whole bandwidth of the level (infinite exactly if nothing is moved); the reported minimum is sustained by all levels and saturates the bottleneck level.", "quantifier": "every number of reads and writes, loads and stores, bandwidths, hierarchy depth, element size and loop increment", "why_tests_cant": "Rational inputs for any number of levels.", "anchors": ["kerncraft/models/roofline.py: RooflineFLOP.calculate_cache_access"]}
{"id": "C79", "title": "Units of Roofline results agree with each other", "statement": "It/s, cy/It, cy/CL and FLOP/s of one Roofline result describe the same performance; a performance of zero is rejected.", "quantifier": "every clock, performance (also infinite), cacheline and element size, flops and loop increment", "why_tests_cant": "Universal over rational inputs.", "anchors": ["kerncraft/models/roofline.py: RooflineFLOP.conv_perf"]}
{"id": "C80", "title": "A kernel is reported CPU bound exactly if the memory limit exceeds the peak performance", "statement": "The peak performance reported by the Roofline model is clock times cores times flops per cycle, and the kernel is reported as CPU bound exactly if the limit of the memory hierarchy in FLOP/s is above that; in the in-core variant the CPU limit is the speed at which all cores execute one block in the predicted cycles.", "quantifier": "every clock, number of cores, flops per cycle and per iteration, memory limit, block throughput and pointer increment", "why_tests_cant": "Universal over rational inputs; the existing tests use kernels for which both readings give the same verdict.", "anchors": ["kerncraft/models/roofline.py: RooflineFLOP.analyze", "kerncraft/models/roofline.py: RooflineFLOP.report", "kerncraft/models/roofline.py: RooflineASM.analyze"]}
{"id": "C81", "title": "Quantities survive being written to and read from text", "statement": "A quantity written as text (as in machine files) can be read again and then has the same unit and a value that differs by at most one percent or 0.005.", "quantifier": "every value, prefix and unit", "why_tests_cant": "Universal over rational values and unit strings; the choice of the prefix depends on the magnitude.", "anchors": ["kerncraft/prefixedunit.py: __str__", "kerncraft/prefixedunit.py: __init__", "kerncraft/prefixedunit.py: good_prefix"]}
{"id": "C82", "title": "The most vectorised block is selected", "statement": "The automatically selected assembly block has the largest number of packed floating-point instructions (AArch64: vector operands); ties are decided by AVX instructions, registers of 512, 256 and 128 bits and the number of instructions (AArch64: floating-point and integer arithmetic, instructions), and then by position.", "quantifier": "every list of blocks with any instructions", "why_tests_cant": "Universal over blocks of any length with arbitrary mnemonics and operands.", "anchors": ["kerncraft/incore_model.py: x86.compute_block_metric", "kerncraft/incore_model.py: AArch64.compute_block_metric", "kerncraft/incore_model.py: ISA.select_best_block"]}
{"id": "C83", "title": "Arrays of generated programs get memory for all their elements", "statement": "The main program allocates, for every array of the kernel, exactly as many elements as the product of its dimensions, the kernel function allocates nothing, and sizes and positions are calculated without integer overflow.", "quantifier": "every kernel, all array extents, all subscripts within the extents", "why_tests_cant": "Universal over extents and subscripts; overflow only appears with arrays of several gigabytes.", "anchors": ["kerncraft/kernel.py: transform_array_decl_to_malloc", "kerncraft/kernel.py: transform_multidim_to_1d_decl", "kerncraft/kernel.py: transform_multidim_to_1d_ref", "kerncraft/kernel.py: KernelCode._build_array_declarations"]}
{"id": "C84", "title": "Symbolic reuse distances are sorted by size", "statement": "Of two reuse distances the one with the smaller sort key is smaller for all sufficiently large problem sizes, equal keys mean equal distances, and the infinite distance has the largest key.", "quantifier": "every pair of polynomial distances in any number of symbols, all sufficiently large sizes", "why_tests_cant": "Universal over polynomials of any degree and asymptotic in the sizes.", "anchors": ["kerncraft/cacheprediction.py: sympy_expr_abs_distance_key"]}
{"id": "C85", "title": "Linear positions are split into the subscripts they came from", "statement": "Splitting the linear position of an array reference into one part per dimension gives parts that denote the same element, and these are the subscripts of the reference.", "quantifier": "every array with any number of dimensions and any subscripts, all values of the symbols", "why_tests_cant": "Universal over dimensions, subscripts and symbol values.", "anchors": ["kerncraft/cacheprediction.py: split_sympy_access_in_dim_offset", "kerncraft/kernel.py: Kernel.access_to_sympy"]}
{"id": "C86", "title": "Layer conditions are applied to stencil kernels only, and to all of them", "statement": "If layer conditions are applied, all loops advance by one and the position of every reference stays or advances by one element per step of the inner loop. They are applied to all kernels whose subscripts are counters (in the order of the loops) plus literals.", "quantifier": "every loop nest and every set of references with polynomial subscripts, all values of the symbols", "why_tests_cant": "Universal over loop nests, subscripts and iterations.", "anchors": ["kerncraft/cacheprediction.py: LayerConditionPredictor.build_symbolic_LCs"]}
{"id": "C87", "title": "Stored cache predictions belong to the current kernel, machine, cores and constants", "statement": "A cache prediction that is taken from an intermediate file is the one that would be calculated for the current kernel code, kerncraft version, machine file, number of cores and constants.", "quantifier": "every history of changes of files and of predictions", "why_tests_cant": "Universal over histories; depends on modification times and on earlier runs.", "anchors": ["kerncraft/cacheprediction.py: LayerConditionPredictor.__init__", "kerncraft/cacheprediction.py: CacheSimulationPredictor.__init__", "kerncraft/kernel.py: KernelCode.get_intermediate_location", "kerncraft/kernel.py: KernelCode._check_freshness"]}
{"id": "C88", "title": "Benchmark working sets lie between two cache levels", "statement": "The working set that is chosen for benchmarking a memory level is larger than all caches of the previous level that the cores use, and fits into the caches of the level itself.", "quantifier": "every memory hierarchy and every number of cores", "why_tests_cant": "Universal over cache sizes, groups of cores and numbers of cores.", "anchors": ["kerncraft/machinemodel.py: MachineModel._update_benchmarks"]}
{"id": "C89", "title": "Benchmarks for other working sets are discarded", "statement": "After an update of the benchmarks, the sizes, cores and threads of every stored entry agree with the current machine description.", "quantifier": "every stored entry and every machine description", "why_tests_cant": "Universal over stored entries; a test would have to know which of them are outdated.", "anchors": ["kerncraft/machinemodel.py: MachineModel._update_benchmarks"]}
{"id": "C90", "title": "Benchmark results are complete and survive interruptions", "statement": "After an update there is one result per working set, the best of its repetitions; results that were stored before an interruption are not measured again.", "quantifier": "every number of working sets and repetitions, all measured values, every point of interruption", "why_tests_cant": "Universal over measured values and interruptions.", "anchors": ["kerncraft/machinemodel.py: MachineModel._update_benchmarks"]}
{"id": "C91", "title": "Rewritten layer conditions have the same truth value", "statement": "The canonical form of a layer condition is true for exactly the same values of the constants as the condition itself; if the right side is a number, the result has a number that is not negative on the right and none on the left.", "quantifier": "every relation between sums of products of symbols, all values of the symbols", "why_tests_cant": "Universal over relations and values.", "anchors": ["kerncraft/cacheprediction.py: canonical_relational"]}
{"id": "C92", "title": "Counters of a metric get their own names", "statement": "In a performance metric exactly the performance counters are found, from left to right; the text handed to sympy is the metric with every counter replaced by its own name, an identifier; names lead back to their counters, whose events consist of event, register and parameters.", "quantifier": "every metric, written as counters and other text between separators", "why_tests_cant": "Metrics of any length with any counters; tests use the few metrics of the machine files.", "anchors": ["kerncraft/machinemodel.py: MachineModel.parse_perfmetric", "kerncraft/machinemodel.py: MachineModel.parse_perfctr_event"]}
{"id": "C93", "title": "Pointer increments of AArch64 loops", "statement": "The pointer increment detected in a block of AArch64 code is the distance by which all relevant addresses move from one iteration to the next, in every execution of the loop; a pointer moved by one addition of a constant is detected.", "quantifier": "every block of instructions, every initial register contents, every number of iterations", "why_tests_cant": "Blocks of any length with any mixture of additions, shifts and updates, and all executions of them; tests contain a few compiled kernels.", "anchors": ["kerncraft/incore_model.py: AArch64.get_pointer_increment", "kerncraft/incore_model.py: AArch64.normalize_to_register_str"]}
{"id": "C94", "title": "Placeholders of the main program are replaced", "statement": "Replacing an identifier in a syntax tree ends and gives the tree in which every occurrence below the root is the replacement and everything else is unchanged and in order; the generated main program is the template with its six placeholders replaced by the declarations, initialisations and calls, which appear in that order.", "quantifier": "every syntax tree, identifier and replacement; all declarations and statements generated for a kernel", "why_tests_cant": "Trees of any shape and lists that change while they are visited; tests contain a few kernels.", "anchors": ["kerncraft/pycparser_utils.py: replace_id", "kerncraft/kernel.py: KernelCode.get_main_code"]}
{"id": "C95", "title": "Arrays are initialised where the kernel uses them", "statement": "The code generated to initialise arrays has the loops of the kernel with one assignment per array reference of the body: whenever the kernel's loop nest ends, it ends as well and assigns to exactly the elements that the kernel reads or writes.", "quantifier": "every accepted kernel, all values of the constants, every execution", "why_tests_cant": "Kernels with any nesting, references and sizes; tests do not compare the accesses of kernel and initialisation.", "anchors": ["kerncraft/kernel.py: KernelCode._build_array_initializations", "kerncraft/kernel.py: KernelCode._find_inner_most_loop", "kerncraft/kernel.py: KernelCode.get_kernel_loop_nest", "kerncraft/kernel.py: find_node_type"]}
{"id": "C96", "title": "The memory hierarchy read from the topology describes every cache in order", "statement": "get_memory_hierarchy (called with placeholders) returns, for a likwid-topology output whose cache section has for each cache a level line, a size line and a line of groups (with any other lines between), one entry per cache in the same order and then an entry MEM. The entry of a cache has the name L<level>, the size read from its line, the number of groups of its line, cores per group = cores of all sockets // groups, and threads per group = cores per group * threads per core. Every cache but the last loads from and stores to L<level+1>, which is the following entry if levels are numbered in a row; the last cache has neither link. If all groups have the same number of cores, groups * cores per group is the number of cores.", "quantifier": "for all outputs, numbers of caches, levels, sizes, groups and other lines", "why_tests_cant": "Only the output of the machine that runs the tests can be read.", "anchors": ["kerncraft/machinemodel.py: get_memory_hierarchy"]}
{"id": "C97", "title": "The core counts read from the topology are consistent", "statement": "get_machine_readouts returns the threads per core, sockets and cores per socket of the first line of likwid-topology's output that starts with the key; the number of NUMA domains per socket is at least one; if domains are spread evenly over sockets and cores evenly over domains, then domains per socket * sockets is the number of domains and cores per domain * domains the number of cores.", "quantifier": "for all outputs that contain the four lines, all numbers, and any text before, between and after them", "why_tests_cant": "Only the output of the machine that runs the tests can be read.", "anchors": ["kerncraft/machinemodel.py: get_machine_readouts", "kerncraft/machinemodel.py: get_match_or_break"]}
{"id": "C98", "title": "Results of llvm-mca are the numbers of its output", "statement": "For an output of llvm-mca with a section on resources, a table of the resource pressure, totals and a timeline, the analysis returns for each resource name the greatest pressure of all columns with this name (a dash counts as zero) and no other names, cycles and micro-operations per iteration as totals divided by the number of iterations, and as latency of the critical path the number of columns from the first dispatch to the last retirement in the rows of the first iteration.", "quantifier": "for all outputs: any resources, columns, totals, rows, blanks, and other text between them", "why_tests_cant": "The tests need an installed llvm-mca and see the output of one version for few kernels.", "anchors": ["kerncraft/incore_model.py: llvm_mca_analyse_instrumented_assembly"]}
{"id": "C99", "title": "Results of IACA are the numbers of its output", "statement": "For an output of IACA with block throughput, table of ports and number of micro-operations, the analysis returns this throughput and number, and the cycles of each port in the order of the table; the second unit of a port, such as the divider, is named by port and unit together.", "quantifier": "for all outputs: any ports with one or two units, numbers, blanks, and other lines between them", "why_tests_cant": "The tests need an installed IACA and see its output for few kernels.", "anchors": ["kerncraft/incore_model.py: iaca_analyse_instrumented_binary"]}
{"id": "C100", "title": "The fastest available benchmark kernel is chosen", "statement": "Of the kernels listed by likwid-bench whose names have the requested beginning and contain none of the excluded texts, the one with the highest printed bandwidth is chosen (of equally fast ones the last by name). Kernels whose run fails or prints no bandwidth are passed over; if none is left there is an error. The stored bandwidth is the printed one in MB/s.", "quantifier": "for all lists of kernels, beginnings, excluded texts and outputs of the runs that are not empty", "why_tests_cant": "The tests never run likwid-bench; the list and the outputs depend on machine and version.", "anchors": ["kerncraft/machinemodel.py: find_fastest_bench_kernel", "kerncraft/machinemodel.py: get_available_bench_kernels", "kerncraft/machinemodel.py: measure_bw"]}
{"id": "C101", "title": "Threads of a bandwidth measurement are spread evenly", "statement": "The command for a measurement has one work group of the requested size for each socket, which puts the requested number of threads on each of the requested number of cores and none on others.", "quantifier": "for all sizes, numbers of threads, hardware threads, cores and sockets", "why_tests_cant": "The tests never run likwid-bench, and most machines have one or two hardware threads per core, where the fault cannot show.", "anchors": ["kerncraft/machinemodel.py: measure_bw"]}
{"id": "C102", "title": "Loops of the stand-alone benchmark reach their regions", "statement": "An argument 'regions:start:step:end:variable' (regions, step and variable optional) adds exactly this loop, with step 1 if none is given, behind the loops of each named region and leaves the other regions as they are; arguments of another form are refused.", "quantifier": "for all lists of region names, numbers, variables and earlier arguments", "why_tests_cant": "The tests do not parse arguments of the stand-alone benchmark; the pattern backtracks over optional parts that overlap, so that single arguments show little.", "anchors": ["kerncraft/standalone_pheno.py: AppendLoopRange"]}
{"id": "C103", "title": "Definitions of the stand-alone benchmark are read as given", "statement": "A definition 'regions:start:stop:scale' (regions, stop and scale optional) stores the regions, the numbers and the scale under its name, in place of an earlier definition of this name only; without a scale a range is linear if it rises and logarithmic otherwise; arguments of another form are refused.", "quantifier": "for all names, lists of regions, decimal numbers with or without exponent, and earlier definitions", "why_tests_cant": "The tests do not parse arguments of the stand-alone benchmark; every part of the pattern is optional, so that it also matches what it should not.", "anchors": ["kerncraft/standalone_pheno.py: AppendStringRange"]}
{"id": "C104", "title": "Repetitions and operations of the stand-alone benchmark reach their regions", "statement": "An argument for repetitions stores its qualifier for each named region in place of an earlier one and leaves other regions as they are. An argument for operations stores its number for each named region, if all of them are new and different; otherwise it is an error.", "quantifier": "for all lists of region names, qualifiers, numbers and earlier arguments", "why_tests_cant": "The tests do not parse arguments of the stand-alone benchmark; a region may be named twice in one argument or in two.", "anchors": ["kerncraft/standalone_pheno.py: AppendRepetitionDefines", "kerncraft/standalone_pheno.py: AppendFlops"]}
{"id": "C105", "title": "The measured region contains the requested number of kernel calls", "statement": "The main program of a benchmark, started with a number of repetitions, initialises its data, calls the kernel twice to warm up and then, between start and stop of the measured region, calls the kernel exactly as often as requested, each time followed by the dummy function; with this program the measured values divided by the requested number are those of one call.", "quantifier": "for all numbers of repetitions", "why_tests_cant": "The tests do not run the generated program; they cannot try every number of repetitions, and the adaptive choice of the number may reach values for which the conversion in the program overflows.", "anchors": ["kerncraft/kernel.py: KernelCode.CODE_TEMPLATE", "kerncraft/models/benchmark.py: Benchmark.analyze"]}
{"id": "C106", "title": "Metrics and counters are read from the output of likwid-perfctr", "statement": "From the comma separated output of likwid-perfctr every metric is stored with its number, every event with the counts of its counters over all measured cores, and every piece of information about the processor with its text; of several lines with the same name the last one counts, and nothing is stored for names that are in no such line.", "quantifier": "for all outputs with metric, event, information and other lines", "why_tests_cant": "The tests do not read output of likwid-perfctr; which kind a line has depends on which conversions of its columns fail.", "anchors": ["kerncraft/models/benchmark.py: perfctr"]}
{"id": "C107", "title": "Marked assembly keeps its pointer increment", "statement": "Assembly that was marked with a pointer increment gives the same increment when the marked file is used again.", "quantifier": "for all assembly files, markers, selections and increments", "why_tests_cant": "The tests do not use marked files again; which number is found depends on every text in the file before the marker and on the sign of the increment.", "anchors": ["kerncraft/incore_model.py: asm_instrumentation", "kerncraft/kernel.py: KernelCode.incore_analysis"]}
{"id": "C108", "title": "Block and pointer increment are the selected ones", "statement": "asm_instrumentation marks the best block with 'auto', the block the user names with 'manual' (the best one for an empty answer) and the block with the given number otherwise; the increment is the given number, the detected one with 'auto' (an error if there is none), or the one the user enters, which is stored for later runs unless it is zero. Answers that name no block are asked again, as are answers without a number if no increment was detected.", "quantifier": "for all assembly files, detections of increments and sequences of answers", "why_tests_cant": "The tests do not answer questions; sequences of wrong answers are unbounded.", "anchors": ["kerncraft/incore_model.py: asm_instrumentation, userselect_block, userselect_increment"]}
{"id": "C109", "title": "Reported numbers of a benchmark describe the same measurement", "statement": "Runtime per repetition, cycles per cacheline, FLOP/s, iterations per second and memory volume of a benchmark all follow from the measured time and the work that was done; cycles per cacheline of a measurement convert to the measured iterations per second and FLOP/s in the same way as those of a prediction.", "quantifier": "for all runtimes, repetitions, iteration counts, clocks, sizes and loop steps", "why_tests_cant": "The tests do not measure; agreement of the units has to hold for all steps and element sizes.", "anchors": ["kerncraft/models/benchmark.py: Benchmark.analyze", "kerncraft/kernel.py: Kernel.bytes_per_iteration", "kerncraft/models/ecm.py: ECMData.conv_cy"]}
{"id": "C110", "title": "Measured transfer times follow the analytical model", "statement": "The phenomenological ECM model calculates from measured volumes the transfer times that the analytical model calculates from the same volumes; the times of the overlapping and non-overlapping models are the metrics of the machine file per cacheline of work.", "quantifier": "for all measured volumes, throughputs, clocks and sizes", "why_tests_cant": "The tests do not measure; the formulas have to agree for all volumes and kinds of links.", "anchors": ["kerncraft/models/benchmark.py: Benchmark.analyze", "kerncraft/models/ecm.py: ECMData.calculate_cycles"]}
{"id": "C111", "title": "The kernel function does what the loop nest does", "statement": "A call of the generated kernel function does to the scalars of the main program and to the arrays what the loop nest of the kernel does, whatever the static variables of the function held before.", "quantifier": "for all kernels, scalars, arrays and earlier states of the static variables", "why_tests_cant": "The tests compare generated text or only compile it; what a call does depends on all names of scalars and on earlier calls.", "anchors": ["kerncraft/kernel.py: KernelCode.get_kernel_code", "kerncraft/kernel.py: KernelCode._build_kernel_call", "kerncraft/kernel.py: KernelCode._build_kernel_function_declaration"]}
{"id": "C112", "title": "OpenMP directives of generated kernels", "statement": "In parallel code the loop is directly preceded by exactly one directive that shares its iterations, the one of the kernel or a new one, and other pragmas stay as they are; in sequential code exactly the OpenMP directives are left out.", "quantifier": "for all pragmas and all generated code", "why_tests_cant": "The tests use few kernels with pragmas; the code searches texts for patterns, and any text may contain them.", "anchors": ["kerncraft/kernel.py: KernelCode.get_kernel_loop_nest", "kerncraft/kernel.py: KernelCode.get_kernel_code"]}
{"id": "C113", "title": "Runs do not block each other through nested locks", "statement": "Runs of kerncraft that work on the same intermediate files at the same time, with locks on several files held at once, never wait for each other in a circle: as long as one of them has not ended, some run can go on; all of them end; and an exclusive lock is never held beside any other lock on the same file.", "quantifier": "for all numbers of processes, all lists of models each of them evaluates, all interleavings, all results of freshness checks and all crashes", "why_tests_cant": "Tests start one process at a time; a deadlock needs a particular interleaving of several processes.", "anchors": ["kerncraft/kernel.py: KernelCode.lock_intermediate", "kerncraft/kernel.py: KernelCode.release_exclusive_lock", "kerncraft/kernel.py: KernelCode.get_kernel_header", "kerncraft/kernel.py: KernelCode.get_kernel_code", "kerncraft/kernel.py: KernelCode.get_main_code", "kerncraft/kernel.py: KernelCode.assemble_to_object", "kerncraft/kernel.py: KernelCode.compile_kernel", "kerncraft/kernel.py: KernelCode.incore_analysis", "kerncraft/kernel.py: KernelCode.build_executable", "kerncraft/cacheprediction.py: LayerConditionPredictor.__init__", "kerncraft/cacheprediction.py: CacheSimulationPredictor.__init__"]}
{"id": "C114", "title": "Cleaning up does not disturb other runs", "statement": "When a run with --clean-intermediates ends and removes the directory of intermediate files, other runs on the same kernel are not disturbed: no two of them write an intermediate file at the same time, and a run that has been told that a file can be read finds the complete file.", "quantifier": "for all numbers of runs, all interleavings and all times at which directories are removed", "why_tests_cant": "Tests run one process at a time in a directory of their own.", "anchors": ["kerncraft/kernel.py: KernelCode.get_intermediate_location", "kerncraft/kernel.py: KernelCode.lock_intermediate", "kerncraft/kerncraft.py: --clean-intermediates"]}
{"id": "C115", "title": "Results of the cache simulation are per cacheline of work", "statement": "What the cache simulation reports for each level (loads, hits, misses, stores, evicts) is the amount that the simulator has counted in the measured iterations, divided by the number of cachelines that these iterations work on; for each kernel such results exist.", "quantifier": "for all kernels, machines and simulators, whatever they count", "why_tests_cant": "Tests compare the results of a few kernels with long loops and unit stride; short loops and other strides are not among them.", "anchors": ["kerncraft/cacheprediction.py: CacheSimulationPredictor.simulate", "kerncraft/cacheprediction.py: CacheSimulationPredictor.get_loads", "kerncraft/cacheprediction.py: CacheSimulationPredictor.get_misses", "kerncraft/cacheprediction.py: CacheSimulationPredictor.get_evicts", "kerncraft/cacheprediction.py: CacheSimulationPredictor.get_infos", "kerncraft/kernel.py: Kernel.bytes_per_iteration"]}
{"id": "C116", "title": "Machine files of supported versions are accepted", "statement": "A machine file is accepted exactly if its version is not earlier than the first supported version and not later than the version of kerncraft, where development versions come before the release; other files are rejected with the message about supported versions.", "quantifier": "for all versions", "why_tests_cant": "All machine files that come with kerncraft have the same version.", "anchors": ["kerncraft/machinemodel.py: MachineModel.__init__", "kerncraft/machinemodel.py: MIN_SUPPORTED_VERSION", "kerncraft/machinemodel.py: CHANGES_SINCE", "kerncraft/__init__.py: __version__"]}
{"id": "C117", "title": "JSON output contains all results", "statement": "The file of --json has one entry for each analysed combination; its names are distinct, the reader finds the results of each combination under the text of its identifier, and it reads the values that were computed.", "quantifier": "for all stored results with any nesting of dictionaries, lists and values", "why_tests_cant": "Tests look at one JSON file; two identifiers which are printed alike, or two keys which become the same text, need an adversarial choice of values.", "anchors": ["kerncraft/kerncraft.py: jsonify_obj", "kerncraft/kerncraft.py: identifier_from_arguments", "kerncraft/kerncraft.py: run"]}
{"id": "C118", "title": "The generator of machine files keeps its files", "statement": "kerncraft-machine writes the updated description of the basis, or a new one without basis, to the output; the basis and all other files stay as they are, a comparison with the host changes no file, and an output file is not lost if the run fails.", "quantifier": "for all contents of files, paths, orders of arguments, and all results of reading, updating and writing descriptions", "why_tests_cant": "The test suite does not run the generator, which needs likwid; losses of files need runs that fail or particular combinations of arguments.", "anchors": ["kerncraft/machinemodel.py: main", "kerncraft/machinemodel.py: MachineModel.dump", "kerncraft/machinemodel.py: MachineModel.set_path"]}
{"id": "C119", "title": "Comparisons of quantities follow their sizes", "statement": "Quantities of the same unit compare like their sizes in that unit, the six comparisons are consistent with each other, and quantities of different units, texts and other objects are unequal.", "quantifier": "for all values, prefixes and units", "why_tests_cant": "Tests compare some quantities with small prefixes.", "anchors": ["kerncraft/prefixedunit.py: PrefixedUnit.__lt__", "kerncraft/prefixedunit.py: PrefixedUnit.__gt__", "kerncraft/prefixedunit.py: PrefixedUnit.__eq__", "kerncraft/prefixedunit.py: PrefixedUnit.__le__", "kerncraft/prefixedunit.py: PrefixedUnit.__ge__", "kerncraft/prefixedunit.py: PrefixedUnit.__ne__"]}
{"id": "C120", "title": "Intervals are equal if they have the same members", "statement": "Two interval objects compare equal exactly if the same integers are members of both, however they were given.", "quantifier": "for all lists of ranges", "why_tests_cant": "The internal form depends on the order in which overlapping ranges are merged; a test sees a few combinations.", "anchors": ["kerncraft/intervals.py: Intervals.__eq__", "kerncraft/intervals.py: Intervals._enforce_no_overlap"]}
{"id": "C121", "title": "Exactly the constants needed have to be defined", "statement": "The constants that have to be defined on the command line are exactly the symbols, besides loop indices, that array sizes, loop bounds and increments and subscripts need; with values for them all of these are numbers for every value of the loop indices.", "quantifier": "for all kernels and all values of constants and indices", "why_tests_cant": "Tests define all constants of some example kernels.", "anchors": ["kerncraft/kerncraft.py: run", "kerncraft/kernel.py: Kernel.get_loop_stack", "kerncraft/kernel.py: KernelDescription.__init__"]}
{"id": "C122", "title": "Results of OSACA bound the in-core time", "statement": "With OSACA the throughput of a block is the largest occupation of a port or latency of a loop-carried dependency, every port has its own occupation, and the larger of the overlapping and the non-overlapping time of the ECM model is this throughput for a cacheline of work, whichever ports overlap.", "quantifier": "for all analyses with distinct ports and all selections of overlapping and non-overlapping ports", "why_tests_cant": "Tests analyse some kernels with one selection of ports for each machine.", "anchors": ["kerncraft/incore_model.py: osaca_analyse_instrumented_assembly", "kerncraft/models/ecm.py: ECMCPU.analyze"]}
{"id": "C123", "title": "Options are interpreted as documented", "statement": "The block and the pointer increment are one of the documented words or an integer and everything else is rejected; without a unit every model is reported in its own; without an in-core model the first of the machine description is used.", "quantifier": "for all texts of options, lists of models and machine descriptions", "why_tests_cant": "Tests pass a few options; defaults that depend on combinations of models and machines are not compared with the documentation.", "anchors": ["kerncraft/kerncraft.py: int_or_str", "kerncraft/kerncraft.py: create_parser", "kerncraft/kerncraft.py: check_arguments", "kerncraft/models/ecm.py: ECMCPU.__init__", "kerncraft/machinemodel.py: MachineModel.get_incore_model"]}
{"id": "C124", "title": "Readouts of the machine do not depend on earlier calls", "statement": "Comparing the machine description with the current system and updating it give the same answers in any order and any number of calls, and an update changes exactly the requested entries, although the readouts are memoised and the memoised dictionary is changed by comparisons.", "quantifier": "for all machines, sequences of calls, paths, descriptions and options of an update", "why_tests_cant": "Tests call the functions once or in one order; aliasing of memoised dictionaries shows only in particular histories.", "anchors": ["kerncraft/machinemodel.py: get_machine_readouts", "kerncraft/machinemodel.py: get_memory_hierarchy", "kerncraft/machinemodel.py: MachineModel.update", "kerncraft/machinemodel.py: MachineModel.current_system"]}
{"id": "C125", "title": "The current system is recognised", "statement": "The current system is accepted exactly if it agrees with the machine description in all entries read, and exactly the differing entries are printed.", "quantifier": "for all machines, descriptions and earlier calls", "why_tests_cant": "Tests run on one machine whose description is given or not; they cannot vary the hardware.", "anchors": ["kerncraft/machinemodel.py: MachineModel.current_system", "kerncraft/machinemodel.py: get_machine_readouts"]}
{"id": "C126", "title": "Measurements of marked regions are kept apart", "statement": "Metrics and counters are stored for the region in whose tables they are printed, texts about the processor without a region, nothing else is stored, and the regions are exactly those printed.", "quantifier": "for all outputs of likwid-perfctr for one core and all earlier regions", "why_tests_cant": "Tests use few recorded outputs; mixing of regions depends on the order of tables.", "anchors": ["kerncraft/models/standalone_benchmark.py: StandaloneBenchmark.perfctr"]}
{"id": "C127", "title": "Roofline reports state the attainable performance in the requested unit", "statement": "The performance stated by a Roofline report is the greatest at which the cores can execute (or the peak performance is not exceeded) and all levels of the memory hierarchy sustain the transfers, in the requested unit; the level named as bottleneck is the first that is saturated, with its benchmark kernel and arithmetic intensity, and no level is named exactly if none is saturated.", "quantifier": "for all machines, kernels, transfers, throughputs, numbers of cores and units", "why_tests_cant": "Tests look at single reports; that the number printed is attainable and maximal for every machine and unit is a statement about all of them.", "anchors": ["kerncraft/models/roofline.py: RooflineFLOP.report", "kerncraft/models/roofline.py: RooflineASM.report", "kerncraft/models/roofline.py: RooflineFLOP.calculate_cache_access", "kerncraft/models/roofline.py: RooflineASM.analyze"]}
{"id": "C128", "title": "Comments of the kernel are not parsed", "statement": "The text given to the parser is the code without its comments inside a function, and every line of it is a beginning of the same line of the code, so that line numbers in messages refer to the file.", "quantifier": "for all codes", "why_tests_cant": "Comments may contain anything, also beginnings of other comments; tests contain few of them.", "anchors": ["kerncraft/kernel.py: KernelCode._strip_comments", "kerncraft/kernel.py: KernelCode._as_function", "kerncraft/kernel.py: KernelCode.__init__"]}
{"id": "C129", "title": "A kernel has one datatype", "statement": "Declarations are accepted exactly if all have the same supported type; then this is the datatype of the kernel, elements have its size, every variable is known with its last declaration and nothing else is known; descriptions are read alike; and the peak performance is taken for the precision of the datatype.", "quantifier": "for all lists of declarations", "why_tests_cant": "Tests contain few declarations with the types of the examples, and the machine files of the examples give similar results for either precision.", "anchors": ["kerncraft/kernel.py: Kernel.set_variable", "kerncraft/kernel.py: Kernel.check", "kerncraft/kernel.py: KernelCode._process_code", "kerncraft/kernel.py: KernelDescription.__init__", "kerncraft/models/roofline.py: RooflineFLOP.analyze"]}
{"id": "C130", "title": "Descriptions of kernels are read as described", "statement": "A kernel description is accepted exactly if all its values stand for expressions, tuples or None, there is an array, sizes are tuples or None and all arrays have the same supported type; then loops, variables, datatype and accesses of the kernel are those described, every name standing for a positive integer of this name, and every access is recorded once.", "quantifier": "for all descriptions and all sets of names that sympy defines", "why_tests_cant": "Tests read one description with three names of one letter; which names clash with names of sympy is not visible there.", "anchors": ["kerncraft/kernel.py: string_to_sympy", "kerncraft/kernel.py: KernelDescription.__init__", "kerncraft/kernel.py: Kernel.set_variable"]}
{"id": "C131", "title": "cachetile varies the one undefined constant", "statement": "cachetile varies the only constant in the sizes of arrays that is not defined on the command line and rejects redefinitions, other values than integers, and kernels with no or several undefined constants; every run of the model uses the defined constants and the current length only.", "quantifier": "for all variables, definitions, lengths and earlier runs", "why_tests_cant": "There are no tests of cachetile; a test would contain one description.", "anchors": ["kerncraft/cachetile.py: run", "kerncraft/cachetile.py: simulate", "kerncraft/cachetile.py: create_parser", "kerncraft/models/ecm.py: ECMData.__init__"]}
{"id": "C132", "title": "Reports are complete", "statement": "A report shows the results of its model, each in its unit, and no other numbers; everything that is printed about a model is written to the output file given, apart from warnings; a more verbose report contains the less verbose one; a report with numbers in FLOP/s for a kernel with complex variables comes with a warning, and only complex kernels are warned about.", "quantifier": "for all models, options and results", "why_tests_cant": "Tests look for single lines of the output of a few runs; lines that are missing in the file appear on the terminal.", "anchors": ["kerncraft/models/ecm.py: ECMData.report", "kerncraft/models/ecm.py: ECMCPU.report", "kerncraft/models/ecm.py: ECM.report", "kerncraft/models/roofline.py: RooflineFLOP.report", "kerncraft/models/roofline.py: RooflineASM.report", "kerncraft/models/benchmark.py: Benchmark.report", "kerncraft/models/standalone_benchmark.py: StandaloneBenchmark.report", "kerncraft/models/layer_condition.py: LC.report", "kerncraft/kerncraft.py: run"]}
{"id": "C133", "title": "Tables of data transfers show values in their columns", "statement": "In the tables of data transfers of the benchmarks, each value of a cache stands below the name of its metric.", "quantifier": "for all caches and metrics", "why_tests_cant": "Benchmarks need hardware counters, so tests contain no such table; caches with different metrics occur in machine files only.", "anchors": ["kerncraft/models/benchmark.py: Benchmark.report", "kerncraft/models/standalone_benchmark.py: StandaloneBenchmark.report"]}
{"id": "C134", "title": "All references to arrays are analysed", "statement": "In every iteration, the cache simulation loads from and stores to the address of the element of each reference to an array that moves with the loops, once each, and nothing else; the layer conditions are derived from the number of the element of each reference.", "quantifier": "for all declared arrays, references, loops and iterations", "why_tests_cant": "Tests compare the offsets of a few stencils in a few iterations.", "anchors": ["kerncraft/kernel.py: Kernel.compile_global_offsets", "kerncraft/kernel.py: Kernel.compile_sympy_accesses", "kerncraft/kernel.py: Kernel.access_to_sympy"]}
{"id": "C135", "title": "Times of a stand-alone benchmark refer to the repetitions of their region", "statement": "The time per repetition of each region of a stand-alone benchmark is its runtime divided by its number of repetitions, which is given by the argument of the region or by the argument without region: a number, the value of a variable or the number of calls of that region. Without such an argument the program ends.", "quantifier": "for all arguments, regions, counters, variables and runtimes", "why_tests_cant": "No test runs a stand-alone benchmark; the defect needs two regions with different numbers of calls.", "anchors": ["kerncraft/kernel.py: BinaryDescription.__init__", "kerncraft/kernel.py: BinaryDescription.check", "kerncraft/models/standalone_benchmark.py: StandaloneBenchmark.analyze"]}
{"id": "C136", "title": "Benchmarks run only under the conditions of the machine description", "statement": "A benchmark is created exactly if the machine fits the description or warnings are ignored. Results of a run are used exactly if the clock measured differs by at most one percent from the description or warnings are ignored, and they are those in the output. The phenomenological model is made exactly if it is wanted, there is one core and its metrics are defined. Arguments of the command line are optional.", "quantifier": "for all arguments, machine descriptions and outputs of likwid-perfctr", "why_tests_cant": "No test runs a benchmark; outputs at the limit of the allowed clocks, without clock, and undefined metrics do not occur.", "anchors": ["kerncraft/models/benchmark.py: Benchmark.__init__", "kerncraft/models/benchmark.py: Benchmark.perfctr", "kerncraft/models/standalone_benchmark.py: StandaloneBenchmark.__init__", "kerncraft/models/standalone_benchmark.py: StandaloneBenchmark.perfctr"]}
{"id": "C137", "title": "Intermediate files that are reused were made from the current inputs", "statement": "If an intermediate file is found fresh, the machine file, the kernel code and all files of kerncraft have the content from which it was made; files whose inputs are all older are reused and files with a changed input are not.", "quantifier": "for all histories of the files, times of reading, writing and checking, and time zones", "why_tests_cant": "Tests do not change inputs while kerncraft runs, and run in one time zone.", "anchors": ["kerncraft/kernel.py: KernelCode._check_freshness", "kerncraft/machinemodel.py: MachineModel.get_last_modified_datetime", "kerncraft/kerncraft.py: get_last_modified_datetime"]}
{"id": "C138", "title": "Larger caches never lead to a worse prediction", "statement": "If a kernel is predicted with layer conditions on two machines that differ only in that no cache of the second is smaller, the ECM model predicts at most as many cycles and the Roofline model at least as high a performance on the second.", "quantifier": "for all kernels to which layer conditions apply, all machine files with values in their ranges and all sizes of caches", "why_tests_cant": "Tests predict a few kernels on one machine and never compare predictions for different caches.", "anchors": ["kerncraft/cacheprediction.py: LayerConditionPredictor", "kerncraft/models/ecm.py: ECMData.calculate_cycles, ECM.analyze", "kerncraft/models/roofline.py: Roofline.calculate_cache_access", "kerncraft/machinemodel.py: MachineModel.get_bandwidth"]}
{"id": "C139", "title": "Predictions do not depend on the names of arrays", "statement": "If the arrays of a kernel get other distinct names, are declared in another order and their references are met in another order, the predicted cache traffic and the predictions of the ECM and Roofline models stay the same.", "quantifier": "for all kernels, all injective renamings of their arrays, all machine files and all caches", "why_tests_cant": "Tests use each kernel with one set of names; a wrong dependence on names shows up as a plausible number.", "anchors": ["kerncraft/cacheprediction.py: LayerConditionPredictor.__init__", "kerncraft/kernel.py: Kernel.compile_global_offsets, access_to_sympy", "kerncraft/models/ecm.py: ECM.analyze", "kerncraft/models/roofline.py: Roofline.calculate_cache_access"]}
{"id": "C140", "title": "A larger problem never needs less traffic", "statement": "If the constants of a kernel change so that no extent of an array shrinks, the layer conditions predict at least as many loads and stores for every level of the hierarchy; where bandwidths do not fall with the traffic, the ECM model predicts at least as many cycles per cacheline.", "quantifier": "for all kernels whose references fit into their arrays, all extents and all caches", "why_tests_cant": "Tests evaluate layer conditions for single sizes and never compare two sizes.", "anchors": ["kerncraft/cacheprediction.py: LayerConditionPredictor.build_symbolic_LCs, desymbolize, sympy_expr_abs_distance_key", "kerncraft/kernel.py: Kernel.array_sizes"]}
{"id": "C141", "title": "Accesses predicted as misses really miss in an LRU cache", "statement": "An access that trails another one of the same array by a distance whose requirement exceeds the cache misses in a fully associative LRU cache of that size, and so does the first access of each array.", "quantifier": "for all stencils, all cache sizes, all orders of accesses within the iterations and all iterations after the first ones", "why_tests_cant": "Tests compare layer conditions and simulation for few kernels and only in sum over all accesses.", "anchors": ["kerncraft/cacheprediction.py: LayerConditionPredictor.build_symbolic_LCs"]}
{"id": "C142", "title": "The stand-alone benchmark gives the same results as the integrated one for the same measurements", "statement": "If all runs of an instrumented program measure the same counters, runtimes and loops as those of the generated benchmark, the phenomenological ECM model, the cycles, the performance and the bandwidth of the stand-alone benchmark are those of the integrated one.", "quantifier": "for all machine files, all events, counters and registers, all loops and all measured values", "why_tests_cant": "The results need hardware counters, and the two benchmarks are separate copies of the same code that no test compares.", "anchors": ["kerncraft/models/standalone_benchmark.py: StandaloneBenchmark.analyze", "kerncraft/models/benchmark.py: Benchmark.analyze", "kerncraft/machinemodel.py: MachineModel.build_minimal_runs"]}
{"id": "C143", "title": "Results of the stand-alone benchmark are stored under what was measured", "statement": "After a run of the stand-alone benchmark its results are found under the program, the machine and the constants that were the arguments of the last measurement, and no result of another measurement is lost.", "quantifier": "for all programs, definitions, adjustments of variables, measured runtimes and contents of the file of results", "why_tests_cant": "Constants change while variables are adjusted, depending on measured runtimes; no test measures twice with one file.", "anchors": ["kerncraft/standalone_pheno.py: run", "kerncraft/models/standalone_benchmark.py: StandaloneBenchmark.perfctr, adjust_variables", "kerncraft/kernel.py: Kernel.set_constant, clear_state"]}
{"id": "C144", "title": "The ECM model respects the limits of the Roofline model and reaches that of the memory at saturation", "statement": "For any number of cores the ECM model predicts at most the performance that the Roofline model gives as limit of the core and as limit of the memory; once the ECM model regards the memory interface as saturated, its prediction is the limit of the memory.", "quantifier": "for all kernels, machine files, traffic of all levels, in-core results and numbers of cores", "why_tests_cant": "Tests check each model alone for few kernels and numbers of cores; the two models share neither code for the conversion nor the choice of bandwidths.", "anchors": ["kerncraft/models/ecm.py: ECMCPU.analyze, ECMData.calculate_cycles, ECM.analyze", "kerncraft/models/roofline.py: Roofline.calculate_cache_access, RooflineASM.analyze", "kerncraft/machinemodel.py: MachineModel.get_bandwidth"]}
{"id": "C145", "title": "A core is given its share of each cache, and more cores never leave it a larger one", "statement": "The size used for a cache is that of the whole cache divided by the number of cores that use it at the same time, so that the shares of these cores fit into the cache and less than one set per core is left over; with more cores no cache of a core gets larger, no predicted transfer of a core rarer and no predicted time of a core shorter.", "quantifier": "for all machine files, all numbers of cores and all kernels to which layer conditions apply", "why_tests_cant": "Tests analyse kernels with one core or with one fixed number and machines whose shared caches cover a NUMA domain.", "anchors": ["kerncraft/machinemodel.py: MachineModel.get_cachesim", "kerncraft/cacheprediction.py: LayerConditionPredictor.build_symbolic_LCs", "kerncraft/models/ecm.py: ECMData.calculate_cycles, ECM.analyze"]}
{"id": "C146", "title": "The number of cores of a run reaches every model, whatever was run before", "statement": "In a run with a number of cores, each model that predicts traffic works with the caches for this number, and the layer conditions shown are those for this number with the size of the cache in their heading, whichever other models are part of the run, in any order, and whatever was run before with other numbers of cores.", "quantifier": "for all machine files, all histories of runs with any numbers of cores, predictors, constants and lists of models", "why_tests_cant": "Tests run one model at a time in a fresh directory; the results depend on the order of models and on files left by earlier runs.", "anchors": ["kerncraft/kerncraft.py: run", "kerncraft/models/layer_condition.py: LC.analyze, LC.report", "kerncraft/cacheprediction.py: LayerConditionPredictor.__init__, CacheSimulationPredictor.__init__", "kerncraft/machinemodel.py: MachineModel.get_cachesim"]}
{"id": "C147", "title": "Models work with the settings they are given", "statement": "A model created with arguments of the command line works with the number of cores, predictor, block, pointer increment and verbosity found there, whatever its keyword arguments are; a model created without arguments works with its keyword arguments. Settings that mean nothing are rejected.", "quantifier": "for all models, arguments and keyword arguments", "why_tests_cant": "Tests create models with arguments of the command line only and with few values.", "anchors": ["kerncraft/models/ecm.py: ECM.__init__, ECMData.__init__, ECMCPU.__init__", "kerncraft/models/roofline.py: RooflineFLOP.__init__, RooflineASM.__init__"]}
{"id": "C148", "title": "IACA is installed and found", "statement": "With an accepted licence, iaca_get installs all tools for this system to a location that did not exist, and find_iaca then returns that location. If there is an installation, only --force installs again. An installation that fails is not found, and it can be repeated. Nothing else on the disk changes.", "quantifier": "for all states of the two locations, arguments and failing steps", "why_tests_cant": "Tests cannot download IACA; failures halfway and forced installations over others are not tried.", "anchors": ["kerncraft/iaca_get.py: find_iaca", "kerncraft/iaca_get.py: main"]}
{"id": "C149", "title": "In the usual order, layer conditions predict exactly the misses of an LRU cache", "statement": "For a loop over one-dimensional arrays that accesses one array after the other, each with ascending offsets, the number of misses per iteration in a fully associative LRU cache with lines of one element is the number of misses of the option selected by the layer conditions, once the loop has run as many iterations as the largest distance, unless the option for full caching is selected.", "quantifier": "for all numbers of arrays, offsets, element sizes, sizes of caches, iterations and orders of arrays", "why_tests_cant": "Tests compare layer conditions with few stored numbers, not with a cache, and for few kernels and sizes only.", "anchors": ["kerncraft/cacheprediction.py: LayerConditionPredictor.build_symbolic_LCs"]}
{"id": "C150", "title": "Names in generated code stand for what they stand for in the kernel", "statement": "For every kernel whose variables and constants have different names, all names used in the generated main program and in the generated kernel function are declared, none is declared twice in a scope, and each stands for the variable, constant, counter, argument or function that is meant. Every variable of the kernel is passed to dummy exactly once, arrays as they are and scalars by their address, so that no computation can be removed.", "quantifier": "for all variables, constants, extents, loop nests, bodies and swaps", "why_tests_cant": "Tests use kernels with short names of variables and compile few of them; wrong meanings can compile without errors.", "anchors": ["kerncraft/kernel.py: KernelCode.get_main_code, KernelCode.get_kernel_code, KernelCode._build_dummy_calls", "kerncraft/headers/kerncraft.h: swap"]}
{"id": "C151", "title": "Several threads leave what one would", "statement": "After any number of calls of the generated parallel kernel function by several threads, the scalars of the main program and the arrays are what the loop nest leaves when it is executed as often by one thread.", "quantifier": "for all kernels, numbers of threads and calls, distributions of iterations to threads, and all interleavings of their reads and writes", "why_tests_cant": "Tests do not run the parallel code, and races between threads show up in few of the possible interleavings.", "anchors": ["kerncraft/kernel.py: KernelCode.get_kernel_code", "kerncraft/kernel.py: KernelCode.get_kernel_loop_nest", "kerncraft/kernel.py: KernelCode.get_main_code"]}
{"id": "C152", "title": "Parallel runs read initialised elements only", "statement": "The parallel region of the generated main program gives all array elements that the kernel accesses their initial value before any thread reads one of them in the kernel function: what is in the arrays before has no influence on scalars and accessed elements, and elements not accessed are left as they are.", "quantifier": "for all kernels (also with races), numbers of threads and calls, distributions of the iterations of initialisation and kernel loops, contents of memory, and all interleavings of reads and writes", "why_tests_cant": "Tests do not run the parallel code; allocated memory is often zero, and threads that read early do so in few interleavings only.", "anchors": ["kerncraft/kernel.py: KernelCode._build_array_initializations", "kerncraft/kernel.py: KernelCode.get_main_code", "kerncraft/kernel.py: KernelCode.get_kernel_code"]}
{"id": "C153", "title": "Generated programs give the same results whenever they are generated and run", "statement": "At the end of a generated benchmark program, scalars and all array elements that the kernel accesses are what the loop nest leaves when it is executed twice and then as often as requested, starting with initial values that are the same whenever the program is generated.", "quantifier": "for all kernels, generators of random numbers and their state, numbers of threads and repetitions, distributions of iterations, contents of memory, and interleavings of reads and writes", "why_tests_cant": "Tests do not run generated programs; differences need another state of the generator, other contents of memory or other interleavings.", "anchors": ["kerncraft/kernel.py: KernelCode._build_scalar_initializations", "kerncraft/kernel.py: KernelCode._build_array_initializations", "kerncraft/kernel.py: KernelCode.get_main_code"]}
{"id": "C154", "title": "Files of results are merged completely and not lost", "statement": "picklemerge leaves in the destination every value of the destination and the sources, later files taking precedence, and nothing else; no other file changes, rejected runs change nothing, and whenever the program is stopped the destination can be read as before or as after the merge.", "quantifier": "for all versions of Python, contents of files, numbers and orders of sources, and moments at which the program is stopped", "why_tests_cant": "The program has no test; losses need particular contents, versions or interruptions.", "anchors": ["kerncraft/picklemerge.py: main", "kerncraft/picklemerge.py: update"]}
{"id": "C155", "title": "Benchmarks run on the requested number of physical cores", "statement": "likwid-perfctr is called such that the program runs with one thread on each of as many physical cores as were requested, with the requested events and regions, whatever OMP_NUM_THREADS is; the environment is as before afterwards.", "quantifier": "for all sockets, numbers of cores, groups and events, programs with arguments, environments and outcomes of the run", "why_tests_cant": "Tests do not run likwid-perfctr; the number of threads depends on the environment and the cores on the machine.", "anchors": ["kerncraft/models/benchmark.py: perfctr", "kerncraft/models/standalone_benchmark.py: StandaloneBenchmark.perfctr", "kerncraft/models/benchmark.py: fix_env_variable"]}
{"id": "C156", "title": "Tables of a kernel list everything below its heading", "statement": "The tables of loops, accesses, operations, variables and constants have one line for each of them, in order, with all values below their headings, and the operations are followed by their sum. All lines are kept when a table is indented behind its title, and a later prefix of one character is repeated.", "quantifier": "for all names, bounds, offsets, types, counts, prefixes and texts", "why_tests_cant": "Tests only look for some of the printed numbers; shifted columns need long names or bounds.", "anchors": ["kerncraft/kernel.py: prefix_indent", "kerncraft/kernel.py: Kernel.print_kernel_info", "kerncraft/kernel.py: Kernel.print_variables_info", "kerncraft/kernel.py: Kernel.print_constants_info"]}
{"id": "C157", "title": "The stand-alone benchmark measures the requested regions", "statement": "Without --marker the whole program is measured, with --marker all marked regions and with --marker and names exactly the named ones, each once, with its own runtime and with its own loops, repetitions and operations or else those given for no region. If a region is not found or something is not given, the program ends.", "quantifier": "for all names, regions in the output and arguments", "why_tests_cant": "No test runs a stand-alone benchmark; universal over names and regions found.", "anchors": ["kerncraft/standalone_pheno.py: ParseMarkers", "kerncraft/kernel.py: BinaryDescription.__init__", "kerncraft/kernel.py: BinaryDescription.check", "kerncraft/models/standalone_benchmark.py: StandaloneBenchmark.analyze"]}
{"id": "C158", "title": "Renewing a machine description keeps what was filled in", "statement": "If the generator of machine descriptions gets a description as its basis (-m), the new description has all information that was filled in, in the entries and in the levels of the memory hierarchy; what can be read from the machine is renewed as far as the options ask for it, all else is unchanged.", "quantifier": "for all options, machines and descriptions", "why_tests_cant": "Tests do not run the generator; universal over what is read and over what is filled in.", "anchors": ["kerncraft/machinemodel.py: MachineModel.update", "kerncraft/machinemodel.py: get_machine_readouts", "kerncraft/machinemodel.py: get_memory_hierarchy", "kerncraft/machinemodel.py: main"]}
{"id": "C159", "title": "The whole code of a kernel is analysed", "statement": "Code of a kernel that is accepted is analysed as a whole: the statements given to the analysis are exactly those of the code, and all valid statements are accepted.", "quantifier": "for all sequences of tokens, all nested statements and blocks, and all grammars of statements and declarations", "why_tests_cant": "Universal over kernels; tests have kernels with matching braces only.", "anchors": ["kerncraft/kernel.py: KernelCode.__init__", "kerncraft/kernel.py: KernelCode._as_function"]}
{"id": "C160", "title": "The table of data transfers has the right bytes below each heading", "statement": "The table of data transfers of the ECM report has one line for each pair of adjacent memory levels, in their order, with the bytes loaded and stored between them per cache line of work, to the nearest byte, and the columns of every line are below those of the heading.", "quantifier": "for all memory hierarchies with any names, all sizes of cache lines and all numbers of loads and stores", "why_tests_cant": "Universal over hierarchies and numbers; the report of a few kernels has only short names and small numbers.", "anchors": ["kerncraft/models/ecm.py: ECMData.report_data_transfers"]}
{"id": "C161", "title": "Marked assembly is read in the syntax of the assembly", "statement": "x86 assembly is marked in its own syntax (Intel or AT&T), around the block chosen in this syntax, and the in-core analysis reads the marked code in the same syntax.", "quantifier": "for all assembly codes, all libraries that read them line by line with any default syntax, all choices of blocks and all versions of the library", "why_tests_cant": "Universal over codes and libraries; tests use compilers that write the default syntax.", "anchors": ["kerncraft/incore_model.py: parse_asm", "kerncraft/incore_model.py: detect_x86_syntax", "kerncraft/incore_model.py: asm_instrumentation", "kerncraft/incore_model.py: osaca_analyse_instrumented_assembly", "kerncraft/incore_model.py: llvm_mca_analyse_instrumented_assembly"]}
{"id": "C162", "title": "Global settings are changed for a block only", "statement": "The context managers that change the recursion limit and the order of printed keys restore both settings whether or not the block raises, however they are nested; within the block the new order is used, and what runs without a higher recursion limit still runs with it.", "quantifier": "for all programs of calls, errors, handlers and nested blocks, all depths and all settings before", "why_tests_cant": "Universal over programs and places where errors occur; tests run few blocks, with the usual limit.", "anchors": ["kerncraft/kernel.py: set_recursionlimit", "kerncraft/models/benchmark.py: pprint_nosort"]}
{"id": "C163", "title": "All keys can be ordered for printing", "statement": "The order of keys for printing is a strict total order of objects of any types: of two different objects exactly one comes first, it is transitive, and objects of a type stay together.", "quantifier": "for all objects, with any texts of types and any identities", "why_tests_cant": "Universal over objects; tests print few dictionaries and do not see the order of all pairs.", "anchors": ["kerncraft/models/benchmark.py: sympy_safe_key"]}
{"id": "C164", "title": "The plotted roofline samples its whole range", "statement": "The line of the roofline plot has a point at the lower end of the axis and then one every step, all of them below the upper end, and every point is on the roofline: the smaller of peak performance and bandwidth times intensity.", "quantifier": "for all ends of the range, all positive steps, all bandwidths and peaks", "why_tests_cant": "Universal over ranges and steps; the plot is looked at for one range with small steps, where one step more or less is not seen.", "anchors": ["kerncraft/roofline-plot.py: frange"]}
{"id": "C165", "title": "Sanitized names are names", "statement": "Whatever the text, the sanitized name is a Python name; characters that may stand where they are stay there and every other one becomes an underscore, so that names stay as they are and sanitizing again changes nothing.", "quantifier": "for all texts", "why_tests_cant": "Universal over texts; tests use few names.", "anchors": ["kerncraft/machinemodel.py: sanitize_symbolname"]}
{"id": "C166", "title": "Quantities are written with the largest prefix that fits", "statement": "The text of a quantity uses the largest prefix for which rounding to two decimals errs by at most one percent and leaves at least 0.9, and no prefix if none fits. A reduced quantity uses the largest prefix for which two decimals are exact.", "quantifier": "for all values, prefixes and units", "why_tests_cant": "Universal over values; the choice depends on the rounding of every candidate, and tests use a few positive quantities.", "anchors": ["kerncraft/prefixedunit.py: PrefixedUnit.good_prefix", "kerncraft/prefixedunit.py: PrefixedUnit.reduced", "kerncraft/prefixedunit.py: PrefixedUnit.__str__"]}
