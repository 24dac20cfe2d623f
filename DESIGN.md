# Formal model of kerncraft: design

The code under study is `/repo/kerncraft` (Python). The properties are in `properties.jsonl`.
This file says, for every property, what is modelled, how it is proved, and what stays outside.

## Layout of the Lean project

* `lean/Verif/Model/<Area>.lean` holds the executable model.
  Each definition cites the file and the lines it mirrors, and names its simplifications.
* `lean/Verif/Lemmas/<Area>.lean` holds helper lemmas (when there are many).
* `lean/Verif/Props/<Area>.lean` holds the small independent specification, the property theorems
  and a concrete `example` beside each theorem.

Style: small total functions over `List`, `Nat`, `Int`, `ℚ`, `Option`.
A Python exception is a value (`Except String _` or `Option`).
Mutable Python state is threaded explicitly as a state.
Concurrency and crashes are transition relations over a global state; theorems use induction over
all reachable states.

## Trusted base

* Lean's kernel (4.33.0) and the Mathlib lemmas used.
* Axioms: only `propext`, `Classical.choice` and `Quot.sound` (a theorem may use fewer; `AXIOMS.md` lists them for each theorem).
  No axioms are added. No `sorry`, `admit`, `native_decide` or `bv_decide`.
* The reading of the Python source. The model is written by hand from the text; the citations in the
  comments let a reader compare. Nothing of `/repo` is executed.

General simplifications (repeated at the definitions they affect):

* Python floats are modelled by rationals `ℚ`. Rounding errors of binary floating point are not modelled.
  `inf` and `nan` are modelled explicitly where the code depends on them.
* Sympy expressions are modelled by their integer value under an assignment of the constants, or by a
  small expression type with an evaluation function. Sympy's simplifier is not modelled.
* `pycparser` is not modelled. Functions on its AST are modelled on an inductive type with the node
  kinds that the code distinguishes.
* Python dictionaries are association lists with unique keys, in insertion order.
* External programs (compiler, likwid, OSACA, LLVM-MCA, IACA, pycachesim) are not modelled. Where a
  property only needs their output, that output is an arbitrary input of the model.

## Plan per property

* C01-C03 `Intervals`: the constructor as filter, stable insertion sort and the index-based merge loop
  (with its index increment after deletion). Membership and length are proved against sets of integers.
  C02 is false for three nested ranges: negation with a witness, and partial theorems.
* C04 aliasing: a heap of mutable inner lists, `&` shares the cells of its operands. Negation with witness,
  and the partial statement for operands whose ranges need no enlarging.
* C05-C06 iteration arithmetic: mixed radix recursion. Round trips and order by induction on the nest. C06 is
  false for increments above 1 (witness); partial for increment 1 and for the trip count.
* C07 iteration length: ceiling product against a counting specification of C loops (list of executed index tuples).
* C08-C09 flattening: positional evaluation, injectivity by induction on dimensions. The AST rewriting functions
  are modelled on an expression type and evaluated.
* C10-C11 layout: `& ~` on integers, running base; disjointness for every cacheline size, alignment for powers of
  two; sorting by name makes it order independent.
* C12 memo table: the kernel is a state machine with constants and an LRU memo. Negation by a history; partial theorem
  for histories in which constants are only set between `clear_state` and the first query (what the CLI does).
* C13 constants: fold over the call sequence.
* C14-C16 locks: processes as program counters over an advisory lock with shared/exclusive mode, file with time stamp and
  completeness flag. Invariants by induction over all interleavings. Crash steps give the negation C16.
* C17 in-core cache: state machine over the on-disk cache. Negation by a history; partial theorem.
* C18-C21 layer conditions: distances as (key, value) pairs, `oo` as top element. Counting and monotonicity by induction.
  C20: LRU cache as a list, stack-distance argument, window of touched elements; with lines of several elements the number of lines of the window,
  and the number of misses in a cacheline of iterations.
* C22-C23 machine model: selection fold with `inf`/`nan` semantics of the comparisons; simulator memo as state machine
  (negation for changing core counts, partial for one core count).
* C24-C27 models: folds over the hierarchy, recurrence over core counts, conversion formulas, bottleneck fold.
* C28-C30 event scheduling: greedy rounds with fuel, fuel bound proved sufficient; non-termination stated on the round
  function. Register descriptions via tokenisers on characters.
* C31 event strings: split and join on characters.
* C32 environment: association from names to values, block as arbitrary state transformer with normal or exceptional exit.
* C33 ranges: rational positions and round-half-even.
  Logarithmic spacing uses real powers and is not modelled.
* C34 define product: association list building plus cartesian product. Negation for repeated names, partial otherwise.
* C35 merge: nested dictionaries as an inductive type.
* C36 tile search: two loops with measures; runtime function arbitrary.
* C37-C39 in-core helpers: selection fold, marker insertion on lists of lines, increment cache as list of lines.
* C40 `clean_code`: list of characters; index arithmetic of the loop including `find` returning -1.
* C41 prefixed units: rational values; prefix table as in the code (negation for T, P, E).
* C42-C43 result store: file system state with temp file and rename; crash points as prefixes; interleavings of
  load and store (negation of C43).
* C44 identifiers: nested values; injectivity modulo list/tuple.
* C45-C46, C55 kernel parsing: expression, loop header and section automaton on an AST type.
* C47, C49 ordering and rounding helpers: direct proofs.
* C48 warm-up: loop with measure, alignment arithmetic.
* C50-C51 selection functions and path mapping (negation for `/` stripping).
* C52 adjustment: step function bounds and a termination measure, with a witness for non-termination if any.
* C53 code generation: parameter lists.
* C54 machine description cache: process-wide memo state machine (negation plus partial).
* C56-C57 in-core analysis numbers.
* C58 distances: telescoping sums.

* C59 storing under identifiers: hashability of nested values, injectivity of the conversion.
* C60 format of `-D` values: the regular expression as a reader on characters, against a grammar of documented values.
* C61 minimal number of runs: arbitrary valid assignments as competitors; witness of a suboptimal plan.
* C62 quality of the blocking length: same search as C36, runtimes compared.
* C63-C64 movement of addresses and independence of set order: x86 semantics of the recognised instructions
  (`Spec/X86`), all enumerations of the candidate set.
* C65 exact removal of comments: independent left-to-right comment reader (`Spec/Comments`).
* C66-C67 references and index types: C semantics of subscripts and nests (`Spec/CKernel`).
* C68 shortened paths: a directory walk (`Spec/Walk`) says what a path denotes.
* C69-C70 stand-alone loops: heap of shared loop descriptions, C loop semantics.
* C71-C72 constants of the generated program: position in `argv`, `atoi` (`Spec/CLib`).
* C73-C75 measurements: repetition loop, iterations, matching of counters to symbols.
* C76 removal of macros and pragmas: logical lines of C (a backslash at the end of a line) as specification.
* C77-C80 transfer times and Roofline limits: amounts of data per cache line or iteration over rational numbers,
  against the time of moving those bytes one after the other or in both directions at once.
* C81 text of prefixed units: printing and reading on characters.
* C82 choice of the innermost block: number of packed instructions and vector registers per block.
* C83 memory of generated programs: C integer arithmetic in which overflow is an error (`Spec/CInt`).
* C84 order of reuse distances: polynomials, compared by their values for large sizes (`Spec/Poly`).
* C85-C86 delinearisation and applicability of layer conditions: sums of products of symbols and their values
  (`Spec/Terms`), positions in C (`Spec/Arrays`).
* C87 reuse of cache predictions: histories of edits and predictions with modification times.
* C88-C90 update of benchmarks: working sets against the caches that groups of cores use (`Spec/Groups`), stored entries,
  and measuring with arbitrary values and interruptions.
* C91 canonical relations: values of both sides for all values of the symbols; sympy's own rewriting is a parameter that keeps the truth of conditions, what else it finds (common factor, sign) is arbitrary.
* C92 counters in metrics: metrics as counters and other text between separators (`Spec/Counters`), without regular expressions.
* C93 increments in AArch64 code: executions of the loop line by line (`Spec/A64`: `Exec`, `Loop`, `AddressMoves`), independent of the passes.
* C94 replacement of placeholders: substitution as a relation between trees (`Spec/Subst`: `Is`), without order of traversal.
* C95 initialisation of arrays: elements read and written in executions of the two loop nests (`Spec/CKernel`, `Spec/Elements`).
* C96, C97 readout of machines: the relevant lines of `likwid-topology`, with any other text between them (`Spec/Likwid`).
* C98, C99 external analysers: tables, totals and timelines as relations between data and text (`Spec/Tables`).
* C100, C101 `likwid-bench`: lists and outputs as relations between data and text, places of threads (`Spec/BenchRun`).
* C102, C103, C104 arguments of the stand-alone benchmark: texts built from regions, numbers and names (`Spec/PhenoArgs`).
* C105 measured region: the main program as a small imperative program; its trace of calls, for every number of repetitions.
* C106 output of `likwid-perfctr`: texts built from metric, event and information lines (`Spec/PerfOut`).
* C107, C108 marked assembly: text of the marked file and what is read from it; answers of the user as a list of texts (`Spec/Answers`).
* C109, C110 results of the benchmark: numbers against the work that was done; transfer times against those of C77.
* C111 the kernel function against the loop nest it was made of; C112 OpenMP directives, as texts.
* C113 nested locks on several intermediate files, over all interleavings of any number of runs.
* C114 removal of intermediate files with their lock files, beside other runs.
* C115 results of the cache simulation per cacheline of work, for any simulator.
* C116 versions of machine files that are accepted.
* C117 results in JSON; C118 files of the generator of machine descriptions; C119 comparisons of quantities; C120 equality of intervals.
* C121 constants that have to be defined; C122 results of OSACA; C123 interpretation of options.
* C124, C125 memoised readouts of the machine and comparison with the current system; C126 measurements of marked regions.
* C127 reports of the Roofline models; C128 comments of the kernel; C129 datatype of the kernel.
* C130 kernels from descriptions; C131 constants of cachetile.
* C132 reports: what is printed, in which unit and to which stream; C133 columns of the tables of data transfers; C134 every reference to an array is analysed (the
  converse of C10); C135 repetitions of the regions of a stand-alone benchmark; C136 conditions
  under which benchmarks run; C137 freshness of intermediate files over the histories of their inputs; C138 the
  predictions of both models as a function of the sizes of the caches; C139 independence of the names of arrays;
  C140 traffic as a function of the extents of arrays; C141 predicted misses in an LRU cache (the converse of C20);
  C142 results of the stand-alone benchmark against those of the integrated one; C143 the key of its results;
  C144 predictions of the ECM model against the limits of the Roofline model;
  C145 shares of the caches for several cores; C146 the number of cores in runs with several models and histories of runs;
  C147 the settings with which models are created; C148 installation of IACA;
  C149 exact numbers of misses in an LRU cache for the usual order of accesses (C20 and C141 are about any order);
  C150 scopes of names in generated code, C151 interleavings of threads in the parallel kernel function, C152 initialisation of arrays by several threads, C153 the
  generated program as a whole; C154 the program `picklemerge`; C155 the command line of likwid-perfctr; C156 the tables of a kernel; C157 the
  regions measured by the stand-alone benchmark; C158 renewed machine descriptions;
  C159 code that is left out, C160 the table of data transfers, C161 the syntax of assembly,
  C162 global settings, C163 the order of printed keys, C164 the plotted roofline,
  C165 sanitized names. C166 the prefix of a quantity.

## What is modelled, by module

| Model file | Source | Functions |
|---|---|---|
| `Intervals` | `intervals.py` | constructor, `_enforce_no_overlap`, `&`, `len`, `in`, `==`; aliasing of inner lists |
| `Iteration` | `kernel.py` | `global_iterator_to_indices`, `indices_to_global_iterator`, `max_global_iteration`, `iteration_length` |
| `Layout` | `kernel.py` | `access_to_sympy`, `transform_multidim_to_1d_ref/_decl`, `array_sizes`, `compile_global_offsets` |
| `Constants` | `kernel.py` | `set_constant`, `subs_consts` with its memo, `clear_state` |
| `Locking` | `kernel.py` | `lock_intermediate` (all interleavings, crashes) |
| `IncoreCache` | `incore_model.py`, `kernel.py` | reuse of marked assembly and analysis results |
| `LayerCond` | `cacheprediction.py` | `LayerConditionPredictor` after its applicability checks, statistics |
| `DistKey` | `cacheprediction.py` | `sympy_expr_abs_distance_key` on polynomials with integer coefficients |
| `Split` | `cacheprediction.py` | `split_sympy_access_in_dim_offset` with sympy's `expand`, `coeff` and comparison on sums of terms |
| `Applicable` | `cacheprediction.py` | the checks at the beginning of `build_symbolic_LCs` |
| `Relational` | `cacheprediction.py` | `canonical_relational` after line 194 (sympy's own rewriting is not modelled) |
| `PredCache` | `cacheprediction.py`, `kernel.py` | stored predictions, `_check_freshness` |
| `Sim` | `cacheprediction.py` | `uneven_tuple_cmp`, warm-up and measured range of `CacheSimulationPredictor` |
| `Machine` | `machinemodel.py` | `get_bandwidth`, `get_cachesim`, `get_compiler`, `parse_perfctr_event`, file cache, `update` |
| `PerfMetric` | `machinemodel.py` | `parse_perfmetric` up to line 598 (not: `parse_expr` of sympy) |
| `A64` | `incore_model.py` | `AArch64.get_pointer_increment` up to the increment cache; registers are integers without overflow, 32 and 64 bit registers are the same, `lsl #0` counts as no shift (not: OSACA's parser and semantics) |
| `Replace` | `pycparser_utils.py`, `kernel.py` | `replace_id` and the template and replacements of `get_main_code`; statements without placeholders are opaque, the parts are arguments |
| `ArrayInit` | `kernel.py` | `find_node_type`, `get_kernel_loop_nest`, `_find_inner_most_loop`, `_build_array_initializations`; without strings of pragmas and the transformation to one subscript |
| `Topology` | `machinemodel.py` | `get_match_or_break`, numbers of `get_machine_readouts`, `get_memory_hierarchy`; without names of processors, clock, huge pages and texts of placeholders |
| `Analyzer` | `incore_model.py` | reading of outputs in `llvm_mca_analyse_instrumented_assembly` and `iaca_analyse_instrumented_binary`; without the calls of the programs |
| `BenchRun` | `machinemodel.py` | `measure_bw` (command, reading of the output), `find_fastest_bench_kernel`, `get_available_bench_kernels` |
| `Regex` | `standalone_pheno.py` | matching of regular expressions with backtracking: the matches in the order in which `re.match` tries them |
| `Pheno` | `standalone_pheno.py` | `AppendStringRange`, `AppendLoopRange`, `AppendRepetitionDefines`, `AppendFlops`; letters and digits are those of ASCII; the dictionary that several regions share is one value for each of them |
| `MainRun` | `kernel.py` | `CODE_TEMPLATE` as a small imperative program with its trace (one thread), text of the number of repetitions, `atoi` with 32 bits (not: exponents from 10^16 on) |
| `PerfOut` | `models/benchmark.py` | the loop of `perfctr` over the output lines (not: the command, the key for the raw output; letters and digits are those of ASCII) |
| `Marking` | `incore_model.py`, `kernel.py` | `asm_instrumentation`, `userselect_block`, `userselect_increment`, search for the increment in `incore_analysis` (not: OSACA's parser, loops and markers, which are parameters) |
| `PhenoEcm` | `models/benchmark.py`, `kernel.py` | results of `Benchmark.analyze`, `bytes_per_iteration` (numbers without units) |
| `KernelFn` | `kernel.py` | `_build_kernel_function_declaration`, `_build_kernel_call`, body of `get_kernel_code` (the loop nest is a function of scalars and arrays; one thread) |
| `Pragmas` | `kernel.py` | `get_kernel_loop_nest`, removal of directives in `get_kernel_code` (pragmas and code are texts) |
| `LockOrder` | `kernel.py`, `cacheprediction.py`, `models/benchmark.py` | order of lock operations in `get_kernel_header`, `get_kernel_code`, `get_main_code`, `assemble_to_object`, `compile_kernel`, `incore_analysis`, `build_executable`, the predictors and the benchmark; what is done between them is left out |
| `CleanUp` | `kernel.py` | removal at exit in `get_intermediate_location`, `lock_intermediate` with lock files that can be replaced (one file, no crashes, fresh if present) |
| `SimResult` | `cacheprediction.py` | `simulate` (the factor), `get_loads` to `get_evicts` (the counts of the simulator are a parameter) |
| `Version` | `machinemodel.py` | the check of the version in `__init__`, `MIN_SUPPORTED_VERSION`, `CHANGES_SINCE`, `LooseVersion` of `distutils` |
| `Json` | `kerncraft.py` | `jsonify_obj`, the part of `run` for `--json`, `repr` of identifiers; `json.dump` and the reader of JSON on values |
| `Generate` | `machinemodel.py` | `main`, the opening of files by `argparse`, `dump` and `set_path`; reading, updating and writing descriptions are parameters |
| `UnitCompare` | `prefixedunit.py` | the six comparisons |
| `Required` | `kerncraft.py` | the search for constants that have to be defined; expressions are not simplified |
| `Osaca` | `incore_model.py` | the results taken from OSACA, whose analysis is a parameter |
| `Options` | `kerncraft.py`, `models/ecm.py`, `machinemodel.py` | `int_or_str`, `check_arguments`, the default of `--incore-model`, `get_incore_model`; Python's `int` for ASCII texts |
| `Readout` | `machinemodel.py` | memoisation (`lru_cache(1)`) of `get_machine_readouts` and `get_memory_hierarchy` with references to the returned dictionaries, `current_system`, `update` of readouts and memory hierarchy; what is read from the machine is arbitrary and constant, values are not changed in place |
| `RegionOut` | `models/standalone_benchmark.py` | `perfctr`, lines 119-164: reading of outputs with regions; without the check of the clock |
| `RoofReport` | `models/roofline.py` | `report` and `analyze` of both variants: values of the report; without tables and rounding |
| `KernelText` | `kernel.py` | `_strip_comments`, `_as_function` and the text parsed in `__init__` |
| `Datatype` | `kernel.py`, `models/roofline.py` | `set_variable`, `check`, declarations of code and description, choice of the precision (161); sizes of variables are arbitrary |
| `Description` | `kernel.py` | `string_to_sympy`, `KernelDescription.__init__`; texts are trees, sympy's names a parameter, expressions not simplified |
| `TileRun` | `cachetile.py`, `models/ecm.py` | options, definitions, choice of the constant and constants of each run; attributes that `ECMData.__init__` reads |
| `Reports` | `models/*.py`, `kerncraft.py` | pieces printed by the reports with unit and stream, tables of data transfers (no texts, no widths) |
| `Refs` | `kernel.py` | `compile_sympy_accesses` (extents are numbers); `compile_global_offsets` is in `Layout` |
| `Repetitions` | `kernel.py`, `models/standalone_benchmark.py` | repetitions in `BinaryDescription.__init__` and `check`, time per repetition in `analyze` |
| `Guard` | `models/benchmark.py`, `models/standalone_benchmark.py` | constructors and checks of the clock in `perfctr` (`current_system` is in `Readout`) |
| `Freshness` | `kernel.py`, `machinemodel.py`, `kerncraft.py` | `_check_freshness`, `get_last_modified_datetime` with separate times of reading and writing (files are not deleted) |
| `Predict` | `cacheprediction.py`, `ecm.py`, `roofline.py`, `machinemodel.py` | composition of `LayerCond`, `Machine.getBandwidth`, `Transfer` and `Perf`: from the sizes of caches to predictions (in-core times are inputs; exceptions not distinguished) |
| `Limits` | `models/ecm.py`, `models/roofline.py` | predictions of the ECM model for several cores, limits of core and memory |
| `Share` | `machinemodel.py`, `cacheprediction.py`, `models/ecm.py` | sizes of caches for a number of cores, predictions with them |
| `CoreRuns` | `kerncraft.py`, `models/*.py`, `cacheprediction.py`, `machinemodel.py` | which caches the predictors of a run work with, over histories of runs |
| `Settings` | `models/ecm.py`, `models/roofline.py` | constructors of the models: arguments and keyword arguments |
| `Install` | `iaca_get.py` | `find_iaca`, `main` over the state of the two locations (downloads, permissions of files and contents of scripts are not modelled) |
| `Scopes` | `kernel.py`, `headers/kerncraft.h` | names, declarations and scopes of `CODE_TEMPLATE`, `get_main_code`, `get_kernel_code`, `_build_dummy_calls` and of the macro `swap` (types and other tokens are not modelled, nor macros of system headers) |
| `Parallel` | `kernel.py` | `get_kernel_code`, `get_kernel_loop_nest` and the parallel region of the main program as steps of threads (single reads and writes of scalars and elements on sequentially consistent memory; `omp for` distributes the outer iterations and ends with a barrier; clauses `nowait` and `reduction`, and `swap`, are not modelled) |
| `ParallelInit` | `kernel.py` | `_build_array_initializations` shared between threads, followed by the calls of `Parallel`; the constant is one value for all arrays |
| `Program` | `kernel.py` | `_build_scalar_initializations`, the value in `_build_array_initializations`, and the main program: calls from the execution of `MainRun`, carried out by the threads of `Parallel` (numbers of the module `random` as a function of its state; their text is not modelled) |
| `MergeFiles` | `picklemerge.py` | `main` with the states of the files in between, and `update` with the version of Python; pickles are parameters, assertions are on |
| `Launch` | `models/benchmark.py`, `models/standalone_benchmark.py` | `perfctr` up to the output: command line, environment, exits; how likwid-perfctr reads it is in `Spec/Launch` |
| `Indent` | `kernel.py` | `prefix_indent` and the tables of `print_kernel_info`, `print_variables_info`, `print_constants_info`; names, bounds and offsets are the texts made by `str` and `repr` |
| `Regions` | `standalone_pheno.py`, `kernel.py`, `models/standalone_benchmark.py` | `--marker` and the regions of `BinaryDescription` and `analyze`, `check` with values of dictionaries as parameters |
| `Refresh` | `machinemodel.py` | `update` on the basis of a description, with which entries `get_machine_readouts` and `get_memory_hierarchy` fill in and which they mark as required; values are opaque |
| `Whole` | `kernel.py` | `_as_function` and the choice of `ext[0].body` in `KernelCode.__init__`; the parser as far as blocks, statements and functions go, its grammar of statements is a parameter |
| `DataTable` | `models/ecm.py` | `ECMData.report_data_transfers`; numbers are rational and not negative |
| `Dialect` | `incore_model.py` | `parse_asm`, `detect_x86_syntax`, and which syntax is used by `asm_instrumentation` and the analyses; x86 only, the library OSACA is a parameter that reads line by line |
| `Contexts` | `kernel.py`, `models/benchmark.py` | `set_recursionlimit`, `pprint_nosort`, `sympy_safe_key`; programs are a small language of calls, errors, handlers and blocks, the calls within the context managers are not counted |
| `Plot` | `roofline-plot.py:10-14`, `54-56` | `frange` as the list that it yields, rational numbers; the rest of the script is not modelled |
| `Sanitize` | `machinemodel.py:79-85` | the pattern as one decision for each character |
| `Names` | `cacheprediction.py` | `build_symbolic_LCs`: arrays in the order of their names, distances and destinations of all of them (extents are numbers; arrays without the inner counter are not listed) |
| `Sizes` | `cacheprediction.py` | the same with expressions and sort keys that do not depend on the values of constants |
| `BenchUpdate` | `machinemodel.py` | `_update_benchmarks`: working sets, reuse of entries, measuring (not: kernel list, fastest kernel) |
| `Perf` | `models/ecm.py`, `models/roofline.py` | composition, scaling, `conv_cy`, in-core times, bottleneck, `blocking`, `round_to_next` |
| `Transfer` | `models/ecm.py`, `models/roofline.py` | `calculate_cycles`, `calculate_cache_access`, `conv_perf`, limits and verdict |
| `Bench` | `models/benchmark.py` | `group_iterator`, `register_options`, `build_minimal_runs`, `fix_env_variable` |
| `Measure` | `models/benchmark.py` | repetition loop, iterations per repetition, `perfctr` result, matching of symbols |
| `Standalone` | `models/standalone_benchmark.py`, `kernel.py` | `adjust_variables`, measurement loop, iterations per repetition |
| `RegionEcm` | `models/standalone_benchmark.py` | `analyze`: values of counters, phenomenological ECM, cycles and performance |
| `AloneStore` | `standalone_pheno.py`, `models/standalone_benchmark.py` | constants while variables are adjusted, key of the results |
| `Cli` | `kerncraft.py`, `picklemerge.py` | ranges, combinations, identifiers, result store, `update` |
| `Tile` | `cachetile.py` | the search |
| `Units` | `prefixedunit.py` | construction, arithmetic, prefixes |
| `UnitText` | `prefixedunit.py` | `__str__` and the reader of strings |
| `Asm` | `incore_model.py` | block selection, metrics, markers, increment cache, x86 increments |
| `Clean` | `pycparser_utils.py` | `clean_code` |
| `Parse` | `kernel.py` | `_process_code`, `_p_for`, `_p_assignment`, `_p_sources`, `conv_ast_to_sym`, `_get_offsets`, `get_index_type` |
| `Paths` | `kernel.py`, `posixpath` | `get_intermediate_location`, `reduce_path` |
| `CodeGen` | `kernel.py`, `models/benchmark.py` | declarations, kernel call, arguments of the main program |

Further simplifications:

* Text: digits and white space are the ASCII ones.
* `Parse`: constants with sign or underscores cannot come from the lexer; sets of offsets are lists.
* `Paths`: no symbolic links; `mkdtemp` and the creation of directories are left out.
* `Standalone`, `Measure`: no `nan`; `2.0 // 0.2` is 10 in the model and 9.0 in Python.
* `CodeGen`: code as lists of declarations and arguments, not as text.
* `Measure`: only counter lines of likwid's output; the key of a counter is the pair of register and parameters.
* `Asm`: OSACA's parser and its comparison of lines are parameters; registers are unbounded integers.
* `Cli`: `rename` is atomic; `pickle` is an injective function to bytes. Logarithmic ranges are left out.

## Not modelled at all

Printing and report formatting, YAML parsing, subprocess invocation and regular expressions over tool output, the
IACA downloader's network code, plotting, and everything inside third party packages.

## Disagreements between code and intended property

Each entry is a theorem `Cnn_negation...` with a concrete witness; the `_partial` theorems say what still holds.

* C02 `len` of intervals counts integers twice when three or more ranges are nested.
* C04 `a & b` changes its left operand, because inner lists are shared.
* C06 indices computed from iteration numbers are wrong for increments above one.
* C07 loops whose end lies far below the start get a negative iteration count.
* C12 `set_constant` after a query is answered with the old value (memoised `subs_consts`).
* C13 symbols with equal names and different assumptions are not sorted reproducibly.
* C16 a crash during writing leaves a partial file that is newer than its inputs and is used.
* C17 stored in-core results ignore `asm_block` and `pointer_increment`.
* C20 the layer condition is too weak by up to one element per missing stream for some orders of accesses; it ignores that each stream needs at
  least a whole cacheline.
* C23 the cache simulator is memoised without the number of cores.
* C26 `ECMCPU.conv_cy` multiplies instead of dividing; both conversions ignore the loop increment.
* C34 values given twice are analysed twice; of several `-D .` only one counts.
* C36, C62 the printed blocking length need not have been simulated and can be slower than the minimum length.
* C38 the position of a block is found by line equality, so repeated lines move the markers.
* C39 the first stored increment wins; a missing final newline damages the next entry.
* C40, C65 negative indices after line comments wrap around; adjacent comments and `/*/` are misread. For some texts the loop never ends (C40_negation_endless).
* C41 `T`, `P` and `E` have factors 10^13, 10^16 and 10^19; units beginning with a prefix letter are split again.
* C43 overlapping runs lose results; both write the same temporary file.
* C45 counts of `++` and `--` are derived from the count of `+` and `-`.
* C46 octal bounds, steps of zero and assignments to the counter are accepted.
* C48 the alignment helper may pass the boundary, the warm-up may exceed the last iteration.
* C49 rounding with a fractional base truncates. The docstring example of `blocking` is wrong, too.
* C51 machine files of the same name share intermediate files; flags that differ in `/` or `_` do, too.
  A machine without a path fails in `get_identifier` with a TypeError.
* C52 the loop never ends for a start value of zero or for runtimes of zero.
* C53 a variable `s_` collides with the parameter made for a scalar `s`.
* C54 machine descriptions of one path share a dictionary; a changed file is not read again.
* C56, C63, C64 unrecognised changes of registers, scaled `lea`, scaled references with the chosen base register; the
  reported increment can depend on set order.
* C59 kernels without constants cannot be stored (unhashable dictionary).
* C60 the pattern of `-D` values is not anchored at its end.
* C61 the planner is greedy and not optimal.
* C66 octal subscripts are read as decimal. The docstring of `_get_offsets` has the order of subscripts wrong.
* C69 loops of other regions keep their old end.
* C70, C74 iteration counts are rounded down or fractional, and negative for empty loops.
* C71 `atoi` cuts constants to 32 bits even with a 64 bit index type.
* C72 the generated main program is reused for other constants.
* C73 the repetition loop never ends for runtimes of zero; `--iterations` has no effect.
* C75 counters of an event measured in two runs are overwritten.
* C76 a backslash followed by blanks, `# pragma` with a blank and continued pragmas are treated differently from C.
* C77 the duplexness of memory is not used; the number of elements per cache line is rounded down.
* C78, C79 loop increments other than one are ignored in the amounts of data and in the conversion of units.
* C80 the peak in FLOP/s is converted as if it were given in iterations per second.
* C81 numbers from 10^18 on, negative numbers, values without unit and units beginning with a prefix letter are not
  read back as they were printed.
* C82 packed instructions with other names and AArch64 `fmadd` are not counted.
* C83 sizes and positions of arrays overflow from 2^31 elements on (`int` as index type).
* C84 the key treats all symbols as equal and mixes up the signs; distances whose symbols cancel fail an assertion.
* C85 with literal extents the parts are not the subscripts, and references are sorted wrongly.
* C86 the advance is only checked between the values 1 and 2 of the counter; numbers count as one factor, so that
  literal extents are rejected from three dimensions on; arrays without the inner counter are rejected, not ignored.
* C87 stored cache predictions are used for other machines.
* C88 partly used groups, levels of nearly equal size and fifteen or more private last caches give wrong working sets.
* C89 new sizes are compared with themselves (lines 291, 294), outdated benchmarks are kept.
* C90 an interrupted list of measurements is measured again from the beginning, although line 362 skips existing data.
* C92 `A:PMC0-B:PMC1` is read as one counter; a counter that occurs in a later one tears it (`B_A:PMC0` becomes `B_SYMA_PMC0`);
  counters with equal names, such as `A:PMC|0` and `A:PMC-0`, are merged and the first one stays in the text.
* C93 AArch64 increments: `sub x0, x0, #8` is never found (the entry is only confirmed); `str d0, [x0], x2` counts as 1; the
  shift in `add x4, x0, x1, lsl #3` is ignored; `sub x4, x1, x0` with constant `x0` gets the wrong sign; results of `lsl` that
  are overwritten still count; increments are compared without scales; an index hides a moving base.
* C94 an empty list for a placeholder in a list hides the following node (two neighbouring placeholders: every second one
  stays); a replacement that contains the name in any node but the first never ends; scalars or arrays of the kernel with
  the name of a placeholder, such as `KERNEL_CALL`, are replaced as well.
* C95 `get_kernel_loop_nest` includes the calls of `swap`, so the initialisation ends with an exchange of the pointers: the kernel
  then reads the border of the array that was only initialised in its inner part.
* C96 `get_memory_hierarchy` raises KeyError for every description if called without placeholders; groups with different
  numbers of cores are rounded down.
* C97 a NUMA domain that spans several sockets is counted once per socket.
* C98 names of resources of `llvm-mca` end at the first character that is no letter or digit; different resources may become
  one port.
* C101 with three threads on four hardware threads per core, the threads are spread unevenly.
* C102 a loop with fractions is stored as the text of the argument, and what follows a loop is ignored, so that `0:10:2:3` is accepted.
* C103 every text is accepted as a definition, `5.5.5` is read as a range and the start of `.5:10` as the name of a region.
* C105 the number of repetitions is an int in the program: with 2^31 repetitions nothing is measured, and from 2^31 on never the requested number (`C105_iff`).
* C106 of the counts of several cores only the first one is stored; a counter with an option without value is lost; a count that is missing is zero.
* C107 a negative increment is written to the marked file, but not found in it: the second run ends with an error. Text of the same form elsewhere in the file is taken instead.
* C108 `--asm-block` with a number always fails, as blocks have labels; marking in place empties or removes the file if it fails.
* C109 with a step of 2 in the inner-most loop the benchmark counts half as many iterations per cacheline as `conv_cy`.
* C110 full-duplex links are treated as half-duplex; machines without a third cache have no result; the metric of the non-overlapping model is read and not used.
* C111 scalars `s` and `s_` give a kernel function that declares `s_` twice.
* C112 a new directive is put before other pragmas; each pragma with the letters `omp` counts as a directive; `omp parallel` becomes `omp`.
* C114 `--clean-intermediates` removes lock files that other runs use: two runs then write the same file, and readers find no file.
* C115 The simulation of short loops ends in a ZeroDivisionError or has negative results; with strides of several cachelines results are not per cacheline.
* C116 Machine files of the release 0.8.3 and of development versions of 0.8.17 are rejected; versions such as 0.8.3.1 end in a TypeError.
* C117 In JSON, None and other objects become texts; a key which is a number and an equal text collide.
* C118 `kerncraft-machine` empties the output file while arguments are parsed: with the basis as output file the description is lost, `--compare-host` empties the file, a failing run loses an older file. `-` writes a file `<stdout>` or reads a file `<stdin>`.
* C119 2 TB are larger than 15000 GB; 1 GHz equals 1 GB; the comparison of a quantity with a text raises a ValueError.
* C120 `Intervals([0, 2], [1, 3], [2, 4])` and `Intervals([0, 4])` have the same members but are not equal.
* C121 Symbols in increments of loops are not required; bounds that contain loop indices have no value although all required constants have one.
* C123 With `-p ECM -p RooflineFLOP` the ECM model is reported in FLOP/s; `--incore-model` defaults to OSACA, although its help names the first model of the
  machine description.
* C125 `current_system` reads the memory hierarchy but does not compare it: a processor of the same name with other caches is accepted.
* C126 The stand-alone benchmark does not store counters with options (`[A-Z0-9]+`, line 147), which `Benchmark` does, and only the first of several cores.
* C127 If the peak performance limits, `RooflineFLOP.report` prints the dictionary of all units instead of the requested one (`roofline.py:211`).
* C128 `_strip_comments` leaves block comments and cuts at `//` inside of them; the command line removes comments before.
* C129 `RooflineFLOP.analyze` compares the tuple of names of a type with the text `double` (`roofline.py:161`), so that the peak of single precision is always taken.
* C130 `string_to_sympy` excepts single letters only, so that other names of sympy keep their meaning: `pi` is a number and `beta` a function.
* C131 `cachetile` cannot run: `ECMData.__init__` reads `args.cache_predictor` (`ecm.py:71`), which its parser does not define. The predictor would also be made before constants are set (`cachetile.py:63`). Scalars end in a TypeError (69). C36 and C62 describe the search itself.
* C132 reports ignore `output_file` in places: the penalty of `ECMData` (`ecm.py:219`), the parts of a verbose `ECM` report (`ecm.py:571-572`), tables, dumps and names of regions of benchmarks (`benchmark.py:530`, `557-570`, `standalone_benchmark.py:453-457`, `487-499`) and everything of `LC` (`layer_condition.py:54-67`). Benchmarks report FLOP/s of complex kernels without the warning of the other models.
* C133 the table of the stand-alone benchmark has the columns of the first cache, rows are the sorted metrics of each cache (`standalone_benchmark.py:489-498`).
* C134 references to arrays that are not declared are left out, extra subscripts are not rejected (`kernel.py:366-373`, `439-448`, `590-615`).
* C135 regions without own argument share the dictionary of the default, so their numbers of calls overwrite each other (`kernel.py:1971`, `standalone_benchmark.py:285`).
* C136 `Benchmark` looks for `INFORAMTION_REQUIRED` (`benchmark.py:315`), so placeholders in metrics are not recognised; outputs without a clock are used (`benchmark.py:345`); `args=None` is documented but fails (`benchmark.py:311`, `standalone_benchmark.py:68`).
* C137 the time stamp of a result is that of writing, not of reading its inputs (`kernel.py:799-808`); `MachineModel.get_last_modified_datetime` returns local time if there is no file (`machinemodel.py:417`), everything else is UTC.
* C138 with less traffic `get_bandwidth` may choose a benchmark of lower bandwidth (`machinemodel.py:457-475`), so that a larger last cache leads to a worse prediction of both models; with the memory bandwidths of `HaswellEP_E5-2695v3.yml` five loads and four stores take longer than six loads and four stores.
* C139 virtual arrays are arranged in the order of their names (`kernel.py:573-587`), so that with the cache simulator renaming arrays changes which lines share a set, and the number of misses.
* C141 the requirement of a distance counts whole iterations, whereas the distance to the previous access ends within them; an access predicted to miss may hit.
* C142 the stand-alone benchmark reads the metric `accesses` of L1 (`standalone_benchmark.py:380`), which no machine file has (`BroadwellEP_E5-2697v4_CoD.yml` has it at L2); registers are compared without parameters (359-364), so values of counters with parameters are not found or are those of another event; iterations are rounded down, in the integrated benchmark they are not.
* C143 results are stored under the base name of the program and the constants (`standalone_pheno.py:379-384`), without machine file and cores; `-D` options in another order give another key.
* C144 the ECM model uses the largest measured bandwidth of a NUMA domain for each number of cores (`machinemodel.py:488-494`), so that with one core it may predict more than the Roofline limit of the memory; `ecm.py:309-310` floors downward pointer increments to the larger block (`roofline.py:303-304` does not); the Roofline model ignores that full-duplex memory is read and written at the same time.
* C145 `machinemodel.py:437-438` divides each shared cache by the number of cores used, limited by those of a NUMA domain: on `Zen2_EPYC-7452.yml`, `Zen_EPYC-7451.yml` and `Zen_Ryzen7-1700X.yml`, where a third level serves half a domain, a core is given half of its share; a third level that serves two domains is given out twice. With measured bandwidths a core may be predicted faster with two cores than with one.
* C146 `layer_condition.py:49` does not pass on the number of cores: `--cores 8 -p LC` shows the conditions for one core, after another run with a heading for eight. Together with the memoised simulator (C23), `-P LC --cores 8 -p ECMData -p LC` stores conditions for eight cores as those for one, which later runs with one core read; `--cores 8 -p LC -p ECMData` predicts with the caches of one core.
* C147 `ecm.py:440-441` passes `CacheSimulationPredictor` instead of the predictor given to `ECM`; `ecm.py:279-285` and `roofline.py:270-276` read `args.asm_block` and `args.pointer_increment` even if there are no arguments, so that numbers cannot be given as keyword arguments.
* C148 `iaca_get.py:103-123` installs only to directories that do not exist, and a run that fails leaves its directory: after two runs without network nothing can be installed. Without an installation `--force` stays in the arguments (`iaca_get.py:77-86`) and is rejected as a system or hides the licence. A forced installation goes to the package, but one in the home directory is found first. `mac` as argument on Linux installs to the directory for Linux.
* C149 the requirement counts one element more than an access in the usual order needs (`cacheprediction.py:434-446`); a cache that is exactly one element smaller already suffices.
* C150 the main program has variables called `repeat` and `warmup` around the call of the kernel (`kernel.py:1497-1505`): with a constant of such a name, `kernel` is called with the number of repetitions without any error. The macro `swap` (`headers/kerncraft.h:6`) declares `t`, and an array of this name is not exchanged. `swap` is not declared in `kernel.c` (`kernel.py:1426-1448`, no header is included), so that kernels with swaps such as `3d-7pt-swapped.c` cannot be linked.
* C151 scalars of the kernel are static variables of the kernel function (`kernel.py:1430-1431`), which all threads share, and every thread copies them from and to the main program without a barrier (`kernel.py:1435-1438`). Sums lose updates, a thread that enters late resets the sum of the others, and auxiliary scalars are overwritten by other threads. The directive `omp for` is inserted without regard to dependences (`kernel.py:1225-1227`).
* C153 for kernels with races (C151) the results of two runs of the same program differ.
* C35, C154 `picklemerge.py:15,36,40` use `collections.Mapping`, which does not exist since Python 3.10 (`setup.py:82` lists 3.10, the workflows run 3.10 to 3.13): every run of `picklemerge` ends in an AttributeError. The destination is truncated before the result is written (lines 44-46).
* C155 `perfctr` takes the processors from the first socket only (`benchmark.py:214-216`): with more cores than a socket has, the run is rejected, or several threads share a physical core although those of other sockets are free.
* C156 `prefix_indent` (`kernel.py:89-90`) replaces a later prefix of one character by blanks, though the documentation says that the character is repeated. Columns of the tables move behind names of more than eight characters.
* C158 A renewed memory hierarchy replaces the one of the basis as a whole (`machinemodel.py:194`), so throughputs, cache parameters and metrics filled in are replaced by `INFORMATION_REQUIRED`. With `--no-overwrite` there are no placeholders, `cache per group` is missing in line 750 and the generator ends with a KeyError. A model name that was filled in is replaced by `None` if `/proc/cpuinfo` has none (687-688).
* C159 `kernel.py:752-753` takes the body of the first function of the text around the code. Code with an unmatched closing brace ends that function; what follows is dropped without a message if it is a beginning of another function.
* C160 `models/ecm.py:203` has fields of fixed width. From 999.5 bytes per cache line of work on, or with level names of more than six characters together, the columns of a line are no longer below the heading.
* C161 `incore_model.py:751` names no syntax, while lines 581-614 prefer the one of Intel. Code in the syntax that is not the default of OSACA is marked, but the marked code is read in the other syntax.
* C162 `kernel.py:1268`, `1420` and `1446` set the recursion limit to 100000 even if it was higher before, which lowers it for the block.
* C164 `roofline-plot.py:13-14` adds the step before it yields, so that the lower end is left out and the last point lies at or above the upper end.
* C165 `machinemodel.py:85` leaves the empty text empty, which is no name.
* C166 `prefixedunit.py:77` allows the error `base_value*max_error`, which is negative for negative values: these never get a prefix.

Notes without a separate theorem: `_update_benchmarks` reads `total_size` (line 350) before it is
assigned if `verbose` is above 1; `long` and `long int` count as different index types (C67); some register
descriptions that are invalid still let the planner return (C29); the order of distances assumes tuples of equal
length (C58); `ARMv8_ThunderX2-CN9980.yml:100` misspells its key, so that the penalty of stores is not used (C77).

## Tests of the theorems

`seeded/LOG.jsonl` lists wrong programs that were tried in a scratch copy (`tools/mutate.py`): the edit, the claim it
breaks and the declarations whose proofs failed. `failed` holds only what the build reported. `dependent` holds property
theorems that rest on a failed one and were not seen to fail themselves. `dependence` says how these were found: `axioms`
means that failing proofs were skipped in the scratch copy and Lean was asked which theorems rest on them, `names` (older
runs) that names in the text were compared, and that the run stopped early. A failed helper lemma does not show that the
claim's own theorem is unprovable, and a failed proof may only be brittle. In 626 of the 1398 entries no theorem of the claim is in
`failed`, only in `dependent` or, where the dependent files were not built, in `used_by` (found by name). Earlier versions of the log put both lists into `failed`. `note` gives the reason where nothing failed. Edits that did not type check are left out.
