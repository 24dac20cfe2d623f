import Verif.Model.A64
import Verif.Model.AloneStore
import Verif.Model.Analyzer
import Verif.Model.Applicable
import Verif.Model.ArrayInit
import Verif.Model.Asm
import Verif.Model.Bench
import Verif.Model.BenchRun
import Verif.Model.BenchUpdate
import Verif.Model.Clean
import Verif.Model.CleanUp
import Verif.Model.Cli
import Verif.Model.CodeGen
import Verif.Model.Constants
import Verif.Model.Contexts
import Verif.Model.CoreRuns
import Verif.Model.DataTable
import Verif.Model.Datatype
import Verif.Model.Description
import Verif.Model.Dialect
import Verif.Model.DistKey
import Verif.Model.Freshness
import Verif.Model.Generate
import Verif.Model.Guard
import Verif.Model.IncoreCache
import Verif.Model.Indent
import Verif.Model.Install
import Verif.Model.Intervals
import Verif.Model.Iteration
import Verif.Model.Json
import Verif.Model.KernelFn
import Verif.Model.KernelText
import Verif.Model.Launch
import Verif.Model.LayerCond
import Verif.Model.Layout
import Verif.Model.Limits
import Verif.Model.LockOrder
import Verif.Model.Locking
import Verif.Model.Machine
import Verif.Model.MainRun
import Verif.Model.Marking
import Verif.Model.Measure
import Verif.Model.MergeFiles
import Verif.Model.Names
import Verif.Model.Options
import Verif.Model.Osaca
import Verif.Model.Parallel
import Verif.Model.ParallelInit
import Verif.Model.Parse
import Verif.Model.Paths
import Verif.Model.Perf
import Verif.Model.PerfMetric
import Verif.Model.PerfOut
import Verif.Model.Pheno
import Verif.Model.PhenoEcm
import Verif.Model.Plot
import Verif.Model.Pragmas
import Verif.Model.PredCache
import Verif.Model.Predict
import Verif.Model.Program
import Verif.Model.Readout
import Verif.Model.Refresh
import Verif.Model.Refs
import Verif.Model.Regex
import Verif.Model.RegionEcm
import Verif.Model.RegionOut
import Verif.Model.Regions
import Verif.Model.Relational
import Verif.Model.Repetitions
import Verif.Model.Replace
import Verif.Model.Reports
import Verif.Model.Required
import Verif.Model.RoofReport
import Verif.Model.Sanitize
import Verif.Model.Scopes
import Verif.Model.Settings
import Verif.Model.Share
import Verif.Model.Sim
import Verif.Model.SimResult
import Verif.Model.Sizes
import Verif.Model.Split
import Verif.Model.Standalone
import Verif.Model.Text
import Verif.Model.Tile
import Verif.Model.TileRun
import Verif.Model.Topology
import Verif.Model.Transfer
import Verif.Model.UnitCompare
import Verif.Model.UnitText
import Verif.Model.Units
import Verif.Model.Version
import Verif.Model.Whole
import Verif.Spec.A64
import Verif.Spec.Answers
import Verif.Spec.Arrays
import Verif.Spec.BenchRun
import Verif.Spec.BestPrefix
import Verif.Spec.CInt
import Verif.Spec.CKernel
import Verif.Spec.CLib
import Verif.Spec.Comments
import Verif.Spec.Contexts
import Verif.Spec.CoreRuns
import Verif.Spec.Counters
import Verif.Spec.DataTable
import Verif.Spec.Datatype
import Verif.Spec.Description
import Verif.Spec.Dialect
import Verif.Spec.Directives
import Verif.Spec.Elements
import Verif.Spec.Freshness
import Verif.Spec.Groups
import Verif.Spec.Guard
import Verif.Spec.Indent
import Verif.Spec.Install
import Verif.Spec.IntText
import Verif.Spec.Json
import Verif.Spec.Launch
import Verif.Spec.Likwid
import Verif.Spec.Limits
import Verif.Spec.Lines
import Verif.Spec.Loops
import Verif.Spec.Lru
import Verif.Spec.LruExact
import Verif.Spec.Names
import Verif.Spec.Numerals
import Verif.Spec.Parallel
import Verif.Spec.PerfOut
import Verif.Spec.PhenoArgs
import Verif.Spec.Plot
import Verif.Spec.Poly
import Verif.Spec.Predict
import Verif.Spec.Program
import Verif.Spec.Refresh
import Verif.Spec.Refs
import Verif.Spec.RegionEcm
import Verif.Spec.RegionOut
import Verif.Spec.Regions
import Verif.Spec.Repetitions
import Verif.Spec.Reports
import Verif.Spec.RoofReport
import Verif.Spec.Sanitize
import Verif.Spec.ScopeNames
import Verif.Spec.Scopes
import Verif.Spec.Settings
import Verif.Spec.Share
import Verif.Spec.Sizes
import Verif.Spec.Subst
import Verif.Spec.Symbols
import Verif.Spec.Tables
import Verif.Spec.Terms
import Verif.Spec.Versions
import Verif.Spec.Walk
import Verif.Spec.Whole
import Verif.Spec.X86
import Verif.Lemmas.A64
import Verif.Lemmas.AloneStore
import Verif.Lemmas.Analyzer
import Verif.Lemmas.Applicable
import Verif.Lemmas.ArrayInit
import Verif.Lemmas.BenchRun
import Verif.Lemmas.Clean
import Verif.Lemmas.CleanEndless
import Verif.Lemmas.CleanUp
import Verif.Lemmas.Cli
import Verif.Lemmas.Constants
import Verif.Lemmas.Contexts
import Verif.Lemmas.CoreRuns
import Verif.Lemmas.DataTable
import Verif.Lemmas.Datatype
import Verif.Lemmas.Description
import Verif.Lemmas.Dialect
import Verif.Lemmas.DistKey
import Verif.Lemmas.Freshness
import Verif.Lemmas.Grammar
import Verif.Lemmas.Guard
import Verif.Lemmas.Indent
import Verif.Lemmas.Install
import Verif.Lemmas.IntervalEq
import Verif.Lemmas.Intervals
import Verif.Lemmas.Iteration
import Verif.Lemmas.Json
import Verif.Lemmas.KernelFn
import Verif.Lemmas.KernelText
import Verif.Lemmas.Launch
import Verif.Lemmas.LayerCond
import Verif.Lemmas.Layout
import Verif.Lemmas.Limits
import Verif.Lemmas.LockOrder
import Verif.Lemmas.Locking
import Verif.Lemmas.Lru
import Verif.Lemmas.LruExact
import Verif.Lemmas.LruLines
import Verif.Lemmas.LruMiss
import Verif.Lemmas.MainRun
import Verif.Lemmas.Marking
import Verif.Lemmas.MergeFiles
import Verif.Lemmas.Names
import Verif.Lemmas.Options
import Verif.Lemmas.Parallel
import Verif.Lemmas.ParallelInit
import Verif.Lemmas.Parse
import Verif.Lemmas.Paths
import Verif.Lemmas.PerfMetric
import Verif.Lemmas.PerfOut
import Verif.Lemmas.Pheno
import Verif.Lemmas.Plot
import Verif.Lemmas.Pragmas
import Verif.Lemmas.Predict
import Verif.Lemmas.Program
import Verif.Lemmas.Readout
import Verif.Lemmas.Refresh
import Verif.Lemmas.Refs
import Verif.Lemmas.Regex
import Verif.Lemmas.RegionEcm
import Verif.Lemmas.RegionOut
import Verif.Lemmas.Regions
import Verif.Lemmas.Repetitions
import Verif.Lemmas.Replace
import Verif.Lemmas.Reports
import Verif.Lemmas.Required
import Verif.Lemmas.RoofReport
import Verif.Lemmas.Sanitize
import Verif.Lemmas.Scopes
import Verif.Lemmas.Settings
import Verif.Lemmas.Share
import Verif.Lemmas.SimResult
import Verif.Lemmas.Sizes
import Verif.Lemmas.Split
import Verif.Lemmas.Standalone
import Verif.Lemmas.Strip
import Verif.Lemmas.Text
import Verif.Lemmas.TileRun
import Verif.Lemmas.Topology
import Verif.Lemmas.UnitText
import Verif.Lemmas.Version
import Verif.Lemmas.Whole
import Verif.Lemmas.X86
import Verif.Props.A64
import Verif.Props.AloneStore
import Verif.Props.Analyzer
import Verif.Props.Applicable
import Verif.Props.ArrayInit
import Verif.Props.Asm
import Verif.Props.Bench
import Verif.Props.BenchMinimal
import Verif.Props.BenchRun
import Verif.Props.BenchUpdate
import Verif.Props.BestPrefix
import Verif.Props.Clean
import Verif.Props.CleanEndless
import Verif.Props.CleanExact
import Verif.Props.CleanUp
import Verif.Props.Cli
import Verif.Props.CodeGen
import Verif.Props.Constants
import Verif.Props.Contexts
import Verif.Props.CoreRuns
import Verif.Props.DataTable
import Verif.Props.Datatype
import Verif.Props.Description
import Verif.Props.Dialect
import Verif.Props.Directives
import Verif.Props.DistKey
import Verif.Props.ForLoops
import Verif.Props.Freshness
import Verif.Props.Generate
import Verif.Props.Guard
import Verif.Props.Ident
import Verif.Props.IncoreCache
import Verif.Props.Indent
import Verif.Props.Install
import Verif.Props.IntervalEq
import Verif.Props.Intervals
import Verif.Props.Iteration
import Verif.Props.Json
import Verif.Props.KernelFn
import Verif.Props.KernelText
import Verif.Props.Keys
import Verif.Props.Launch
import Verif.Props.LayerCond
import Verif.Props.Layout
import Verif.Props.Limits
import Verif.Props.LockOrder
import Verif.Props.Locking
import Verif.Props.LruExact
import Verif.Props.LruLines
import Verif.Props.LruMiss
import Verif.Props.Machine
import Verif.Props.MainRun
import Verif.Props.Marking
import Verif.Props.Measure
import Verif.Props.Memory
import Verif.Props.Merge
import Verif.Props.MergeFiles
import Verif.Props.Metric
import Verif.Props.Names
import Verif.Props.Options
import Verif.Props.Osaca
import Verif.Props.Parallel
import Verif.Props.ParallelInit
import Verif.Props.Parse
import Verif.Props.Paths
import Verif.Props.Perf
import Verif.Props.PerfMetric
import Verif.Props.PerfOut
import Verif.Props.Pheno
import Verif.Props.PhenoEcm
import Verif.Props.Plot
import Verif.Props.Pragmas
import Verif.Props.PredCache
import Verif.Props.Predict
import Verif.Props.Program
import Verif.Props.Readout
import Verif.Props.References
import Verif.Props.Refresh
import Verif.Props.Refs
import Verif.Props.RegionEcm
import Verif.Props.RegionOut
import Verif.Props.Regions
import Verif.Props.Relational
import Verif.Props.Repetitions
import Verif.Props.Replace
import Verif.Props.Reports
import Verif.Props.Required
import Verif.Props.RoofReport
import Verif.Props.Sanitize
import Verif.Props.Scopes
import Verif.Props.Settings
import Verif.Props.Share
import Verif.Props.Sim
import Verif.Props.SimResult
import Verif.Props.Sizes
import Verif.Props.Split
import Verif.Props.Standalone
import Verif.Props.Storage
import Verif.Props.Tile
import Verif.Props.TileRun
import Verif.Props.Topology
import Verif.Props.Transfer
import Verif.Props.UnitCompare
import Verif.Props.UnitText
import Verif.Props.Units
import Verif.Props.Version
import Verif.Props.Whole
import Verif.Props.X86
