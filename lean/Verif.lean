import Verif.Props.RangeConstraint
import Verif.Props.GroupedExpression
import Verif.Props.Solve
import Verif.Props.Goldilocks
import Verif.Props.ConstraintSystem
import Verif.Props.Indexed
import Verif.Props.Extraction
import Verif.Props.ExhaustiveSearch
import Verif.Props.Solver
import Verif.Props.Inliner
import Verif.Props.Reachability
import Verif.Props.ItemDB
import Verif.Props.Rules
import Verif.Props.RuleDriver
import Verif.Props.OpenVm
import Verif.Props.Memory
import Verif.Props.Expression
import Verif.Props.Machine
import Verif.Props.ConstraintOptimizer
import Verif.Props.LowDegree
import Verif.Props.Optimizer
import Verif.Props.ExecBus
import Verif.Props.Blocks
import Verif.Props.BasicBlocks
import Verif.Props.Superblocks
import Verif.Props.Selection
import Verif.Props.Partition
import Verif.Props.Empirical
import Verif.Props.Detection
import Verif.Props.Evaluator
import Verif.Props.Reference
import Verif.Props.TraceGen
import Verif.Props.Build
import Verif.Props.Optimistic
import Verif.Props.Literals
import Verif.Props.Periphery
import Verif.Props.Compile
import Verif.Props.BuildTrace
import Verif.Props.Hints
import Verif.Props.Gpu
import Verif.Props.Elf
import Verif.Props.Rv64
import Verif.Props.ElfData
import Verif.Props.VmAirs
import Verif.Props.SymbolicValue
import Verif.Props.Symbols
import Verif.Props.Saved
import Verif.Props.FieldText
import Verif.Props.Printed
import Verif.Props.Interpret
import Verif.Props.Assemble
import Verif.Props.FixedInt
import Verif.Props.CsvTable
import Verif.Props.Visitors
import Verif.Props.Termination
import Verif.Props.RuleTermination
import Verif.Props.OptimizerDegree
import Verif.Props.OptimizerSteps
import Verif.Props.OptimizerPanics
import Verif.Props.BuildPanics
import Verif.Props.PrecompileDegree
import Verif.Props.SolverRetain
import Verif.Props.SolverFixpoint
import Verif.Props.RangeExact
import Verif.Props.Supported
import Verif.Props.Roots
import Verif.Props.Registers
import Verif.Props.Inlined
import Verif.Props.Simplest
import Verif.Props.SearchExact
import Verif.Props.AnyOrder
import Verif.Props.SimplifyExact
import Verif.Props.FreeExact
import Verif.Props.Irredundant
import Verif.Props.SolverVars
import Verif.Props.OptimizerVars
import Verif.Props.OptimizerMethods
import Verif.Props.OptimizerKept
import Verif.Props.BuildMethods
