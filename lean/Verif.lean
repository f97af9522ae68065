import Verif.Lemmas.BkBlocked
import Verif.Lemmas.BkCompute
import Verif.Lemmas.BkFact
import Verif.Lemmas.BkGrowth
import Verif.Lemmas.BkObj
import Verif.Lemmas.BkPath
import Verif.Lemmas.BkSing
import Verif.Lemmas.BlockKind
import Verif.Lemmas.BlockLdlt
import Verif.Lemmas.BlockMemory
import Verif.Lemmas.BlockPrint
import Verif.Lemmas.BlockStorage
import Verif.Lemmas.BlockStorageSearch
import Verif.Lemmas.BlockTri
import Verif.Lemmas.Blocks
import Verif.Lemmas.BunchKaufman
import Verif.Lemmas.Calc
import Verif.Lemmas.Calculus
import Verif.Lemmas.Calls
import Verif.Lemmas.CallsValue
import Verif.Lemmas.Casadi
import Verif.Lemmas.Check
import Verif.Lemmas.Console
import Verif.Lemmas.ConvexConv
import Verif.Lemmas.ConvexConvLoop
import Verif.Lemmas.DenseLdlt
import Verif.Lemmas.Descent
import Verif.Lemmas.DescentLoop
import Verif.Lemmas.DescentStep
import Verif.Lemmas.ExtAgree
import Verif.Lemmas.ExtSolver
import Verif.Lemmas.FloatBfgs
import Verif.Lemmas.FloatBk
import Verif.Lemmas.FloatLdlt
import Verif.Lemmas.FloatLdltBlock
import Verif.Lemmas.FloatLinesearch
import Verif.Lemmas.FloatRefine
import Verif.Lemmas.FloatSets
import Verif.Lemmas.FloatSolver
import Verif.Lemmas.FloatSpaces
import Verif.Lemmas.Infeasible
import Verif.Lemmas.Interrupt
import Verif.Lemmas.Lifetimes
import Verif.Lemmas.ManifoldCalculus
import Verif.Lemmas.Math
import Verif.Lemmas.Merit
import Verif.Lemmas.Newton
import Verif.Lemmas.NewtonLoop
import Verif.Lemmas.NewtonTaylor
import Verif.Lemmas.NextPerm
import Verif.Lemmas.Overflow
import Verif.Lemmas.OverflowAgree
import Verif.Lemmas.OverflowNorm
import Verif.Lemmas.Polymorphic
import Verif.Lemmas.PyWrapper
import Verif.Lemmas.Qp
import Verif.Lemmas.QpOuter
import Verif.Lemmas.QpSolve
import Verif.Lemmas.Renaming
import Verif.Lemmas.Rounding
import Verif.Lemmas.Sets
import Verif.Lemmas.Shapes
import Verif.Lemmas.SharedProblem
import Verif.Lemmas.Sharing
import Verif.Lemmas.SharingJac
import Verif.Lemmas.Signature
import Verif.Lemmas.Solver
import Verif.Lemmas.SolverEval
import Verif.Lemmas.SolverOuter
import Verif.Lemmas.SplitViews
import Verif.Lemmas.StallLs
import Verif.Lemmas.StallMerit
import Verif.Lemmas.StallStep
import Verif.Lemmas.Sylvester
import Verif.Lemmas.Threads
import Verif.Lemmas.Tuning
import Verif.Model.Backends
import Verif.Model.Bfgs
import Verif.Model.BlockKind
import Verif.Model.BlockLdlt
import Verif.Model.BlockMemory
import Verif.Model.BlockPerm
import Verif.Model.BlockStorage
import Verif.Model.BlockTri
import Verif.Model.Blocks
import Verif.Model.BunchKaufman
import Verif.Model.Calls
import Verif.Model.Casadi
import Verif.Model.ConEquality
import Verif.Model.Console
import Verif.Model.CostSum
import Verif.Model.DenseLdlt
import Verif.Model.DistanceCost
import Verif.Model.ExtSolver
import Verif.Model.FloatBfgs
import Verif.Model.FloatBk
import Verif.Model.FloatFd
import Verif.Model.FloatLdlt
import Verif.Model.FloatLinesearch
import Verif.Model.FloatPenalty
import Verif.Model.FloatRefine
import Verif.Model.FloatSets
import Verif.Model.FloatSolver
import Verif.Model.FloatSpaces
import Verif.Model.Functions
import Verif.Model.Gemmt
import Verif.Model.History
import Verif.Model.Inertia
import Verif.Model.InfBox
import Verif.Model.Interrupt
import Verif.Model.LieGroup
import Verif.Model.Lifetimes
import Verif.Model.Linesearch
import Verif.Model.MachineSizes
import Verif.Model.Manifold
import Verif.Model.Math
import Verif.Model.Merit
import Verif.Model.Overflow
import Verif.Model.Polymorphic
import Verif.Model.Problem
import Verif.Model.ProxsuiteLdlt
import Verif.Model.PyOperators
import Verif.Model.PyWrapper
import Verif.Model.Residual
import Verif.Model.ResultsCopy
import Verif.Model.RigidTransform
import Verif.Model.Rounding
import Verif.Model.SetProduct
import Verif.Model.Sets
import Verif.Model.Shapes
import Verif.Model.SharedProblem
import Verif.Model.Sharing
import Verif.Model.Signature
import Verif.Model.Solver
import Verif.Model.SolverMove
import Verif.Model.SplitViews
import Verif.Model.Step
import Verif.Model.Threads
import Verif.Model.Tuning
import Verif.Props.Backends
import Verif.Props.Barycentre
import Verif.Props.Bfgs
import Verif.Props.BkGrowth
import Verif.Props.BlockKind
import Verif.Props.BlockLdlt
import Verif.Props.BlockMemory
import Verif.Props.BlockStorage
import Verif.Props.BlockTri
import Verif.Props.BunchKaufman
import Verif.Props.Calls
import Verif.Props.Casadi
import Verif.Props.Certificate
import Verif.Props.ConEquality
import Verif.Props.Console
import Verif.Props.Convex
import Verif.Props.ConvexConv
import Verif.Props.CostSum
import Verif.Props.DenseLdlt
import Verif.Props.DistanceCost
import Verif.Props.ExtArith
import Verif.Props.ExtSolver
import Verif.Props.FloatBfgs
import Verif.Props.FloatBk
import Verif.Props.FloatCertificate
import Verif.Props.FloatFd
import Verif.Props.FloatLdlt
import Verif.Props.FloatLinesearch
import Verif.Props.FloatPenalty
import Verif.Props.FloatRefine
import Verif.Props.FloatSets
import Verif.Props.FloatSolver
import Verif.Props.FloatSpaces
import Verif.Props.Functions
import Verif.Props.Gemmt
import Verif.Props.History
import Verif.Props.Inertia
import Verif.Props.InfBox
import Verif.Props.Infeasible
import Verif.Props.InfeasibleCycle
import Verif.Props.Interp
import Verif.Props.Interrupt
import Verif.Props.Kkt
import Verif.Props.KktInertia
import Verif.Props.LieGroup
import Verif.Props.Lifetimes
import Verif.Props.Linesearch
import Verif.Props.MachineSizes
import Verif.Props.Manifold
import Verif.Props.ManifoldCalculus
import Verif.Props.ManifoldOps
import Verif.Props.Math
import Verif.Props.Merit
import Verif.Props.Newton
import Verif.Props.Overflow
import Verif.Props.PenaltyCycle
import Verif.Props.Permutation
import Verif.Props.Polymorphic
import Verif.Props.Problem
import Verif.Props.ProxsuiteLdlt
import Verif.Props.PyOperators
import Verif.Props.PyWrapper
import Verif.Props.Qp
import Verif.Props.QpDefaults
import Verif.Props.QuadCost
import Verif.Props.Renaming
import Verif.Props.Reported
import Verif.Props.ResultsCopy
import Verif.Props.RigidTransform
import Verif.Props.SetProduct
import Verif.Props.SetProductEnvelope
import Verif.Props.Sets
import Verif.Props.SetsDeriv
import Verif.Props.Shapes
import Verif.Props.SharedProblem
import Verif.Props.Sharing
import Verif.Props.Signature
import Verif.Props.Solver
import Verif.Props.SolverHistory
import Verif.Props.SolverMove
import Verif.Props.SplitViews
import Verif.Props.Stall
import Verif.Props.Step
import Verif.Props.StepHistory
import Verif.Props.TangentBundle
import Verif.Props.Threads
import Verif.Props.Transport
import Verif.Props.Tuning
import Verif.Spec.Barycentre
import Verif.Spec.BlockKind
import Verif.Spec.BlockMemory
import Verif.Spec.BlockStorage
import Verif.Spec.Blocks
import Verif.Spec.Calculus
import Verif.Spec.Calls
import Verif.Spec.Casadi
import Verif.Spec.Composite
import Verif.Spec.ConEquality
import Verif.Spec.Console
import Verif.Spec.Convex
import Verif.Spec.ConvexConv
import Verif.Spec.ConvexRun
import Verif.Spec.DistanceCost
import Verif.Spec.ExtSolver
import Verif.Spec.FloatBfgs
import Verif.Spec.FloatBk
import Verif.Spec.FloatFd
import Verif.Spec.FloatLdlt
import Verif.Spec.FloatLinesearch
import Verif.Spec.FloatRefine
import Verif.Spec.FloatSets
import Verif.Spec.FloatSolver
import Verif.Spec.FloatSpaces
import Verif.Spec.InfBox
import Verif.Spec.Infeasible
import Verif.Spec.Interrupt
import Verif.Spec.Kkt
import Verif.Spec.LieGroup
import Verif.Spec.Lifetimes
import Verif.Spec.Manifold
import Verif.Spec.ManifoldCalculus
import Verif.Spec.Newton
import Verif.Spec.NewtonReal
import Verif.Spec.Overflow
import Verif.Spec.Permutation
import Verif.Spec.Polymorphic
import Verif.Spec.PyOperators
import Verif.Spec.PyWrapper
import Verif.Spec.Qp
import Verif.Spec.Renaming
import Verif.Spec.Reported
import Verif.Spec.ResultsCopy
import Verif.Spec.RigidTransform
import Verif.Spec.Rounding
import Verif.Spec.Sets
import Verif.Spec.Shapes
import Verif.Spec.SharedProblem
import Verif.Spec.Sharing
import Verif.Spec.Solver
import Verif.Spec.SolverMove
import Verif.Spec.SplitViews
import Verif.Spec.Stall
import Verif.Spec.Threads
import Verif.Spec.Tuning
