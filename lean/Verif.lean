import Verif.Model.Topology
import Verif.Spec.Cube
import Verif.Props.Topology
import Verif.Props.Gather
import Verif.Props.Mpi
import Verif.Props.Simulation
import Verif.Props.Output
import Verif.Props.Config
import Verif.Props.Epi
import Verif.Props.RungeKutta
import Verif.Props.Butcher
import Verif.Props.Schemes
import Verif.Props.Newton
import Verif.Props.Srerk
import Verif.Spec.Stability
import Verif.Props.Stability
import Verif.Props.KrylovControl
import Verif.Props.KrylovTimes
import Verif.Props.Augmented
import Verif.Props.Krylov
import Verif.Props.Pmex
import Verif.Props.Gmres
import Verif.Props.Reductions
import Verif.Props.Metric2D
import Verif.Props.Winds
import Verif.Props.Metric3D
import Verif.Props.Christoffel3D
import Verif.Props.Panels
import Verif.Props.Quadrature
import Verif.Props.Operators
import Verif.Props.Conservation
import Verif.Props.RowReduce
import Verif.Props.Layout
import Verif.Props.Terrain
import Verif.Props.Flux
import Verif.Props.Advection
import Verif.Props.Diagnostic
import Verif.Props.Multigrid
import Verif.Props.Stats
import Verif.Props.ShallowWater
import Verif.Props.InitShallow
import Verif.Props.EulerCartesian
import Verif.Props.Invariants
import Verif.Props.EulerSphere
import Verif.Props.CartesianConsistency
import Verif.Props.SphereConsistency
import Verif.Props.References
import Verif.Props.Coordinates3D
import Verif.Props.RhsObject
import Verif.Props.StatsDb
import Verif.Props.Interpolation
import Verif.Props.Factorization
import Verif.Props.SrerkRuns
import Verif.Props.ConvergenceRosexp
import Verif.Props.ConvergenceComplex
import Verif.Props.AccuracyMore
import Verif.Props.RestState
import Verif.Props.LakeAtRest
import Verif.Props.Matvec
import Verif.Props.Gcrot
import Verif.Props.Exode
import Verif.Props.Matsuno
import Verif.Props.Slopes
import Verif.Props.Startup
import Verif.Props.MainScript
import Verif.Props.WriteResult
import Verif.Props.OutputFile
import Verif.Props.InitAtmosphere
import Verif.Props.FieldOperators
import Verif.Props.Filter
import Verif.Model.KrylovLowSync
import Verif.Spec.Arnoldi
import Verif.Lemmas.KrylovLowSync
import Verif.Props.KrylovLowSync
import Verif.Props.KrylovIncomplete
import Verif.Props.KrylovProcesses
import Verif.Model.Kernels
import Verif.Spec.Threads
import Verif.Lemmas.Kernels
import Verif.Props.Kernels
import Verif.Spec.Messages
import Verif.Lemmas.Messages
import Verif.Model.StiffPdes
import Verif.Spec.StiffPdes
import Verif.Lemmas.StiffPdes
import Verif.Lemmas.StiffStencil
import Verif.Props.StiffPdes
import Verif.Spec.Decomposition
import Verif.Lemmas.Decomposition
import Verif.Props.Decomposition
import Verif.Props.Decomposition3D
import Verif.Model.Calls
import Verif.Spec.ProcessCount
import Verif.Lemmas.Isometry
import Verif.Lemmas.Naturality
import Verif.Lemmas.Reorder
import Verif.Props.ProcessCount
import Verif.Props.ProcessCount3D
import Verif.Model.BlockStats
import Verif.Spec.BlockStats
import Verif.Props.BlockStats
import Verif.Model.Machine
import Verif.Spec.Machine
import Verif.Props.Machine
import Verif.Spec.MaxPrinciple
import Verif.Props.MaxPrinciple
import Verif.Props.MaxPrincipleShallow
import Verif.Props.MaxPrincipleSphere
import Verif.Lemmas.UniformTaylor
import Verif.Lemmas.BSeries
import Verif.Lemmas.Convergence
import Verif.Spec.Convergence
import Verif.Props.Convergence
import Verif.Props.ConvergenceMore
import Verif.Props.ConvergenceAdaptive
import Verif.Props.ConvergenceSecond
import Verif.Props.ConvergenceSplitting
import Verif.Spec.EpiConvergence
import Verif.Lemmas.EpiConvergence
import Verif.Lemmas.EpiRun
import Verif.Props.EpiConvergence
import Verif.Spec.Accuracy
import Verif.Props.Accuracy
import Verif.Spec.ErrorEstimate
import Verif.Props.ErrorEstimate
import Verif.Model.Assembly
import Verif.Spec.Assembly
import Verif.Props.Assembly
import Verif.Props.AssemblyFiles
import Verif.Props.SlopesEdge
import Verif.Props.SchemaFile
import Verif.Props.SchemaFileMore
import Verif.Props.Galewsky
import Verif.Props.ConfigPrint
import Verif.Props.InvariantCalls
import Verif.Props.InvariantCalls3D
import Verif.Props.Exchange
import Verif.Props.FactorizationLibrary
import Verif.Model.Ros2Call
import Verif.Props.InvariantNewton
import Verif.Model.Ros2Gcrot
import Verif.Props.InvariantGcrot
import Verif.Model.PrintSol
import Verif.Model.StepReport
import Verif.Model.ConfigCopy
import Verif.Model.RhsTimes
import Verif.Props.PrintSol
import Verif.Props.StepReport
import Verif.Props.ConfigCopy
import Verif.Model.SchemaTable
import Verif.Spec.SchemaTable
import Verif.Props.SchemaTable
import Verif.Props.BlockNumbers
import Verif.Props.RhsTimes
import Verif.Props.ProcessCountRos2
import Verif.Model.ExchangeHalo
import Verif.Props.ExchangeHalo
import Verif.Model.ProgressLine
import Verif.Props.ProgressLine
import Verif.Props.VortexSpeed
import Verif.Props.HadleyReturn
import Verif.Props.KrylovScaling
import Verif.Props.DelayedLoop
import Verif.Props.StatsRadii
import Verif.Props.DeformationStrength
