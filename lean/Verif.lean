import Verif.Lemmas.AdamLimit
import Verif.Lemmas.AscentPath
import Verif.Lemmas.BornContraction
import Verif.Lemmas.CoarseSim
import Verif.Lemmas.ConeSteps
import Verif.Lemmas.Covariant
import Verif.Lemmas.Descent
import Verif.Lemmas.DescentLimit
import Verif.Lemmas.Device
import Verif.Lemmas.Filter
import Verif.Lemmas.Frame
import Verif.Lemmas.Frequencies
import Verif.Lemmas.Gradient
import Verif.Lemmas.GradientApprox
import Verif.Lemmas.GradientEz
import Verif.Lemmas.GradientHz
import Verif.Lemmas.GradientKerr
import Verif.Lemmas.GradientKerrEz
import Verif.Lemmas.GradientPath
import Verif.Lemmas.Grid
import Verif.Lemmas.GuidedLemmas
import Verif.Lemmas.Implicit
import Verif.Lemmas.ImplicitBranch
import Verif.Lemmas.Kerr
import Verif.Lemmas.KerrAccurate
import Verif.Lemmas.KerrBranch
import Verif.Lemmas.KerrDominant
import Verif.Lemmas.KerrGradient
import Verif.Lemmas.KerrProblem
import Verif.Lemmas.KerrRun
import Verif.Lemmas.KerrUniform
import Verif.Lemmas.Layers
import Verif.Lemmas.Linalg
import Verif.Lemmas.LowPower
import Verif.Lemmas.NewtonContraction
import Verif.Lemmas.NewtonWitness
import Verif.Lemmas.NlSolve
import Verif.Lemmas.NonlinearWitness
import Verif.Lemmas.Objectives
import Verif.Lemmas.OptFrame
import Verif.Lemmas.PlaneWaves
import Verif.Lemmas.Pml
import Verif.Lemmas.Relabel
import Verif.Lemmas.Ring
import Verif.Lemmas.RoundBits
import Verif.Lemmas.RoundMatrix
import Verif.Lemmas.RunInv
import Verif.Lemmas.Runnable
import Verif.Lemmas.SameProblem
import Verif.Lemmas.ShiftWitness
import Verif.Lemmas.Sim
import Verif.Lemmas.Smooth
import Verif.Lemmas.SolveAll
import Verif.Lemmas.Solvers
import Verif.Lemmas.Stable
import Verif.Lemmas.SymAscent
import Verif.Lemmas.Tanh
import Verif.Lemmas.Twist
import Verif.Lemmas.TwistSim
import Verif.Lemmas.WellPosed
import Verif.Lemmas.WellPosedHz
import Verif.Lemmas.Witness
import Verif.Model.Accelerator
import Verif.Model.Adjoint
import Verif.Model.Animation
import Verif.Model.Binarizer
import Verif.Model.Calls
import Verif.Model.Constants
import Verif.Model.Derivatives
import Verif.Model.DesignRegion
import Verif.Model.Device
import Verif.Model.Filter
import Verif.Model.Flux
import Verif.Model.Gradients
import Verif.Model.GradientsAvg
import Verif.Model.Grid
import Verif.Model.Heap
import Verif.Model.Krylov
import Verif.Model.KrylovBranch
import Verif.Model.Linalg
import Verif.Model.Mode
import Verif.Model.NonlinearNotebook
import Verif.Model.NonlinearSolvers
import Verif.Model.Nonlinearity
import Verif.Model.Objective
import Verif.Model.OptInit
import Verif.Model.OptRun
import Verif.Model.Optimization
import Verif.Model.PaperFigures
import Verif.Model.Plots
import Verif.Model.Pml
import Verif.Model.PortObjectives
import Verif.Model.Programs
import Verif.Model.Py
import Verif.Model.Reshape
import Verif.Model.Rounded
import Verif.Model.RoundedMatrix
import Verif.Model.RoundedMatrixHz
import Verif.Model.ScanPower
import Verif.Model.Simulation
import Verif.Model.Structures
import Verif.Model.UnitTests
import Verif.Model.Utils
import Verif.Props.Accelerator
import Verif.Props.AcceleratorStart
import Verif.Props.Adam
import Verif.Props.AdamAscent
import Verif.Props.Amplitude
import Verif.Props.Ascent
import Verif.Props.AscentConverge
import Verif.Props.AscentHz
import Verif.Props.AscentKerr
import Verif.Props.AscentPath
import Verif.Props.AscentStart
import Verif.Props.Assembly
import Verif.Props.AssemblyHz
import Verif.Props.Binarizer
import Verif.Props.BornConverges
import Verif.Props.BornInexact
import Verif.Props.Caching
import Verif.Props.Calls
import Verif.Props.CheckDeriv
import Verif.Props.CheckDerivState
import Verif.Props.CheckInexact
import Verif.Props.Complex2Real
import Verif.Props.Derivatives
import Verif.Props.DesignRegion
import Verif.Props.Device
import Verif.Props.FeatureSize
import Verif.Props.Filter
import Verif.Props.FilterMore
import Verif.Props.Flux
import Verif.Props.Frequencies
import Verif.Props.Gauge
import Verif.Props.Geometry
import Verif.Props.GradientApprox
import Verif.Props.GradientBorder
import Verif.Props.GradientEz
import Verif.Props.GradientHz
import Verif.Props.GradientKerr
import Verif.Props.GradientOutside
import Verif.Props.GradientsAvg
import Verif.Props.Guided
import Verif.Props.GuidedLimits
import Verif.Props.History
import Verif.Props.Inexact
import Verif.Props.Kerr
import Verif.Props.KerrBorder
import Verif.Props.KerrInexact
import Verif.Props.KerrRun
import Verif.Props.Krylov
import Verif.Props.KrylovBranch
import Verif.Props.Lbfgs
import Verif.Props.LbfgsInexact
import Verif.Props.LbfgsValues
import Verif.Props.Maxwell
import Verif.Props.Metal
import Verif.Props.Mirror
import Verif.Props.Mode
import Verif.Props.NewtonConverges
import Verif.Props.NewtonInexact
import Verif.Props.Nonlinear
import Verif.Props.NonlinearSolve
import Verif.Props.Objective
import Verif.Props.OneD
import Verif.Props.OptRun
import Verif.Props.PaperFigures
import Verif.Props.PlotScan
import Verif.Props.Plots
import Verif.Props.Pml
import Verif.Props.PmlProfile
import Verif.Props.PortObjectives
import Verif.Props.Power
import Verif.Props.Projection
import Verif.Props.Rejects
import Verif.Props.Resonance
import Verif.Props.Resume
import Verif.Props.Reversal
import Verif.Props.Rounded
import Verif.Props.RunInexact
import Verif.Props.RunLogs
import Verif.Props.Scan
import Verif.Props.ScanPower
import Verif.Props.SelfPhase
import Verif.Props.SelfPhaseLine
import Verif.Props.Several
import Verif.Props.Sharing
import Verif.Props.SimState
import Verif.Props.Solvable
import Verif.Props.Spacing
import Verif.Props.Spectrum
import Verif.Props.Structures
import Verif.Props.Symmetric
import Verif.Props.TimeDomain
import Verif.Props.Tolerance
import Verif.Props.Translate
import Verif.Props.Transpose
import Verif.Props.Uniform
import Verif.Props.UnitTests
import Verif.Props.Units
import Verif.Props.Utils
import Verif.Props.Workflow
import Verif.Spec.Calculus
import Verif.Spec.Maxwell
