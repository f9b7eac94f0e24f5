import Verif.Model.AdaptiveOdeint
import Verif.Model.AdjointFlat
import Verif.Model.Api
import Verif.Model.BatchEvents
import Verif.Model.Controller
import Verif.Model.DEFunc
import Verif.Model.Datasets
import Verif.Model.DenseOutput
import Verif.Model.DictState
import Verif.Model.Energy
import Verif.Model.FixedOdeint
import Verif.Model.FloatTime
import Verif.Model.GalConv
import Verif.Model.Hybrid
import Verif.Model.Hyper
import Verif.Model.ImplicitEuler
import Verif.Model.Interp
import Verif.Model.InterpAdjoint
import Verif.Model.Layers
import Verif.Model.MixedTypes
import Verif.Model.MshootingCall
import Verif.Model.MultipleShooting
import Verif.Model.NeuralModels
import Verif.Model.OdeRnn
import Verif.Model.OdeShapes
import Verif.Model.OdeintCall
import Verif.Model.ParallelEuler
import Verif.Model.Precision
import Verif.Model.ProblemSetup
import Verif.Model.Py
import Verif.Model.Root
import Verif.Model.RootCall
import Verif.Model.RootLogger
import Verif.Model.Sde
import Verif.Model.SdeShapes
import Verif.Model.Sensitivity
import Verif.Model.Steppers
import Verif.Model.StochasticHybrid
import Verif.Model.Symplectic
import Verif.Model.SystemModules
import Verif.Model.Systems
import Verif.Model.Tableau
import Verif.Model.Templates
import Verif.Model.ToyDataset
import Verif.Model.Traced
import Verif.Model.TracedAdaptive
import Verif.Model.TracedControl
import Verif.Model.TracedGalerkin
import Verif.Model.TracedHybrid
import Verif.Proofs.AdaptiveApi
import Verif.Proofs.AdaptiveOdeint
import Verif.Proofs.BSeries
import Verif.Proofs.Broyden
import Verif.Proofs.Convergence
import Verif.Proofs.DEFunc
import Verif.Proofs.DenseOutput
import Verif.Proofs.FixedOdeint
import Verif.Proofs.FloatTime
import Verif.Proofs.Hybrid
import Verif.Proofs.Ode
import Verif.Proofs.Order
import Verif.Proofs.Pinverse
import Verif.Proofs.QuietRun
import Verif.Proofs.QuietStart
import Verif.Proofs.Sde
import Verif.Proofs.Shooting
import Verif.Proofs.Termination
import Verif.Proofs.Trees
import Verif.Proofs.UniformOrder
import Verif.Props.Adaptive
import Verif.Props.AdaptiveAccuracy
import Verif.Props.AdaptiveCheckpoints
import Verif.Props.AdaptiveGradients
import Verif.Props.AdaptiveMore
import Verif.Props.AdaptiveTermination
import Verif.Props.AdaptiveUniform
import Verif.Props.Adjoint
import Verif.Props.AdjointCheckpoints
import Verif.Props.AdjointGradient
import Verif.Props.AdjointNumerics
import Verif.Props.AdjointSeminorm
import Verif.Props.Autograd
import Verif.Props.AutogradAdaptive
import Verif.Props.AutogradConvergence
import Verif.Props.AutogradHybrid
import Verif.Props.AutogradHybridGradient
import Verif.Props.BatchEvents
import Verif.Props.BatchTolerance
import Verif.Props.BouncingBall
import Verif.Props.Cnf
import Verif.Props.CnfDensity
import Verif.Props.CnfHnn
import Verif.Props.CnfNumerics
import Verif.Props.Complements
import Verif.Props.DEFunc
import Verif.Props.Datasets
import Verif.Props.DenseOutput
import Verif.Props.DictState
import Verif.Props.Energy
import Verif.Props.EnergyDescent
import Verif.Props.EnergyDrift
import Verif.Props.EquilibriumAdaptive
import Verif.Props.FixedNumerics
import Verif.Props.FixedStep
import Verif.Props.FloatTime
import Verif.Props.GalConv
import Verif.Props.GradientFlow
import Verif.Props.Hybrid
import Verif.Props.HybridEvents
import Verif.Props.HybridNear
import Verif.Props.HybridTermination
import Verif.Props.HybridWitness
import Verif.Props.Hyper
import Verif.Props.HyperLocal
import Verif.Props.ImplicitEuler
import Verif.Props.IntegralLoss
import Verif.Props.IntegralLossModel
import Verif.Props.InterpAdjoint
import Verif.Props.InterpGradients
import Verif.Props.InterpOrder
import Verif.Props.InterpSpline
import Verif.Props.Interpolation
import Verif.Props.Jagged
import Verif.Props.Layers
import Verif.Props.LeapfrogOrder
import Verif.Props.LinearGrowth
import Verif.Props.LocalConvergence
import Verif.Props.LongTime
import Verif.Props.LongTimeAdaptive
import Verif.Props.MixedTypes
import Verif.Props.MixedTypesWiden
import Verif.Props.MshootingCall
import Verif.Props.NeuralModels
import Verif.Props.OdeRnn
import Verif.Props.OdeShapes
import Verif.Props.OdeintCall
import Verif.Props.OneStep
import Verif.Props.Order
import Verif.Props.OrderSharp
import Verif.Props.ParallelEuler
import Verif.Props.PararealError
import Verif.Props.Perturbation
import Verif.Props.Precision
import Verif.Props.ProblemSetup
import Verif.Props.QuietStart
import Verif.Props.Rk4Gradients
import Verif.Props.Rk4Time
import Verif.Props.Root
import Verif.Props.RootCall
import Verif.Props.RootConvergence
import Verif.Props.RootPerSample
import Verif.Props.RootTermination
import Verif.Props.RoundTrip
import Verif.Props.Sde
import Verif.Props.SdeAccuracy
import Verif.Props.SdeLimit
import Verif.Props.SdeMoments
import Verif.Props.SdeOrder
import Verif.Props.SdeShapes
import Verif.Props.SdeStrong
import Verif.Props.Seminorm
import Verif.Props.Sensitivity
import Verif.Props.Shooting
import Verif.Props.SplineError
import Verif.Props.StepCost
import Verif.Props.StepLimits
import Verif.Props.StochasticEvents
import Verif.Props.StochasticEventsLaw
import Verif.Props.Structure
import Verif.Props.Symmetry
import Verif.Props.Symplectic
import Verif.Props.SymplecticReversed
import Verif.Props.SystemModules
import Verif.Props.Systems
import Verif.Props.Templates
import Verif.Props.Tolerance
import Verif.Props.ToyDataset
import Verif.Props.TracedControl
import Verif.Props.TracedGalerkin
import Verif.Props.UniformConvergence
import Verif.Props.Units
import Verif.Props.UnusedInputs
import Verif.Props.Utilities
import Verif.Spec.Adaptive
import Verif.Spec.BackPass
import Verif.Spec.BatchTolerance
import Verif.Spec.BouncingBall
import Verif.Spec.ClockEvents
import Verif.Spec.ExpThresholds
import Verif.Spec.Flow
import Verif.Spec.GraphRun
import Verif.Spec.Grid
import Verif.Spec.Hybrid
import Verif.Spec.OneStep
import Verif.Spec.Sde
import Verif.Spec.Shooting
import Verif.Spec.Spline
