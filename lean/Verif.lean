import Verif.Stencil
import Verif.StencilTables
import Verif.Streaming
import Verif.StreamingLemmas
import Verif.Sweep
import Verif.Spec.Streaming
import Verif.Props.Streaming
import Verif.Indexing
import Verif.Props.Indexing
import Verif.Boundary
import Verif.Props.Boundary
import Verif.BoundaryRules
import Verif.Props.BoundaryRules
import Verif.Props.BoundaryFormulas
import Verif.Communication
import Verif.Props.Communication
import Verif.PeriodicAccess
import Verif.Props.PeriodicAccess
import Verif.StencilCtor
import Verif.Props.StencilProps
import Verif.Moments
import Verif.MomentsLemmas
import Verif.Props.Moments
import Verif.Props.Aliasing
import Verif.MomentSets
import Verif.MomentCertificates
import Verif.Props.MomentSets
import Verif.GramSchmidt
import Verif.Props.GramSchmidt
import Verif.Collision
import Verif.Props.Collision
import Verif.Props.CollisionModels
import Verif.SymbolicRates
import Verif.Props.SymbolicRates
import Verif.Maxwellian
import Verif.Props.Maxwellian
import Verif.Props.Equilibrium
import Verif.ForceModels
import Verif.Props.ForceModels
import Verif.Macroscopic
import Verif.Props.Macroscopic
import Verif.Props.HydroMethods
import Verif.MomentEquations
import Verif.Props.MomentEquations
import Verif.Parameters
import Verif.Props.Parameters
import Verif.Welford
import Verif.Props.Welford
import Verif.Psm
import Verif.Props.Psm
import Verif.Turbulence
import Verif.Props.Turbulence
import Verif.RelaxationInfo
import Verif.Props.RelaxationInfo
import Verif.TimeLoop
import Verif.Props.TimeLoop
import Verif.Sparse
import Verif.Props.Sparse
import Verif.Shuffle
import Verif.Cumulants
import Verif.Props.Cumulants
import Verif.SymSplit
import Verif.Props.SymSplit
import Verif.Chimera
import Verif.Props.Chimera
import Verif.Continuous
import Verif.ContinuousLemmas
import Verif.Props.Continuous
import Verif.Matching
import Verif.Props.Matching
import Verif.CumulantTransform
import Verif.Props.CumulantTransform
import Verif.CentralMoments
import Verif.MomentExpansions
import Verif.Props.ShiftMatrix
import Verif.Props.CentralMoments
import Verif.CumulantMethod
import Verif.Props.CumulantMethod
import Verif.Props.CumulantEquilibrium
import Verif.Corrections
import Verif.Props.Corrections
import Verif.Config
import Verif.Props.Config
import Verif.WallFunctions
import Verif.Props.WallFunctions
import Verif.Entropic
import Verif.Props.Entropic
import Verif.Fluctuating
import Verif.Props.Fluctuating
import Verif.AllenCahn
import Verif.Props.AllenCahn
import Verif.Props.ContactAngle
import Verif.AllenCahnScenarios
import Verif.Props.AllenCahnScenarios
import Verif.PhaseField
import Verif.Props.PhaseField
import Verif.PressureTensor
import Verif.Props.PressureTensor
import Verif.Eos
import Verif.Props.Eos
import Verif.CahnHilliardLb
import Verif.Props.CahnHilliardLb
import Verif.Boyer
import Verif.Props.Boyer
import Verif.ChapmanEnskog
import Verif.Props.ChapmanEnskog
import Verif.SteadyState
import Verif.Props.SteadyState
import Verif.InKernel
import Verif.Props.InKernel
import Verif.SimplexProjection
import Verif.Props.SimplexProjection
import Verif.OldroydB
import Verif.Props.OldroydB
import Verif.Geometry
import Verif.Props.Geometry
import Verif.SplitGroups
import Verif.Props.SplitGroups
import Verif.Props.ChapmanEnskogErrors
import Verif.FastBackward
import Verif.Props.FastBackward
import Verif.QuadraticEq
import Verif.Props.QuadraticEq
import Verif.FdStencils
import Verif.Props.FdStencils
import Verif.PostProcessing
import Verif.Props.PostProcessing
import Verif.Props.Circles
import Verif.Props.TriplePoints
import Verif.PsmKernel
import Verif.Props.PsmKernel
import Verif.CopyBoundaries
import Verif.Props.CopyBoundaries
import Verif.BoyerCoefficients
import Verif.Props.BoyerCoefficients
import Verif.Simplify
import Verif.Props.Simplify
import Verif.HeatSolver
import Verif.Props.HeatSolver
import Verif.Microchannel
import Verif.Props.Microchannel
import Verif.HighDensityRatio
import Verif.Props.HighDensityRatio
import Verif.PhaseKernels
import Verif.Props.PhaseKernels
import Verif.IterativeInit
import Verif.Props.IterativeInit
import Verif.GhostLayers
import Verif.Props.GhostLayers
import Verif.PhaseFieldRun
import Verif.Props.PhaseFieldRun
import Verif.Nestler
import Verif.Props.Nestler
import Verif.Derivatives
import Verif.Props.DerivativeMoments
import Verif.Props.Derivatives
import Verif.Props.DerivativeWeights
import Verif.CentralTransforms
import Verif.Props.CentralTransforms
import Verif.Props.CentralTransformsOffered
import Verif.HeCentral
import Verif.Props.HeCentral
import Verif.SymbolicForce
import Verif.Props.SymbolicForce
import Verif.RawTransforms
import Verif.Props.RawTransforms
import Verif.Props.RawTransformsWitness
import Verif.GpuCopy
import Verif.Props.GpuCopy
import Verif.CentralForcing
import Verif.Props.CentralForcing
import Verif.CompiledMacro
import Verif.Props.CompiledMacro
import Verif.StrainRate
import Verif.Props.StrainRate
import Verif.EdmSubst
import Verif.Props.EdmSubst
import Verif.SparseBoundary
import Verif.Props.SparseBoundary
import Verif.Props.Musker
import Verif.OutflowInit
import Verif.Props.OutflowInit
import Verif.Spec.Simulation
import Verif.LbSimulation
import Verif.Props.LbSimulation
import Verif.Spec.Channel
import Verif.Props.Poiseuille
import Verif.Props.PoiseuilleMethods
import Verif.Props.Couette
import Verif.VelocityInput
import Verif.Props.Diffusion
import Verif.Spec.Decay
import Verif.Props.Decay
import Verif.Props.DecaySimulation
import Verif.Props.DecayMethods
import Verif.Props.Stokes
import Verif.Spec.Stokes
import Verif.Props.StokesMethods
import Verif.IncompressibleMoments
import Verif.Props.IncompressibleMoments
import Verif.TakeMoments
import Verif.Spec.TakeMoments
import Verif.Props.TakeMoments
import Verif.NavierStokesMatch
import Verif.Spec.NavierStokes
import Verif.Props.NavierStokesMatch
import Verif.ZeroConditions
import Verif.Spec.ZeroConditions
import Verif.Props.ZeroConditions
import Verif.ChainSolve
import Verif.Spec.ChainSolve
import Verif.Props.ChainSolve
import Verif.CopyKernel
import Verif.Props.CopyKernel
import Verif.DomainSize
import Verif.Props.DomainSize
import Verif.MomentShift
import Verif.Props.MomentShift
import Verif.BulkInterface
import Verif.Props.BulkInterface
import Verif.Concentrations
import Verif.Props.Concentrations
import Verif.InitialProfiles
import Verif.Props.InitialProfiles
import Verif.DiscreteEntropy
import Verif.Props.DiscreteEntropy
import Verif.CeSubst
import Verif.Props.CeSubst
import Verif.HigherOrder
import Verif.Props.HigherOrder
import Verif.DerivExpansion
import Verif.Props.DerivExpansion
import Verif.EqualityTable
import Verif.Props.EqualityTable
import Verif.MaskedSlice
import Verif.Props.MaskedSlice
import Verif.ImageMask
import Verif.Props.ImageMask
import Verif.ScalingWidget
import Verif.Props.ScalingWidget
import Verif.DropSetup
import Verif.Props.DropSetup
import Verif.InsertSubexpressions
import Verif.Props.InsertSubexpressions
