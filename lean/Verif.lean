import Verif.NumPy
import Verif.NumPyLemmas
import Verif.Spec.Legendre
import Verif.Spec.RTE
import Verif.Model.GenSol
import Verif.Model.MathscrV
import Verif.Model.Coeffs
import Verif.Model.Assemble
import Verif.GenLemmas
import Verif.LegendreLemmas
import Verif.EigenLemmas
import Verif.SlotLemmas
import Verif.MathscrLemmas
import Verif.CoefRhs
import Verif.CoefLhs
import Verif.CoefBand
import Verif.CoefSolve
import Verif.CoefBC
import Verif.Subroutines.Core
import Verif.Model.NT
import Verif.Model.Pydisort
import Verif.Spec.Problem
import Verif.AsmLemmas
import Verif.DepthLemmas
import Verif.AffineLemmas
import Verif.Spec.Validation
import Verif.PrepLemmas
import Verif.OpticsLemmas
import Verif.CoreLemmas
import Verif.Spec.Field
import Verif.FieldLemmas
import Verif.EvalLemmas
import Verif.CosLemmas
import Verif.Props.Transfer
import Verif.Energy
import Verif.EigInv
import Verif.GenSuccess
import Verif.CoefSuccess
import Verif.PosDiagLemmas
import Verif.Spec.Solvable
import Verif.SuccessLemmas
import Verif.LegendreOrtho
import Verif.Dissipation
import Verif.Spec.Solution
import Verif.Uniqueness
import Verif.GaussExists
import Verif.Witness
import Verif.Props.WellPosed
import Verif.FluxLemmas
import Verif.Spec.Flux
import Verif.Props.Flux
import Verif.Spec.Eigen
import Verif.Props.Eigen
import Verif.Props.Overflow
import Verif.Props.Vectorised
import Verif.NTLemmas
import Verif.Props.Evaluate
import Verif.Props.DeltaM
import Verif.Props.Validation
import Verif.Spec.Same
import Verif.Stability
import Verif.SameEval
import Verif.Props.Invariance
import Verif.Spec.Linear
import Verif.Homogeneous
import Verif.Spec.Fields
import Verif.FieldsLemmas
import Verif.Props.Linear
import Verif.Spec.Split
import Verif.SplitLemmas
import Verif.Props.Layers
import Verif.Spec.Absorbing
import Verif.Props.Absorbing
import Verif.Spec.Anti
import Verif.AntiLemmas
import Verif.Props.Anti
import Verif.Spec.Estimate
import Verif.Props.Estimate
import Verif.Subroutines.Actinic
import Verif.Props.Actinic
import Verif.Spec.Corrections
import Verif.CorrLemmas
import Verif.WitnessNT
import Verif.Props.Corrections
import Verif.Props.CorrAnti
import Verif.Spec.Tools
import Verif.Props.Tools
import Verif.Subroutines.Quad
import Verif.QuadLemmas
import Verif.Props.ClenshawCurtis
import Verif.Subroutines.FD
import Verif.Props.FD
import Verif.Subroutines.Thermal
import Verif.Spec.Thermal
import Verif.Props.Thermal
import Verif.Subroutines.Diag
import Verif.Props.Diag
import Verif.Subroutines.Interp
import Verif.Spec.Interp
import Verif.InterpLemmas
import Verif.Props.Interp
import Verif.Subroutines.Cache
import Verif.Props.Cache
import Verif.MinPrinciple
import Verif.Spec.Bounds
import Verif.Props.Bounds
import Verif.Spec.Enclosure
import Verif.Props.Enclosure
import Verif.Spec.Reciprocity
import Verif.Props.Reciprocity
import Verif.LegendreRec
import Verif.Addition
import Verif.Spec.Azimuth
import Verif.AzimuthLemmas
import Verif.Props.Azimuth
import Verif.Spec.Similar
import Verif.SimilarLemmas
import Verif.FlipLemmas
import Verif.AgreeLemmas
import Verif.CutLemmas
import Verif.Props.Similar
import Verif.Props.Rotation
import Verif.Props.Flip
import Verif.Props.Agree
import Verif.Props.Cut
import Verif.DiffLemmas
import Verif.Props.Compare
import Verif.Model.Returned
import Verif.Spec.Returned
import Verif.ReturnedLemmas
import Verif.Props.Returned
import Verif.WitnessIso
import Verif.Props.Silent
import Verif.Model.Warnings
import Verif.Spec.Warnings
import Verif.Props.Warnings
import Verif.Spec.Reflecting
import Verif.ReflectingLemmas
import Verif.Props.Reflecting
import Verif.Props.ReflectingAzimuth
import Verif.Props.AntiCorrected
import Verif.Props.AntiSource
import Verif.Props.Neighbours
import Verif.Spec.Resonance
import Verif.ResonanceLemmas
import Verif.Props.Resonance
import Verif.Spec.Defined
import Verif.Props.Defined
import Verif.Subroutines.Compare
import Verif.Spec.Report
import Verif.CompareLemmas
import Verif.Props.Report
import Verif.Subroutines.Handed
import Verif.HandedLemmas
import Verif.Props.Handed
import Verif.Props.AntiActinic
import Verif.Props.Screening
import Verif.Props.EvalArrays
import Verif.Model.NTArr
import Verif.NTArrLemmas
import Verif.Props.CorrArrays
import Verif.Spec.Neglect
import Verif.Props.Neglect
import Verif.Spec.Screen
import Verif.Props.Decay
import Verif.Props.Deep
import Verif.Props.Memory
import Verif.Props.Emission
import Verif.Props.TwoStream
import Verif.Props.Retuned
import Verif.Props.Rounded
import Verif.Props.Exact
import Verif.Props.Existence
import Verif.SlabLemmas
import Verif.ModeSlab
import Verif.ModeConvergence
import Verif.Spec.Sky
import Verif.SkyLemmas
import Verif.SkyUnique
import Verif.Props.Sky
import Verif.Spec.Full
import Verif.FullLemmas
import Verif.FullBound
import Verif.FullSlab
import Verif.Props.Full
import Verif.Props.FullExists
import Verif.Transport
import Verif.Spec.FullSky
import Verif.KernelIntegral
import Verif.WholeLemmas
import Verif.WholeSlab
import Verif.Props.Whole
import Verif.Spec.Kept
import Verif.Kept
import Verif.KernelQuad
import Verif.Props.Kept
import Verif.WholeBound
import Verif.Spec.WholeLimit
import Verif.Props.WholeLimit
import Verif.Props.Floor
import Verif.Spec.CutOff
import Verif.Props.Corrected
import Verif.Spec.AzMean
import Verif.AzMean
import Verif.Props.AzMean
import Verif.WholeOrder
import Verif.Spec.Order
import Verif.Props.Order
import Verif.Model.NonFinite
import Verif.NonFiniteLemmas
import Verif.Spec.NonFinite
import Verif.Props.NonFinite
import Verif.Spec.Deep
import Verif.DeepLemmas
import Verif.Props.Thick
import Verif.Model.Endless
import Verif.Spec.Endless
import Verif.EndlessLemmas
import Verif.EndlessSolve
import Verif.EndlessField
import Verif.EndlessUnique
import Verif.EndlessMode
import Verif.EndlessEval
import Verif.EndlessFinite
import Verif.Props.Endless
import Verif.Model.IntDepth
import Verif.Spec.IntDepth
import Verif.Props.IntDepth
import Verif.Spec.Inexact
import Verif.InexactLemmas
import Verif.Props.Inexact
import Verif.Model.IntLeg
import Verif.Props.IntLeg
import Verif.Model.Underflow
import Verif.Spec.Underflow
import Verif.UnderflowLemmas
import Verif.Props.Underflow
import Verif.Model.Exponents
import Verif.Spec.Exponents
import Verif.ExponentsLhs
import Verif.ExponentsEnergy
import Verif.ExponentsRhs
import Verif.ExponentsSolve
import Verif.ExponentsBC
import Verif.Props.Exponents
import Verif.Props.QuadConverge
import Verif.Model.Unsigned
import Verif.Spec.Unsigned
import Verif.Props.Unsigned
import Verif.Model.UnsignedDepth
import Verif.Props.UnsignedDepth
import Verif.Model.Poch
import Verif.Spec.Poch
import Verif.PochLemmas
import Verif.PochDark
import Verif.PochSuccess
import Verif.Props.Poch
import Verif.PochAgree
import Verif.Props.PochModes
import Verif.Model.Overflow
import Verif.Spec.Overflow
import Verif.OverflowLemmas
import Verif.Props.LpOverflow
import Verif.EvalArrLemmas
import Verif.FormalSolution
import Verif.MathscrArrLemmas
import Verif.MemoryLemmas
import Verif.Model.EvalArr
import Verif.Model.Memory
import Verif.Model.Rounded
import Verif.Props.Continuum
import Verif.Props.Convergence
import Verif.QuadratureLemmas
import Verif.RoundingLemmas
import Verif.Spec.Continuum
import Verif.Spec.Emission
import Verif.Spec.Float
import Verif.Spec.Memory
import Verif.Spec.PolySolution
import Verif.Spec.Retuned
import Verif.Spec.Rounded
import Verif.Spec.TwoStream
import Verif.Spec.Vectorised
import Verif.Subroutines.MathscrArr
import Verif.EigSame
import Verif.Props.Eigenvectors
import Verif.GaussUnique
import Verif.Spec.Libraries
import Verif.Props.FewerModes
import Verif.Props.Midpoint
import Verif.Spec.Smooth
import Verif.Props.Smooth
import Verif.Props.Clear
import Verif.Props.Pressure
