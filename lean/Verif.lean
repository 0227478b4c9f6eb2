import Verif.Props.Particles
import Verif.Props.QuantumNumbers
import Verif.Props.ChannelID
import Verif.Props.HardSphere
import Verif.Props.Coulomb
import Verif.Props.CoulombDerivative
import Verif.Props.SpinGroupConstruction
import Verif.Props.SpinGroup
import Verif.Props.SpinGroupSymmetry
import Verif.Props.SpinGroupMore
import Verif.Props.ChannelData
import Verif.Props.CompoundSystem
import Verif.Props.LegacyResolved
import Verif.Props.LegacyResolvedMore
import Verif.Props.LegacyResolvedExamples
import Verif.Props.Unresolved
import Verif.Props.UnresolvedGrid
import Verif.Props.Reconstructor
import Verif.Props.ReichMoore
import Verif.Props.LegacyFormula
import Verif.Props.Endf
import Verif.Props.RMatrixLimited
import Verif.Props.Arithmetic
import Verif.Props.OldStatistics
import Verif.Props.OldBreitWigner
import Verif.Props.OldAccepted
import Verif.Props.OldReichMoore
import Verif.Props.OldReichMooreAccepted
import Verif.Props.OldApply
import Verif.Props.BreitWignerRange
import Verif.Props.BreitWignerAccepted
import Verif.Props.UnresolvedRange
import Verif.Props.UnresolvedAccepted
import Verif.Props.Generations
import Verif.Props.RMatrixRange
import Verif.Props.RMatrixRangeMore
import Verif.Props.Competition
import Verif.Props.CompetitionMore
import Verif.Props.Continuity
import Verif.Props.ContinuityBreitWigner
import Verif.Props.ContinuityRange
import Verif.Props.ContinuityRMatrix
import Verif.Props.ContinuityThreshold
import Verif.Props.ContinuityUnresolved
import Verif.Props.OneLevel
import Verif.Spec.Unitarity
import Verif.Props.Unitarity
import Verif.Props.UnitarityRange
import Verif.Props.GridPoints
import Verif.Props.LowEnergy
import Verif.Props.Uncoupled
import Verif.Props.Parts
import Verif.Props.Boundary
import Verif.Props.Perturbation
import Verif.Props.Threshold
import Verif.Props.Riccati
import Verif.Props.WeakCoulomb
import Verif.Props.CoulombFar
import Verif.Props.CoulombRegular
import Verif.Props.Distant
import Verif.Props.BoundaryChange
import Verif.Props.Run
import Verif.Props.LowEnergyRange
import Verif.Props.DetailedBalance
import Verif.Props.Formats
import Verif.Props.Units
import Verif.Props.UnitsLegacy
import Verif.Props.Order
import Verif.Props.OrderMore
import Verif.Props.RMatrixRangeCharged
import Verif.Props.Fission
import Verif.Props.OrderOld
import Verif.Props.RangeBounds
import Verif.Props.Averages
import Verif.Props.Rotation
import Verif.Props.Newmark
import Verif.Props.CoulombIrregular
import Verif.Props.WidthFluctuations
import Verif.Props.UnitarityLimited
import Verif.Props.LegacyUnitarity
import Verif.Props.LimitedEnergies
import Verif.Props.LegacyAdditive
import Verif.Props.Barrier
import Verif.Props.LimitedGrid
import Verif.Props.PotentialScattering
import Verif.Props.TurningPoint
import Verif.Props.Elimination
import Verif.Props.Ladder
import Verif.Props.Interference
import Verif.Props.Isolated
import Verif.Props.LevelMatrix
import Verif.Props.LevelMatrixRange
import Verif.Props.Sensitivity
import Verif.Props.PerturbationLegacy
import Verif.Props.PerturbationUnresolved
import Verif.Props.SensitivityRange
import Verif.Props.Coincident
import Verif.Props.CoincidentOld
import Verif.Props.PotentialUnresolved
import Verif.Props.StrengthFunctions
import Verif.Props.PotentialOld
import Verif.Props.IdleRange
import Verif.Props.IdleOld
import Verif.Props.IdleReichMoore
import Verif.Props.UnitarityOld
import Verif.Props.PotentialLimited
import Verif.Props.OpticalLimited
import Verif.Props.IdleLimited
import Verif.Props.Shadow
import Verif.Props.ShadowRange
import Verif.Props.BoundaryChangeT
import Verif.Props.SymmetryT
import Verif.Props.PerturbationT
import Verif.Props.PotentialScatteringT
import Verif.Props.DetailedBalanceT
import Verif.Props.CoulombPhase
import Verif.Props.LevelMatrixT
import Verif.Props.BoundaryT
import Verif.Props.ContinuityT
import Verif.Props.PartsT
