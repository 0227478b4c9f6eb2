import Verif.Spec.RMatrix
import Verif.Spec.Continuity
import Mathlib.Data.Nat.Factorial.DoubleFactorial

/-!
# Cross sections just above the threshold of a reaction

Wigner's law: the cross section of a reaction in which a neutron leaves with the orbital angular momentum `l`
grows with the power `l + 1/2` of the energy above the threshold.
-/

namespace Verif.Spec

open Complex Nat

/-- The matrix `(1 - R L)⁻¹ R` at an energy, where `P` and `S` are the penetrabilities and shift factors. -/
noncomputable def resonanceMatrix (option : BoundaryOption) (channels : List Channel)
    (resonances : List Resonance) (energy : ℝ) (P S : Fin channels.length → ℝ) :
    Matrix (Fin channels.length) (Fin channels.length) ℂ :=
  (levelDenominator option channels resonances energy P S)⁻¹ * rMatrix channels resonances energy

/-- The quotient of the penetrability `ρ^(2l+1) / ((2l-1)!!)²` of a neutron channel with a small channel ratio
`ρ` and the power `l + 1/2` of the energy above its threshold. -/
noncomputable def thresholdPenetrability (K : Constants) (c : Channel) (threshold radius : ℝ) : ℝ :=
  (c.waveNumber K (threshold + 1) * radius) ^ (2 * c.numbers.l + 1) / ((2 * c.numbers.l - 1)‼ : ℝ) ^ 2

/-- The limit of the quotient of the cross section and the power `l + 1/2` of the energy above the threshold:
`π/k² g 4 P_c |M_cc'|²` times the above for the channels of the reaction with the angular momentum `l`. -/
noncomputable def thresholdReaction (K : Constants) (channels : List Channel)
    (M : Matrix (Fin channels.length) (Fin channels.length) ℂ) (threshold : ℝ) (P a : Fin channels.length → ℝ)
    (id : ReactionID) (l : ℕ) : ℝ :=
  ∑ c : Fin channels.length, if channels[c].isIncident then
    ∑ c' : Fin channels.length, if channels[c'].reaction = id ∧ channels[c'].numbers.l = l then
      incidentFactor K channels threshold * (4 * P c
        * (thresholdPenetrability K channels[c'] threshold (a c') * normSq (M c c')))
    else 0
  else 0

/-- A channel without charge whose radii are continuous at the energy. -/
structure SmoothChannel (c : Channel) (energy : ℝ) : Prop where
  neutral : c.type ≠ .charged
  penetrability : ContinuousRadius c.radii.penetrability energy
  nonneg : c.type = .neutron →
    ∀ᶠ E in nhds energy, ∀ a, c.radii.penetrability E = .ok a → 0 ≤ a
  shiftFactor : ContinuousRadius c.radii.shiftFactor energy
  phaseShift : ContinuousRadius c.radii.phaseShift energy
  massRatio : 0 < c.incident.massRatio

/-- The channels of a reaction open at the energy: they are neutron channels with an angular momentum of at
least `l` and not incident ones. -/
structure OpensAt (channels : List Channel) (energy : ℝ) (id : ReactionID) (l : ℕ) : Prop where
  notCapture : captureID channels ≠ some id
  neutron : ∀ c ∈ channels, c.reaction = id → c.type = .neutron
  notIncident : ∀ c ∈ channels, c.reaction = id → ¬ c.isIncident
  threshold : ∀ c ∈ channels, c.reaction = id → AtThreshold c energy
  reducedMass : ∀ c ∈ channels, c.reaction = id → 0 < c.pair.reducedMass
  momentum : ∀ c ∈ channels, c.reaction = id → l ≤ c.numbers.l

/-- `v` is the limit at the threshold for a spin group that can be evaluated there. -/
def ThresholdLimit (option : BoundaryOption) (K : Constants) (lib : CoulombLibrary) (channels : List Channel)
    (resonances : List Resonance) (threshold : ℝ) (id : ReactionID) (l : ℕ) (v : ℝ) : Prop :=
  (∀ c ∈ channels, SmoothChannel c threshold) ∧ OpensAt channels threshold id l ∧
  ∃ P S w phi a, Evaluable option K lib channels resonances threshold P S w phi ∧
    (∀ i : Fin channels.length, channels[i].radii.penetrability threshold = .ok (a i)) ∧
    v = thresholdReaction K channels (resonanceMatrix option channels resonances threshold P S) threshold P a
      id l

end Verif.Spec
