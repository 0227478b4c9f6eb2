import Verif.Spec.RMatrix
import Verif.Spec.Continuity

/-!
# Specification of the level matrix form of R-matrix theory (independent of the model)
-/

namespace Verif.Spec

open Complex

/-- The inverse of Wigner's level matrix:
`(A⁻¹)_λμ = (E_λ - E - i γ_λγ²) δ_λμ - Σ_c γ_λc L_c γ_μc`. -/
noncomputable def levelInverse (option : BoundaryOption) (channels : List Channel)
    (resonances : List Resonance) (energy : ℝ) (P S : Fin channels.length → ℝ) :
    Matrix (Fin resonances.length) (Fin resonances.length) ℂ :=
  Matrix.of fun i j =>
    (if i = j then (resonances[i].energy : ℂ) - energy - I * (resonances[i].eliminated : ℂ) ^ 2 else 0)
    - ∑ c, (amplitude channels energy resonances[i] c : ℂ) * logDerivative option channels P S c
      * amplitude channels energy resonances[j] c

/-- `T_cc' = sqrt(P_c) Σ_λμ γ_λc A_λμ γ_μc' sqrt(P_c')`. -/
noncomputable def levelTMatrix (option : BoundaryOption) (channels : List Channel)
    (resonances : List Resonance) (energy : ℝ) (P S : Fin channels.length → ℝ) :
    Matrix (Fin channels.length) (Fin channels.length) ℂ :=
  Matrix.of fun c c' => (Real.sqrt (P c) : ℂ)
    * (∑ i : Fin resonances.length, ∑ j : Fin resonances.length,
      (amplitude channels energy resonances[i] c : ℂ)
        * (levelInverse option channels resonances energy P S)⁻¹ i j
        * amplitude channels energy resonances[j] c')
    * (Real.sqrt (P c') : ℂ)

/-- What a spin group contributes to the cross section of one reaction, for a given T-matrix: the sum over the
incident channels of the cross sections to all channels of that reaction, and of the capture cross section. -/
noncomputable def contributionOf (K : Constants) (channels : List Channel) (energy : ℝ)
    (T : Matrix (Fin channels.length) (Fin channels.length) ℂ) (w phi : Fin channels.length → ℝ)
    (id : ReactionID) : ℝ :=
  ∑ c : Fin channels.length, if channels[c].isIncident then
    (∑ c' : Fin channels.length, if channels[c'].reaction = id then
      incidentFactor K channels energy * partialCrossSection (collision T w phi) w c c' else 0)
    + (if captureID channels = some id then
      incidentFactor K channels energy * captureCrossSection (collision T w phi) c else 0)
  else 0

/-- At the energy at most one of the resonances has neither a distance nor an eliminated width, and that one
has a width in an open channel. -/
structure Crossing (channels : List Channel) (resonances : List Resonance) (energy : ℝ) : Prop where
  once : ∀ i j : Fin resonances.length,
    resonances[i].energy = energy ∧ resonances[i].eliminated = 0 →
    resonances[j].energy = energy ∧ resonances[j].eliminated = 0 → i = j
  coupled : ∀ r ∈ resonances, r.energy = energy ∧ r.eliminated = 0 →
    ∃ c : Fin channels.length, amplitude channels energy r c ≠ 0

end Verif.Spec
