import Verif.Spec.RMatrix

/-!
# The single-level Breit-Wigner formula

The cross sections of one isolated resonance, in terms of its partial widths, its total width and the
energy at which it appears. `P`, `S`, `w` and `phi` are the penetrabilities, shift factors, Coulomb
phase shifts and hard-sphere phase shifts of the channels at the energy.
-/

namespace Verif.Spec

section

variable (channels : List Channel) (r : Resonance) (energy : ℝ)

/-- `Γ_c = 2 P_c γ_c²`, zero in a closed channel. -/
noncomputable def partialWidth (P : Fin channels.length → ℝ) (c : Fin channels.length) : ℝ :=
  2 * P c * amplitude channels energy r c ^ 2

/-- `Γ = Γ_γ + Σ_c Γ_c` with `Γ_γ = 2 γ_γ²`. -/
noncomputable def totalWidth (P : Fin channels.length → ℝ) : ℝ :=
  2 * r.eliminated ^ 2 + ∑ c, partialWidth channels r energy P c

/-- The energy at which the resonance appears: `E_r - Σ_c (S_c - B_c) γ_c²`, or `E_r` itself when the
shift factors are the boundary conditions. -/
noncomputable def shiftedEnergy (option : BoundaryOption) (S : Fin channels.length → ℝ) : ℝ :=
  match option with
  | .shiftFactor => r.energy
  | .constant => r.energy - ∑ c, (S c - channels[c].boundary) * amplitude channels energy r c ^ 2

end

/-- `Γ_c Γ_c' / ((E - E_0)² + Γ²/4)`. -/
noncomputable def lorentzian (first second total center energy : ℝ) : ℝ :=
  first * second / ((energy - center) ^ 2 + total ^ 2 / 4)

/-- Scattering into the same channel: potential scattering, the resonance and their interference. -/
noncomputable def elasticLine (width total center energy phase : ℝ) : ℝ :=
  4 * Real.sin phase ^ 2 +
    (width ^ 2 - 2 * width * total * Real.sin phase ^ 2
      + 2 * (energy - center) * width * Real.sin (2 * phase)) / ((energy - center) ^ 2 + total ^ 2 / 4)

/-- The cross sections of an isolated resonance. A Coulomb phase shift takes part in the scattering into
the same channel by reducing the hard-sphere phase shift by its half. -/
noncomputable def oneLevel (option : BoundaryOption) (K : Constants) (channels : List Channel)
    (r : Resonance) (energy : ℝ) (P S w phi : Fin channels.length → ℝ) (id : ReactionID) : ℝ :=
  let total := totalWidth channels r energy P
  let center := shiftedEnergy channels r energy option S
  ∑ c : Fin channels.length, if channels[c].isIncident then
    incidentFactor K channels energy *
      ((∑ c' : Fin channels.length, if channels[c'].reaction = id then
          if c = c' then elasticLine (partialWidth channels r energy P c) total center energy
            (phi c - w c / 2)
          else lorentzian (partialWidth channels r energy P c) (partialWidth channels r energy P c')
            total center energy
        else 0)
      + if captureID channels = some id then
          lorentzian (partialWidth channels r energy P c) (2 * r.eliminated ^ 2) total center energy
        else 0)
  else 0

end Verif.Spec
