import Verif.Model.SpinGroup

/-!
# The R-matrix formulas of the Reich-Moore approximation, as documented in the literature

Everything is a function of the channels, resonances, the energy and the per-channel values `P`
(penetrability), `S` (shift factor), `w` (Coulomb phase shift) and `phi` (hard-sphere phase shift).
-/

/-- The reduced width amplitude of a resonance in the channel with a given index; zero where there is none. -/
def Verif.Resonance.width (r : Verif.Resonance) (c : ℕ) : ℝ := r.widths.getD c 0

namespace Verif.Spec

open Complex

open Classical in
/-- Reduced width amplitude as far as it takes part at an energy: zero in closed channels. -/
noncomputable def amplitude (channels : List Channel) (energy : ℝ) (r : Resonance)
    (c : Fin channels.length) : ℝ :=
  if channels[c].belowThreshold energy then 0 else r.width c

/-- `R_{cc'} = Σ_r γ_{rc} γ_{rc'} / (E_r - E - i γ_{rγ}²)`. -/
noncomputable def rMatrix (channels : List Channel) (resonances : List Resonance) (energy : ℝ) :
    Matrix (Fin channels.length) (Fin channels.length) ℂ :=
  Matrix.of fun c c' => (resonances.map fun r =>
    (amplitude channels energy r c : ℂ) * amplitude channels energy r c'
      / ((r.energy : ℂ) - energy - I * (r.eliminated : ℂ) ^ 2)).sum

/-- `L_c = S_c - B_c + i P_c`; with the shift factor as boundary condition `B_c = S_c`. -/
noncomputable def logDerivative (option : BoundaryOption) (channels : List Channel)
    (P S : Fin channels.length → ℝ) (c : Fin channels.length) : ℂ :=
  match option with
  | .shiftFactor => I * P c
  | .constant => S c - channels[c].boundary + I * P c

/-- The matrix `1 - R L`. -/
noncomputable def levelDenominator (option : BoundaryOption) (channels : List Channel)
    (resonances : List Resonance) (energy : ℝ) (P S : Fin channels.length → ℝ) :
    Matrix (Fin channels.length) (Fin channels.length) ℂ :=
  1 - rMatrix channels resonances energy * Matrix.diagonal (logDerivative option channels P S)

/-- `T = sqrt(P) (1 - R L)⁻¹ R sqrt(P)`. -/
noncomputable def tMatrix (option : BoundaryOption) (channels : List Channel)
    (resonances : List Resonance) (energy : ℝ) (P S : Fin channels.length → ℝ) :
    Matrix (Fin channels.length) (Fin channels.length) ℂ :=
  Matrix.of fun c c' => (Real.sqrt (P c) : ℂ) *
    ((levelDenominator option channels resonances energy P S)⁻¹ *
      rMatrix channels resonances energy) c c' * (Real.sqrt (P c') : ℂ)

/-- `U = Ω (1 + 2 i T) Ω` with `Ω = exp(i (w - φ))`. -/
noncomputable def collision {n : ℕ} (T : Matrix (Fin n) (Fin n) ℂ) (w phi : Fin n → ℝ)
    (c c' : Fin n) : ℂ :=
  exp (I * (w c - phi c)) * ((if c = c' then 1 else 0) + 2 * I * T c c') * exp (I * (w c' - phi c'))

/-- Cross section from channel `c` to channel `c'` in units of `π/k² g`. -/
noncomputable def partialCrossSection {n : ℕ} (U : Fin n → Fin n → ℂ) (w : Fin n → ℝ)
    (c c' : Fin n) : ℝ :=
  normSq ((if c = c' then exp (I * w c) else 0) - U c c')

/-- Capture cross section from channel `c` in units of `π/k² g`. -/
noncomputable def captureCrossSection {n : ℕ} (U : Fin n → Fin n → ℂ) (c : Fin n) : ℝ :=
  1 - ∑ c', normSq (U c c')

/-- `π/k² g` of the incident pair, taken from the first channel of that pair. -/
noncomputable def incidentFactor (K : Constants) (channels : List Channel) (energy : ℝ) : ℝ :=
  match channels.find? Channel.isIncident with
  | some c => Real.pi / c.waveNumber K energy ^ 2 * c.spinFactor
  | none => 0

/-- Identifier of the capture reaction of a spin group: from the incident pair to "capture". -/
def captureID (channels : List Channel) : Option ReactionID :=
  channels.head?.map fun c => .transition c.incident.id "capture".toList

/-- What a spin group contributes to the cross section of one reaction: the sum over the incident
channels of the cross sections to all channels of that reaction, and of the capture cross section. -/
noncomputable def contribution (option : BoundaryOption) (K : Constants) (channels : List Channel)
    (resonances : List Resonance) (energy : ℝ) (P S w phi : Fin channels.length → ℝ)
    (id : ReactionID) : ℝ :=
  let U := collision (tMatrix option channels resonances energy P S) w phi
  ∑ c : Fin channels.length, if channels[c].isIncident then
    (∑ c' : Fin channels.length, if channels[c'].reaction = id then
      incidentFactor K channels energy * partialCrossSection U w c c' else 0)
    + (if captureID channels = some id then
      incidentFactor K channels energy * captureCrossSection U c else 0)
  else 0

/-- The channel functions have the given values at the energy and the formulas above involve no
division by zero and no square root of a negative number. -/
structure Evaluable (option : BoundaryOption) (K : Constants) (lib : CoulombLibrary)
    (channels : List Channel) (resonances : List Resonance) (energy : ℝ)
    (P S w phi : Fin channels.length → ℝ) : Prop where
  penetrability : ∀ i : Fin channels.length, channels[i].penetrability K lib energy = .ok (P i)
  shiftFactor : option = .constant →
    ∀ i : Fin channels.length, channels[i].shiftFactor K lib energy = .ok (S i)
  coulomb : ∀ i : Fin channels.length, channels[i].coulombPhaseShift K energy = .ok (w i)
  phase : ∀ i : Fin channels.length, channels[i].phaseShift K lib energy = .ok (phi i)
  nonneg : ∀ i, 0 ≤ P i
  widths : ∀ r ∈ resonances, r.widths.length = channels.length
  noPole : ∀ r ∈ resonances, ¬ (r.energy = energy ∧ r.eliminated = 0)
  invertible : (levelDenominator option channels resonances energy P S).det ≠ 0
  waveNumber : ∃ c, channels.find? Channel.isIncident = some c ∧ c.waveNumber K energy ≠ 0

end Verif.Spec
