import Mathlib.Analysis.SpecialFunctions.Trigonometric.Basic

/-!
# Specification of the multi-level Breit-Wigner formula (independent of the model)
-/

namespace Verif.Spec

open Complex

/-- A resonance as it is seen at one energy: neutron width `Γn`, total width `Γ` and shifted
resonance energy `E'`. -/
structure Level where
  width : ℝ
  total : ℝ
  position : ℝ

/-- The sum `Σ_r Γn_r / (E'_r - E - i Γ_r / 2)`. -/
noncomputable def levelSum (E : ℝ) (levels : List Level) : ℂ :=
  (levels.map fun r => (r.width : ℂ) / ((r.position : ℂ) - E - I * r.total / 2)).sum

/-- The collision function `U = exp(-2iφ) (1 + i Σ_r Γn_r / (E'_r - E - i Γ_r / 2))`. -/
noncomputable def levelCollision (φ E : ℝ) (levels : List Level) : ℂ :=
  exp (-(2 * I * φ)) * (1 + I * levelSum E levels)

/-- A resonance as given in an evaluation, with the penetrabilities and the shift factor at its energy:
those of the elastic channel, and the penetrability of the competitive channel. -/
structure Parameters where
  energy : ℝ
  elastic : ℝ
  capture : ℝ
  fission : ℝ
  competition : ℝ
  penetrability : ℝ
  competitivePenetrability : ℝ
  shiftFactor : ℝ

namespace Parameters

/-- The neutron width at the energy with penetrability `p`. -/
noncomputable def neutronWidth (r : Parameters) (p : ℝ) : ℝ := r.elastic * p / r.penetrability

/-- The total width. -/
noncomputable def totalWidth (r : Parameters) (p q : ℝ) : ℝ :=
  r.neutronWidth p + r.capture + r.fission + r.competition * q / r.competitivePenetrability

/-- The shifted resonance energy `E' = Er + (S(Er) - S(E)) / (2 P(Er)) Γn`. -/
noncomputable def position (r : Parameters) (s : ℝ) : ℝ :=
  r.energy + (r.shiftFactor - s) / (2 * r.penetrability) * r.elastic

/-- The denominator `(E - E')² + Γ²/4` of the formula. -/
noncomputable def denominator (r : Parameters) (E p q s : ℝ) : ℝ :=
  (E - r.position s) ^ 2 + r.totalWidth p q ^ 2 / 4

/-- The terms of the single-level formula, see the ENDF-6 manual, D.1.1. -/
noncomputable def elasticTerm (r : Parameters) (E p q s φ : ℝ) : ℝ :=
  (r.neutronWidth p ^ 2 - 2 * r.neutronWidth p * r.totalWidth p q * Real.sin φ ^ 2
    + 2 * (E - r.position s) * r.neutronWidth p * Real.sin (2 * φ)) / r.denominator E p q s

noncomputable def captureTerm (r : Parameters) (E p q s : ℝ) : ℝ :=
  r.neutronWidth p * r.capture / r.denominator E p q s

noncomputable def fissionTerm (r : Parameters) (E p q s : ℝ) : ℝ :=
  r.neutronWidth p * r.fission / r.denominator E p q s

end Parameters

end Verif.Spec
