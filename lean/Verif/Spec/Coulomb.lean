import Mathlib.Analysis.SpecialFunctions.Sqrt

/-!
# Specification of Coulomb wave functions

Relations between Coulomb wave functions of neighbouring angular momenta (Abramowitz and Stegun,
chapter 14).
-/

namespace Verif.Spec

/-- A&S 14.2.3 at `l ≥ 1`: the three-term relation that both the regular and the irregular Coulomb
wave functions satisfy. -/
def CoulombRecurrence (η ρ : ℝ) (u : ℕ → ℝ) (l : ℕ) : Prop :=
  l * Real.sqrt ((l + 1 : ℝ) ^ 2 + η ^ 2) * u (l + 1)
    = (2 * l + 1) * (η + l * (l + 1) / ρ) * u l
      - (l + 1) * Real.sqrt ((l : ℝ) ^ 2 + η ^ 2) * u (l - 1)

/-- A&S 14.2.2: the derivative with respect to `ρ` in terms of the neighbour above. -/
noncomputable def coulombDerivative (η ρ : ℝ) (u : ℕ → ℝ) (l : ℕ) : ℝ :=
  ((((l + 1 : ℝ) ^ 2 / ρ + η) * u l) - Real.sqrt ((l + 1 : ℝ) ^ 2 + η ^ 2) * u (l + 1)) / (l + 1)

end Verif.Spec
