import Mathlib.Analysis.Calculus.Deriv.Basic

/-!
# What is meant by a solution of the Coulomb wave equation

This file does not refer to the model.
-/

namespace Verif

/-- `y` is a solution of the Coulomb wave equation `y'' = (2 η / x - 1) y` of angular momentum zero
between two radii, and `y'` is its derivative. -/
def CoulombSolution (η ρ a : ℝ) (y y' : ℝ → ℝ) : Prop :=
  ∀ x ∈ Set.Icc ρ a, HasDerivAt y (y' x) x ∧ HasDerivAt y' ((2 * η / x - 1) * y x) x

/-- The size of a value `g` and a derivative `d` outside of the turning point: the amplitude of the
oscillation of the derivative. -/
noncomputable def amplitude (η x g d : ℝ) : ℝ := Real.sqrt (d ^ 2 + (1 - 2 * η / x) * g ^ 2)

end Verif
