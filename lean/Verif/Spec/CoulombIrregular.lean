import Verif.Spec.CoulombWave
import Verif.Spec.CoulombFar
import Mathlib.Topology.Algebra.Order.Field

/-!
# What is meant by the irregular Coulomb function

This file does not refer to the model.
-/

namespace Verif

open Filter Topology

/-- `y` is the irregular Coulomb function of angular momentum zero at all radii from `ρ` on and `y'` is its
derivative: the solution of the Coulomb wave equation that far from the origin becomes the cosine of the
phase of the outgoing Coulomb wave. -/
structure IrregularCoulomb (η ρ : ℝ) (y y' : ℝ → ℝ) : Prop where
  wave : ∀ x ≥ ρ, HasDerivAt y (y' x) x ∧ HasDerivAt y' ((2 * η / x - 1) * y x) x
  value : Tendsto (fun x => y x - (Spec.outgoing 0 η x).re) atTop (𝓝 0)
  slope : Tendsto (fun x => y' x + (Spec.outgoing 0 η x).im) atTop (𝓝 0)

end Verif
