import Verif.Model.HardSphere
import Mathlib.Analysis.Calculus.Deriv.Basic

/-!
# Specification: an approximate solution of the Coulomb wave equation
-/

namespace Verif.Spec

open Filter Topology

/-- Near the channel ratio `ρ` the functions `w` have a twice differentiable `G`; the reported derivative
is the derivative of `G` up to `δ` times the size of `G` and its derivative, and `G` obeys the wave equation
`G'' = (2η/ρ - 1) G` up to `ε` times the size of its terms. -/
def SolvesCoulomb (δ ε η ρ : ℝ) (w : ℝ → WaveFunctions) : Prop :=
  ∃ (g : ℝ → ℝ) (g₂ : ℝ), (∀ᶠ x in 𝓝 ρ, HasDerivAt (fun x => (w x).G) (g x) x) ∧ HasDerivAt g g₂ ρ ∧
    |(w ρ).dG - g ρ| ≤ δ * (|(w ρ).G| + |g ρ|) ∧
    |g₂ - (2 * η / ρ - 1) * (w ρ).G| ≤ ε * (|2 * η / ρ - 1| * |(w ρ).G| + |g ρ|)

end Verif.Spec
