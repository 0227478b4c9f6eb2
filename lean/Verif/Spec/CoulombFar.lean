import Mathlib.Analysis.SpecialFunctions.Gamma.Basic
import Mathlib.Analysis.SpecialFunctions.Trigonometric.Basic

/-!
# Specification: the Coulomb functions at large distance
-/

namespace Verif.Spec

/-- The outgoing Coulomb wave of angular momentum `l` far from the origin,
`exp i(ρ - η log 2ρ - lπ/2 + σ)`, where `σ` is the argument of `Γ(l + 1 + iη)`. Its real part is the limit of
the irregular and its imaginary part that of the regular Coulomb function. -/
noncomputable def outgoing (l : ℕ) (η ρ : ℝ) : ℂ :=
  Complex.exp (((ρ - η * Real.log (2 * ρ) - l * (Real.pi / 2) : ℝ) : ℂ) * Complex.I)
    * (Complex.Gamma (l + 1 + η * Complex.I) / ‖Complex.Gamma (l + 1 + η * Complex.I)‖)

end Verif.Spec
