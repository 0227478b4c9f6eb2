import Mathlib.Data.Complex.Basic
import Mathlib.Analysis.Complex.Exponential

/-!
# Specification of the hard-sphere functions

The standard recursion (Lane and Thomas, Rev. Mod. Phys. 30, 257; ENDF-102 appendix D) for the
penetrability and shift factor of a neutral particle.
-/

namespace Verif.Spec

/-- `(P_l, S_l)` at the channel ratio `rho`:
`P_0 = rho`, `S_0 = 0`,
`P_l = rho² P_{l-1} / ((l - S_{l-1})² + P_{l-1}²)`,
`S_l = rho² (l - S_{l-1}) / ((l - S_{l-1})² + P_{l-1}²) - l`. -/
noncomputable def hardSphere (rho : ℝ) : ℕ → ℝ × ℝ
  | 0 => (rho, 0)
  | l + 1 =>
    let P := (hardSphere rho l).1
    let S := (hardSphere rho l).2
    let d := ((l + 1 : ℝ) - S) ^ 2 + P ^ 2
    (rho ^ 2 * P / d, rho ^ 2 * ((l + 1 : ℝ) - S) / d - (l + 1 : ℝ))

open Complex in
/-- `exp(2 i phi_l)` at the channel ratio `rho`:
`phi_0 = rho`, `phi_l = phi_{l-1} - arctan(P_{l-1} / (l - S_{l-1}))`, written without the
arctangent. -/
noncomputable def hardSpherePhase (rho : ℝ) : ℕ → ℂ
  | 0 => exp (2 * I * rho)
  | l + 1 =>
    let P := (hardSphere rho l).1
    let S := (hardSphere rho l).2
    hardSpherePhase rho l * (((l + 1 : ℝ) - S : ℝ) - I * P) / (((l + 1 : ℝ) - S : ℝ) + I * P)

end Verif.Spec
