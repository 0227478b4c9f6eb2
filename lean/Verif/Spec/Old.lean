import Verif.Spec.QuantumNumbers
import Verif.Spec.BreitWigner
import Verif.Spec.HardSphere
import Mathlib.Algebra.BigOperators.Group.Finset.Basic
import Mathlib.Algebra.Order.Floor.Ring
import Mathlib.Data.Rat.Floor

/-!
# Specifications for the older Breit-Wigner and Reich-Moore code
-/

namespace Verif.Spec

/-- The lowest total angular momentum of a neutron with orbital angular momentum `l` on a target of spin
`I`. -/
def lowestJ (I : ℚ) (l : ℕ) : ℚ := |(|I - l| - 1 / 2)|

/-- The highest one. -/
def highestJ (I : ℚ) (l : ℕ) : ℚ := I + l + 1 / 2

/-- The statistical factor of a neutron on a target of spin `I`. -/
def neutronFactor (I J : ℚ) : ℚ := (2 * J + 1) / (4 * I + 2)

/-- The sum of the statistical factors for `J = lowestJ, lowestJ + 1, ..., highestJ`. -/
def factorSum (I : ℚ) (l : ℕ) : ℚ :=
  ∑ k ∈ Finset.range (⌊highestJ I l - lowestJ I l⌋₊ + 1), neutronFactor I (lowestJ I l + k)

/-- Some channel spin allows this total angular momentum. -/
def AllowedJ (I : ℚ) (l : ℕ) (J : ℚ) : Prop := ∃ s, Couples (1 / 2) I s ∧ Couples l s J

/-- The hard-sphere penetrability at the ratio `rho`, zero if there is no wave. -/
noncomputable def penetration (l : ℕ) (rho : ℝ) : ℝ := if 0 < rho then (hardSphere rho l).1 else 0

/-- A partial wave as seen at one energy: penetrability, shift factor, phase shift, and the penetrability of
the competitive channel. -/
structure Wave where
  l : ℕ
  p : ℝ
  s : ℝ
  φ : ℝ
  q : ℝ

/-- A resonance of an evaluation with its total angular momentum. -/
structure Assigned where
  J : ℚ
  parameters : Parameters

/-- The level a resonance is at an energy. -/
noncomputable def Assigned.level (a : Assigned) (w : Wave) : Level :=
  ⟨a.parameters.neutronWidth w.p, a.parameters.totalWidth w.p w.q, a.parameters.position w.s⟩

/-! The contributions of a partial wave to the cross sections of a target of spin `I` at the energy `E`, in
units of `π / k²`, see the ENDF-6 manual, D.1.1 and D.1.2. -/

/-- Single-level elastic scattering. -/
noncomputable def singleElastic (I : ℚ) (E : ℝ) (w : Wave) (rs : List Assigned) : ℝ :=
  4 * (2 * w.l + 1) * Real.sin w.φ ^ 2
    + (rs.map fun r => (neutronFactor I r.J : ℝ) * r.parameters.elasticTerm E w.p w.q w.s w.φ).sum

/-- Multi-level elastic scattering: `|1 - U|²` for the J values that occur among the resonances, and the
potential scattering of all others. -/
noncomputable def multiElastic (I : ℚ) (E : ℝ) (w : Wave) (rs : List Assigned) : ℝ :=
  ∑ J ∈ (rs.map Assigned.J).toFinset, (neutronFactor I J : ℝ)
      * Complex.normSq (1 - levelCollision w.φ E ((rs.filter fun r => r.J = J).map fun r => r.level w))
    + (2 * w.l + 1 - ∑ J ∈ (rs.map Assigned.J).toFinset, (neutronFactor I J : ℝ)) * (4 * Real.sin w.φ ^ 2)

/-- Capture. -/
noncomputable def captureSum (I : ℚ) (E : ℝ) (w : Wave) (rs : List Assigned) : ℝ :=
  (rs.map fun r => (neutronFactor I r.J : ℝ) * r.parameters.captureTerm E w.p w.q w.s).sum

/-- Fission. -/
noncomputable def fissionSum (I : ℚ) (E : ℝ) (w : Wave) (rs : List Assigned) : ℝ :=
  (rs.map fun r => (neutronFactor I r.J : ℝ) * r.parameters.fissionTerm E w.p w.q w.s).sum

end Verif.Spec
