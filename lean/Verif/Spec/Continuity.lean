import Verif.Spec.ReichMooreRange
import Verif.Spec.UnresolvedRange
import Mathlib.Topology.Order.Basic
import Mathlib.Topology.MetricSpace.Pseudo.Defs

/-!
# Regular channels and energies

What a channel must satisfy for the cross sections to depend continuously on the energy.
-/

namespace Verif.Spec

open Filter Topology

/-- The radius is given by a continuous function of the energy around an energy. -/
def ContinuousRadius (radius : ℝ → Outcome ℝ) (energy : ℝ) : Prop :=
  ∃ a : ℝ → ℝ, ContinuousAt a energy ∧ ∀ᶠ E in 𝓝 energy, radius E = .ok (a E)

/-- The channel opens at the energy. -/
def AtThreshold (c : Channel) (energy : ℝ) : Prop := c.incident.massRatio * energy + c.q = 0

/-- Channels without charge and with continuous radii. A channel that opens at this very energy
must be one for neutrons, and, when the boundary conditions of the evaluation are used, its boundary
condition must be the shift factor at threshold. -/
structure Regular (option : BoundaryOption) (c : Channel) (energy : ℝ) : Prop where
  neutral : c.type ≠ .charged
  penetrability : ContinuousRadius c.radii.penetrability energy
  nonneg : c.type = .neutron →
    ∀ᶠ E in 𝓝 energy, ∀ a, c.radii.penetrability E = .ok a → 0 ≤ a
  shiftFactor : ContinuousRadius c.radii.shiftFactor energy
  phaseShift : ContinuousRadius c.radii.phaseShift energy
  threshold : AtThreshold c energy →
    c.type = .neutron ∧ (option = .constant → c.boundary = -(c.numbers.l : ℝ))

/-- The radii that are used for a radius given in the evaluation are continuous around the energy, and the
channel radius is positive there. -/
def RadiiAround (neutronMass A : ℝ) (nro : Option (ℝ → Outcome ℝ)) (naps : ℤ) (ap energy : ℝ) : Prop :=
  ∃ channel scattering, IsRadii ap nro naps (A * neutronMass) channel scattering ∧
    ContinuousRadius channel energy ∧ (∃ a, 0 < a ∧ channel energy = .ok a) ∧
    ContinuousRadius scattering energy

/-- The radii that are used for each l value of a Breit-Wigner range are continuous around the energy, and also
around the energy lowered by QX if there is a competitive channel; the channel radius is positive there. -/
def BreitWignerRadiiAround (neutronMass : ℝ) (nro : Option (ℝ → Outcome ℝ)) (naps : ℤ)
    (p : Endf.BreitWigner) (energy : ℝ) : Prop :=
  ∀ lv ∈ p.lValues, ∃ channel scattering,
    IsRadii p.ap nro naps (lv.awri * neutronMass) channel scattering ∧
    ContinuousRadius channel energy ∧ (∃ a, 0 < a ∧ channel energy = .ok a) ∧
    (lv.qx ≠ 0 → ContinuousRadius channel (energy - lv.qx) ∧
      ∃ a, 0 < a ∧ channel (energy - lv.qx) = .ok a) ∧
    ContinuousRadius scattering energy

/-- Average widths that do not begin or cease to vanish at the energy. -/
def SettledWidth (g : AverageGroup) (width : Unresolved.Resonance → ℝ) (energy : ℝ) : Prop :=
  (∃ y ≠ 0, Interpolates .linLin (g.rows.map (·.energy)) (g.rows.map width) energy y) ∨
    ∀ᶠ E in 𝓝 energy, Interpolates .linLin (g.rows.map (·.energy)) (g.rows.map width) E 0

/-- Two entries of cross section maps: both absent, or both there and closer than `ε`. -/
def Close (ε : ℝ) : Option ℝ → Option ℝ → Prop
  | some x, some y => |x - y| < ε
  | none, none => True
  | _, _ => False

end Verif.Spec
