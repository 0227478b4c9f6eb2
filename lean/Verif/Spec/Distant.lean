import Verif.Spec.RMatrix

/-!
# How strongly a resonance is felt at an energy
-/

namespace Verif.Spec

open Complex

/-- The strength of a resonance at an energy: the sum of its squared reduced width amplitudes, divided by the
distance `|E_r - E - i γ_{rγ}²|`. It is small for a resonance far from the energy, and for a resonance with
small widths. -/
noncomputable def strength (energy : ℝ) (r : Resonance) : ℝ :=
  (r.widths.map (· ^ 2)).sum / ‖(r.energy : ℂ) - energy - I * (r.eliminated : ℂ) ^ 2‖

/-- Resonance lists that differ, apart from the order, by further resonances with widths for all channels, none
of them with a pole at the energy, and with a total strength below `δ`. -/
def MoreResonances (energy δ : ℝ) (channels : List Channel) (rs rs' : List Resonance) : Prop :=
  ∃ more : List Resonance, rs'.Perm (rs ++ more) ∧
    (∀ r ∈ more, r.widths.length = channels.length ∧ ¬ (r.energy = energy ∧ r.eliminated = 0)) ∧
    (more.map (strength energy)).sum < δ

end Verif.Spec
