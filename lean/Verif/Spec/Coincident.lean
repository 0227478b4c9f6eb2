import Verif.Spec.RMatrix

/-!
# Resonances at the same energy: the terms of property C113
-/

namespace Verif.Spec

open Classical in
/-- The resonances at an energy with an eliminated width. -/
noncomputable def coincident (rs : List Resonance) (energy eliminated : ℝ) : List Resonance :=
  rs.filter fun r => r.energy = energy ∧ r.eliminated ^ 2 = eliminated

/-- Tables with the same energies and eliminated widths, in which the products of the amplitudes have the same
sums over the resonances that have these in common. -/
structure SameStrengths (n : ℕ) (rs rs' : List Resonance) : Prop where
  lengths : ∀ r ∈ rs ++ rs', r.widths.length = n
  energies : ∀ energy eliminated, coincident rs energy eliminated = [] ↔ coincident rs' energy eliminated = []
  products : ∀ energy eliminated, ∀ i < n, ∀ j < n,
    ((coincident rs energy eliminated).map fun r => r.width i * r.width j).sum
      = ((coincident rs' energy eliminated).map fun r => r.width i * r.width j).sum

end Verif.Spec
