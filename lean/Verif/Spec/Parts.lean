import Verif.Spec.RMatrix

/-!
# Spin groups of two independent parts
-/

namespace Verif.Spec

/-- Resonance `r` of a part of a spin group as resonance `r'` of the group, of which channel `i` of the part
is channel `ρ i`: it has zero widths in all other channels, except for those that are closed at the energy. -/
structure Within (E : ℝ) {part channels : List Channel} (ρ : Fin part.length → Fin channels.length)
    (r r' : Resonance) : Prop where
  energy : r'.energy = r.energy
  eliminated : r'.eliminated = r.eliminated
  widths : r'.widths.length = channels.length ↔ r.widths.length = part.length
  same : ∀ i, r'.width (ρ i) = r.width i
  other : ∀ j : Fin channels.length, j ∉ Set.range ρ → channels[j].belowThreshold E ∨ r'.width j = 0

/-- The channels are those of two parts, in any order (channel `i` of a part is channel `ρ₁ i` or `ρ₂ i`), and
so are the resonances: none of them has widths in both parts that are open at the energy. -/
structure SplitsInto (E : ℝ) {part₁ part₂ channels : List Channel}
    (ρ₁ : Fin part₁.length → Fin channels.length) (ρ₂ : Fin part₂.length → Fin channels.length)
    (rs₁ rs₂ rs : List Resonance) : Prop where
  bijective : Function.Bijective (Sum.elim ρ₁ ρ₂)
  channels₁ : ∀ i : Fin part₁.length, channels[ρ₁ i] = part₁[i]
  channels₂ : ∀ i : Fin part₂.length, channels[ρ₂ i] = part₂[i]
  resonances : ∃ rs₁' rs₂', rs.Perm (rs₁' ++ rs₂') ∧ List.Forall₂ (Within E ρ₁) rs₁ rs₁' ∧
    List.Forall₂ (Within E ρ₂) rs₂ rs₂'

end Verif.Spec
