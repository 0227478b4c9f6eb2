import Verif.Spec.RMatrix

/-!
# Channels that take no part at an energy
-/

namespace Verif.Spec

/-- At the energy `E` the channels and resonances are those of `channels'` and `resonances'` without some
channels of other pairs than the incident one, each of which is closed at this energy or has zero widths in
all resonances. Channel `i` is channel `σ i` of `channels'`. -/
structure LeavesOut (E : ℝ) {channels channels' : List Channel}
    (σ : Fin channels.length → Fin channels'.length) (resonances resonances' : List Resonance) : Prop where
  order : StrictMono σ
  sameChannels : ∀ i : Fin channels.length, channels'[σ i] = channels[i]
  notIncident : ∀ j : Fin channels'.length, j ∉ Set.range σ → channels'[j].isIncident = false
  sameResonances : List.Forall₂ (fun r r' : Resonance => r'.energy = r.energy ∧
    r'.eliminated = r.eliminated ∧
    (r'.widths.length = channels'.length ↔ r.widths.length = channels.length) ∧
    (∀ i, r'.width (σ i) = r.width i) ∧
    ∀ j : Fin channels'.length, j ∉ Set.range σ → channels'[j].belowThreshold E ∨ r'.width j = 0)
    resonances resonances'

end Verif.Spec
