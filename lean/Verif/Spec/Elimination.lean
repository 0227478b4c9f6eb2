import Verif.Spec.RMatrix

/-!
# The Reich-Moore approximation: eliminated channels
-/

namespace Verif.Spec

open Classical in
/-- The channels that are not among those of `σ`. -/
noncomputable def leftOut {m n : ℕ} (σ : Fin m → Fin n) : Finset (Fin n) :=
  Finset.univ.filter (· ∉ Set.range σ)

/-- At the energy `E` the channels and resonances are those of `channels'` and `resonances'` after the
elimination of some photon or fission channels. Channel `i` is channel `σ i` of `channels'`. The squared
eliminated widths are the sums of the squared widths in these channels; different resonances have orthogonal
widths there, which is what the approximation assumes of the many photon channels of a nucleus. -/
structure Eliminates (E : ℝ) {channels channels' : List Channel}
    (σ : Fin channels.length → Fin channels'.length) (resonances resonances' : List Resonance) : Prop where
  order : StrictMono σ
  sameChannels : ∀ i : Fin channels.length, channels'[σ i] = channels[i]
  notIncident : ∀ j ∈ leftOut σ, channels'[j].isIncident = false
  photons : ∀ j ∈ leftOut σ, (channels'[j].type = .photon ∨ channels'[j].type = .fission) ∧
    ¬ channels'[j].belowThreshold E
  sameResonances : List.Forall₂ (fun r r' : Resonance => r'.energy = r.energy ∧
    (r'.widths.length = channels'.length ↔ r.widths.length = channels.length) ∧
    (∀ i, r'.width (σ i) = r.width i) ∧
    r.eliminated ^ 2 = r'.eliminated ^ 2 + ∑ j ∈ leftOut σ, r'.width j ^ 2) resonances resonances'
  orthogonal : resonances'.Pairwise fun r s => ∑ j ∈ leftOut σ, r.width j * s.width j = 0

end Verif.Spec
