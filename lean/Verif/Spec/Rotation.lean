import Verif.Spec.RMatrix
import Mathlib.Data.Matrix.Mul

/-!
# Channels that only differ in the way their spins are coupled

The cross sections are sums over the channel spins, so they should not depend on how the spins of one
pair of particles are coupled (channel spins or total angular momenta of the projectile), nor on how
the widths of several channels of fission are divided among them.
-/

namespace Verif.Spec

/-- The two channels have the same particles, reaction, Q value, orbital angular momentum, radii and
boundary condition. They may differ in the channel spin and in their identifiers. -/
structure Indistinguishable (c c' : Channel) : Prop where
  type : c.type = c'.type
  reaction : c.reaction = c'.reaction
  incident : c.incident = c'.incident
  pair : c.pair = c'.pair
  q : c.q = c'.q
  l : c.numbers.l = c'.numbers.l
  radii : c.radii = c'.radii
  boundary : c.boundary = c'.boundary

/-- `Q` is an orthogonal matrix that mixes only channels that are indistinguishable. -/
structure MixesSpins (channels : List Channel)
    (Q : Matrix (Fin channels.length) (Fin channels.length) ℝ) : Prop where
  orthogonal : ∀ i j, ∑ c, Q i c * Q j c = if i = j then 1 else 0
  mixes : ∀ i j : Fin channels.length, Q i j ≠ 0 → Indistinguishable channels[i] channels[j]

/-- The resonances `rs'` have the energies and capture widths of `rs`, and reduced width amplitudes
mixed with `Q`: `γ'_{rc} = Σ_{c'} Q_{cc'} γ_{rc'}`. -/
def Mixed {n : ℕ} (Q : Matrix (Fin n) (Fin n) ℝ) : List Resonance → List Resonance → Prop :=
  List.Forall₂ fun r r' => r'.energy = r.energy ∧ r'.eliminated = r.eliminated ∧
    r'.widths.length = r.widths.length ∧ ∀ c : Fin n, r'.width c = ∑ c' : Fin n, Q c c' * r.width c'

end Verif.Spec
