import Verif.Spec.RMatrix

/-!
# The inverse reactions: another pair of particles is the incident one
-/

namespace Verif.Spec

/-- The energy of the pair `b` in the laboratory system that corresponds to the energy `E` of the pair `a`, if `Q`
is the Q value of the reaction from `a` to `b`. -/
noncomputable def inverseEnergy (a b : ParticlePair) (Q E : ℝ) : ℝ := (a.massRatio * E + Q) / b.massRatio

/-- The channel for the incident pair `b` instead of `a`. -/
noncomputable def inverseChannel (a b : ParticlePair) (Q : ℝ) (c : Channel) : Channel :=
  { c with
    reaction := makeReactionID b.id c.pair.id
    incident := b
    q := c.q - Q
    radii := ⟨fun E => c.radii.penetrability (inverseEnergy b a (-Q) E),
      fun E => c.radii.shiftFactor (inverseEnergy b a (-Q) E),
      fun E => c.radii.phaseShift (inverseEnergy b a (-Q) E)⟩ }

/-- The resonance for the incident pair `b` instead of `a`: the energy and the squared amplitudes are converted to
the other laboratory system. -/
noncomputable def inverseResonance (a b : ParticlePair) (Q : ℝ) (r : Resonance) : Resonance :=
  ⟨inverseEnergy a b Q r.energy, r.widths.map fun x => Real.sqrt (a.massRatio / b.massRatio) * x,
    Real.sqrt (a.massRatio / b.massRatio) * r.eliminated⟩

/-- Two different pairs of particles, and the Q value of the reaction from one to the other. -/
structure TwoPairs (a b : ParticlePair) : Prop where
  different : a.id ≠ b.id
  notCapture : a.id ≠ "capture".toList ∧ b.id ≠ "capture".toList
  massRatio : 0 < a.massRatio ∧ 0 < b.massRatio
  reducedMass : 0 < a.reducedMass ∧ 0 < b.reducedMass
  spins : 0 ≤ a.particle.spin ∧ 0 ≤ a.residual.spin ∧ 0 ≤ b.particle.spin ∧ 0 ≤ b.residual.spin

/-- Channels with the incident pair `a`, as their constructor leaves them; those of the pair `b` have the Q
value `Q`. -/
structure ChannelsOf (a b : ParticlePair) (Q : ℝ) (channels : List Channel) : Prop where
  incident : ∀ c ∈ channels, c.incident = a
  reaction : ∀ c ∈ channels, c.reaction = makeReactionID a.id c.pair.id
  spinFactor : ∀ c ∈ channels,
    c.spinFactor = statisticalSpinFactor c.numbers.J c.pair.particle.spin c.pair.residual.spin
  entrance : ∀ c ∈ channels, c.pair.id = a.id → c.pair = a ∧ c.q = 0
  exit : ∀ c ∈ channels, c.pair.id = b.id → c.pair = b ∧ c.q = Q

/-- The factor `(2i + 1)(2I + 1)` of a pair. -/
def spinStates (p : ParticlePair) : ℚ := (2 * p.particle.spin + 1) * (2 * p.residual.spin + 1)

end Verif.Spec
