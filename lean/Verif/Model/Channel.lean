import Verif.Model.HardSphere
import Verif.Model.QuantumNumbers

/-!
# Particles, particle pairs and channels

Quantities carry units in C++ (`dimwits`); the model assumes one consistent system of units and
treats every quantity as a real number.
-/

namespace Verif

/-- Physical constants, `resonanceReconstruction.hpp:107-110`. Their numerical values do not matter. -/
structure Constants where
  hbar : ℝ
  epsilon0 : ℝ
  hbar_pos : 0 < hbar
  epsilon0_pos : 0 < epsilon0

/-- Models the class `Particle`, `rmatrix/Particle.hpp`. -/
structure Particle where
  id : Str
  mass : ℝ
  charge : ℝ
  spin : ℚ
  parity : ℤ

/-- Models the `Particle` constructor, `rmatrix/Particle/src/ctor.hpp:10-20`, with
`verifyNotNegative`, `rmatrix/Particle/src/verifyNotNegative.hpp`. -/
noncomputable def makeParticle (id : Str) (mass charge : ℝ) (spin : ℚ) (parity : ℤ) :
    Outcome Particle :=
  if mass < 0 then .error .throws
  else if charge < 0 then .error .throws
  else .ok ⟨id, mass, charge, spin, parity⟩

/-- Identifier of a particle pair (`elementary::ParticlePairID`, an external library), represented
by its symbol. -/
abbrev PairID := Str

/-- Models the class `ParticlePair`, `rmatrix/ParticlePair.hpp:14-64`. -/
structure ParticlePair where
  particle : Particle
  residual : Particle
  id : PairID
  reducedMass : ℝ
  massRatio : ℝ

/-- Models the `ParticlePair` constructor, `rmatrix/ParticlePair/src/ctor.hpp:13-22`. -/
noncomputable def makeParticlePair (particle residual : Particle) (id : PairID) :
    Outcome ParticlePair :=
  let ma := particle.mass
  let mb := residual.mass
  if ma + mb = 0 then .error .notFinite
  else .ok ⟨particle, residual, id, ma * mb / (ma + mb), mb / (ma + mb)⟩

/-- Identifier of a reaction (`elementary::ReactionID`, an external library): elastic scattering of
the incident pair, or a transition between two pairs. Assumption: the library's identifiers are
equal only if these are. -/
inductive ReactionID
  | elastic (incident : PairID)
  | transition (incident outgoing : PairID)
  deriving DecidableEq, Repr

/-- Models `Channel::makeReactionID`, `rmatrix/Channel/src/makeReactionID.hpp:1-11`. -/
def makeReactionID (incident pair : PairID) : ReactionID :=
  if incident = pair then .elastic incident else .transition incident pair

/-- Models `ChannelRadii`, `rmatrix/ChannelRadii.hpp:13-73`. Each radius is a number or an
interpolation table (an external library), i.e. some function of energy that may throw. -/
structure ChannelRadii where
  penetrability : ℝ → Outcome ℝ
  shiftFactor : ℝ → Outcome ℝ
  phaseShift : ℝ → Outcome ℝ

/-- Models `Channel< ChannelType >`, `rmatrix/Channel.hpp:8-108`, together with the variant
`ParticleChannel`, `rmatrix/ParticleChannel.hpp:11-14`. -/
structure Channel where
  type : ChannelType
  id : Str
  reaction : ReactionID
  incident : ParticlePair
  pair : ParticlePair
  q : ℝ
  numbers : QuantumNumbers
  radii : ChannelRadii
  boundary : ℝ
  spinFactor : ℚ

/-- Models the `Channel` constructor with an explicit identifier,
`rmatrix/Channel/src/ctor.hpp:18-33,92-101`. The other public constructor (lines 58-66) is the case
`id = pair.id`. -/
def makeChannel (type : ChannelType) (incident pair : ParticlePair) (id : Str) (q : ℝ)
    (numbers : QuantumNumbers) (radii : ChannelRadii) (boundary : ℝ) : Channel :=
  { type := type
    id := makeChannelID id numbers
    reaction := makeReactionID incident.id pair.id
    incident := incident
    pair := pair
    q := q
    numbers := numbers
    radii := radii
    boundary := boundary
    spinFactor := statisticalSpinFactor numbers.J pair.particle.spin pair.residual.spin }

namespace Channel

/-- Models `Channel::isIncidentChannel`, `rmatrix/Channel.hpp:80-84`. -/
def isIncident (c : Channel) : Bool := c.pair.id == c.incident.id

/-- Models `Channel::belowThreshold`, `rmatrix/Channel/src/belowThreshold.hpp:12-16`. -/
def belowThreshold (c : Channel) (energy : ℝ) : Prop := c.incident.massRatio * energy + c.q < 0

/-- Models `Channel::waveNumber`, `rmatrix/Channel/src/waveNumber.hpp:13-19`.
A negative reduced mass would give NaN; masses are not negative (`makeParticle`). -/
noncomputable def waveNumber (K : Constants) (c : Channel) (energy : ℝ) : ℝ :=
  Real.sqrt (2 * c.pair.reducedMass * |energy * c.incident.massRatio + c.q|) / K.hbar

/-- Models `Channel::sommerfeldParameter`, `rmatrix/Channel/src/sommerfeldParameter.hpp:17-34`. -/
noncomputable def sommerfeldParameter (K : Constants) (c : Channel) (energy : ℝ) : Outcome ℝ :=
  let zZ := c.pair.particle.charge * c.pair.residual.charge
  if zZ = 0 then .ok 0
  else
    let mu := c.pair.reducedMass
    let k := c.waveNumber K energy
    if mu = 0 ∨ k = 0 then .error .notFinite
    else .ok (zZ / (4 * Real.pi * K.epsilon0) / (K.hbar * K.hbar * k / mu))

/-- The Sommerfeld parameter as far as it is used: the functions for the other channel types ignore
this argument, so an infinite value does not matter there. -/
noncomputable def eta (K : Constants) (c : Channel) (energy : ℝ) : Outcome ℝ :=
  if c.type = .charged then c.sommerfeldParameter K energy else .ok 0

/-- Models `Channel::penetrability`, `rmatrix/Channel/src/penetrability.hpp:6-13`. -/
noncomputable def penetrability (K : Constants) (lib : CoulombLibrary) (c : Channel) (energy : ℝ) :
    Outcome ℝ := do
  let eta ← c.eta K energy
  let radius ← c.radii.penetrability energy
  calculatePenetrability lib c.type c.numbers.l (c.waveNumber K energy * radius) eta

/-- Models `Channel::shiftFactor`, `rmatrix/Channel/src/shiftFactor.hpp:6-13`. -/
noncomputable def shiftFactor (K : Constants) (lib : CoulombLibrary) (c : Channel) (energy : ℝ) :
    Outcome ℝ := do
  let eta ← c.eta K energy
  let radius ← c.radii.shiftFactor energy
  calculateShiftFactor lib c.type c.numbers.l (c.waveNumber K energy * radius) eta

/-- Models `Channel::phaseShift`, `rmatrix/Channel/src/phaseShift.hpp:6-13`. -/
noncomputable def phaseShift (K : Constants) (lib : CoulombLibrary) (c : Channel) (energy : ℝ) :
    Outcome ℝ := do
  let eta ← c.eta K energy
  let radius ← c.radii.phaseShift energy
  calculatePhaseShift lib c.type c.numbers.l (c.waveNumber K energy * radius) eta

/-- Models `Channel::coulombPhaseShift`, `rmatrix/Channel/src/coulombPhaseShift.hpp:7-12`. -/
noncomputable def coulombPhaseShift (K : Constants) (c : Channel) (energy : ℝ) : Outcome ℝ := do
  let eta ← c.eta K energy
  calculateCoulombPhaseShift c.type c.numbers.l eta

end Channel

end Verif
