import Verif.Spec.RMatrix
import Verif.Spec.Continuity

/-!
# Cross sections at very low energies

The limits that quantum mechanics gives for slow neutrons: only s-waves react, reaction cross sections are
inversely proportional to the velocity, and the elastic cross section is constant.
-/

namespace Verif.Spec

open Complex

/-- The matrix `(1 - R L)⁻¹ R` at the energy zero. `P` and `S` are the penetrabilities and shift factors of
the channels there. -/
noncomputable def innerMatrix (option : BoundaryOption) (channels : List Channel)
    (resonances : List Resonance) (P S : Fin channels.length → ℝ) :
    Matrix (Fin channels.length) (Fin channels.length) ℂ :=
  (levelDenominator option channels resonances 0 P S)⁻¹ * rMatrix channels resonances 0

/-- The channel ratio of an s-wave at the unit of energy; other waves do not take part. -/
noncomputable def sWaveRatio (K : Constants) (c : Channel) (radius : ℝ) : ℝ :=
  if c.numbers.l = 0 then c.waveNumber K 1 * radius else 0

/-- The limit of the cross section times the square root of the energy: `π/k² g` times `4 P_c P_c' |M_cc'|²`
for a reaction, and times `4 P_c (Im M_cc - Σ_c' P_c' |M_cc'|²)` for capture, where `M` is the inner matrix
and the penetrability of the incident channel is its channel ratio. -/
noncomputable def slowReaction (K : Constants) (channels : List Channel)
    (M : Matrix (Fin channels.length) (Fin channels.length) ℂ) (P a : Fin channels.length → ℝ)
    (id : ReactionID) : ℝ :=
  ∑ c : Fin channels.length, if channels[c].isIncident then
    incidentFactor K channels 1 * (4 * sWaveRatio K channels[c] (a c) *
      ((∑ c' : Fin channels.length, if channels[c'].reaction = id then P c' * normSq (M c c') else 0)
      + if captureID channels = some id then (M c c).im - ∑ c', P c' * normSq (M c c') else 0))
  else 0

/-- The limit of an elastic cross section: `4π g |b - a M_cc|²` for the same channel, in which `a` is the
channel radius and `b` the radius for the phase shifts, and `4π g a² |M_cc'|²` for another one. -/
noncomputable def slowScattering (K : Constants) (channels : List Channel)
    (M : Matrix (Fin channels.length) (Fin channels.length) ℂ) (a b : Fin channels.length → ℝ)
    (id : ReactionID) : ℝ :=
  ∑ c : Fin channels.length, if channels[c].isIncident then
    ∑ c' : Fin channels.length, if channels[c'].reaction = id then
      incidentFactor K channels 1 * (4 * if c = c' then
        normSq ((sWaveRatio K channels[c] (b c) : ℂ) - sWaveRatio K channels[c] (a c) * M c c)
      else sWaveRatio K channels[c] (a c) * sWaveRatio K channels[c'] (a c') * normSq (M c c'))
    else 0
  else 0

/-- A channel without charge whose radii are continuous at the energy zero; a neutron channel without
threshold if it is an incident one. -/
structure SlowChannel (c : Channel) : Prop where
  neutral : c.type ≠ .charged
  momentum : c.type = .neutron → c.numbers.l ≤ 4
  penetrability : ContinuousRadius c.radii.penetrability 0
  nonneg : c.type = .neutron → ∀ᶠ E in nhds 0, ∀ a, c.radii.penetrability E = .ok a → 0 ≤ a
  shiftFactor : ContinuousRadius c.radii.shiftFactor 0
  phaseShift : ContinuousRadius c.radii.phaseShift 0
  massRatio : 0 < c.incident.massRatio
  incident : c.isIncident → c.type = .neutron ∧ c.q = 0 ∧ 0 < c.pair.reducedMass

/-- What the limits are made from: the functions and radii of the channels at the energy zero, where there
must be no pole. -/
structure Slow (option : BoundaryOption) (K : Constants) (lib : CoulombLibrary) (channels : List Channel)
    (resonances : List Resonance) (P S a b : Fin channels.length → ℝ) : Prop where
  slow : ∀ c ∈ channels, SlowChannel c
  penetrability : ∀ i : Fin channels.length, channels[i].penetrability K lib 0 = .ok (P i)
  shiftFactor : ∀ i : Fin channels.length, channels[i].shiftFactor K lib 0 = .ok (S i)
  channelRadius : ∀ i : Fin channels.length, channels[i].radii.penetrability 0 = .ok (a i)
  phaseRadius : ∀ i : Fin channels.length, channels[i].radii.phaseShift 0 = .ok (b i)
  widths : ∀ r ∈ resonances, r.widths.length = channels.length
  noPole : ∀ r ∈ resonances, ¬ (r.energy = 0 ∧ r.eliminated = 0)
  invertible : option = .constant → (levelDenominator option channels resonances 0 P S).det ≠ 0

/-- The limits `v` of the reactions and `u` of elastic scattering of a spin group. -/
def SlowGroup (option : BoundaryOption) (K : Constants) (lib : CoulombLibrary) (channels : List Channel)
    (resonances : List Resonance) (v u : ReactionID → ℝ) : Prop :=
  ∃ P S a b, Slow option K lib channels resonances P S a b ∧
    v = slowReaction K channels (innerMatrix option channels resonances P S) P a ∧
    u = slowScattering K channels (innerMatrix option channels resonances P S) a b

/-- A reaction to nothing but incident channels, such as elastic scattering. -/
def Scatters (channels : List Channel) (id : ReactionID) : Prop :=
  (∀ c ∈ channels, c.reaction = id → c.isIncident) ∧ captureID channels ≠ some id

end Verif.Spec
