import Verif.Spec.RMatrix
import Verif.Model.Unresolved

/-!
# Other units

Two users who write the same physical data in different units of energy, length, mass and charge.
-/

namespace Verif.Spec

/-- What one old unit is in the new units: a quantity with the value `x` has the value `energy * x` (or
`length * x`, ...) in the new units. -/
structure Units where
  energy : ℝ
  length : ℝ
  mass : ℝ
  charge : ℝ
  energy_pos : 0 < energy
  length_pos : 0 < length
  mass_pos : 0 < mass
  charge_pos : 0 < charge

namespace Units

variable (u : Units)

/-- A possible value in other units. -/
def scaled (factor : ℝ) (x : Outcome ℝ) : Outcome ℝ := x.map (factor * ·)

/-- Planck's constant is an energy times a time, i.e. a length times the square root of an energy and a mass. The
vacuum permittivity is the square of a charge divided by a length and an energy. -/
noncomputable def constants (K : Constants) : Constants where
  hbar := u.length * Real.sqrt (u.energy * u.mass) * K.hbar
  epsilon0 := u.charge ^ 2 / (u.length * u.energy) * K.epsilon0
  hbar_pos := mul_pos (mul_pos u.length_pos (Real.sqrt_pos.mpr (mul_pos u.energy_pos u.mass_pos))) K.hbar_pos
  epsilon0_pos := mul_pos (div_pos (pow_pos u.charge_pos 2) (mul_pos u.length_pos u.energy_pos)) K.epsilon0_pos

noncomputable def particle (p : Particle) : Particle :=
  { p with mass := u.mass * p.mass, charge := u.charge * p.charge }

noncomputable def pair (p : ParticlePair) : ParticlePair :=
  { p with
    particle := u.particle p.particle
    residual := u.particle p.residual
    reducedMass := u.mass * p.reducedMass }

noncomputable def radius (f : ℝ → Outcome ℝ) (E : ℝ) : Outcome ℝ := scaled u.length (f (E / u.energy))

noncomputable def radii (r : ChannelRadii) : ChannelRadii :=
  ⟨u.radius r.penetrability, u.radius r.shiftFactor, u.radius r.phaseShift⟩

noncomputable def channel (c : Channel) : Channel :=
  { c with
    incident := u.pair c.incident
    pair := u.pair c.pair
    q := u.energy * c.q
    radii := u.radii c.radii }

/-- The amplitudes are square roots of energies. -/
noncomputable def resonance (r : Resonance) : Resonance :=
  ⟨u.energy * r.energy, r.widths.map fun x => Real.sqrt u.energy * x, Real.sqrt u.energy * r.eliminated⟩

/-- Cross sections are areas. -/
noncomputable def crossSections {ι : Type} (m : ι → Option ℝ) (id : ι) : Option ℝ :=
  (m id).map (u.length ^ 2 * ·)

/-! ## Breit-Wigner data -/

noncomputable def level (r : BreitWigner.Resonance) : BreitWigner.Resonance :=
  { r with
    energy := u.energy * r.energy
    elastic := u.energy * r.elastic
    capture := u.energy * r.capture
    fission := u.energy * r.fission
    competition := u.energy * r.competition
    elasticToPenetrability := u.energy * r.elasticToPenetrability
    competitionToPenetrability := u.energy * r.competitionToPenetrability }

noncomputable def cache (c : BreitWigner.Cache) : BreitWigner.Cache :=
  ⟨c.elastic.map (u.energy * ·), c.capture.map (u.energy * ·), c.fission.map (u.energy * ·),
    c.total.map (u.energy * ·), c.delta.map (u.energy * ·), c.denominator.map (u.energy ^ 2 * ·)⟩

noncomputable def levelGroup (g : BreitWigner.SpinGroup) : BreitWigner.SpinGroup :=
  ⟨u.channel g.channel, g.resonances.map u.level, u.energy * g.qx, u.cache g.cache⟩

/-! ## Unresolved resonances -/

/-- Average reduced neutron widths are widths divided by the square root of an energy. -/
noncomputable def average (r : Unresolved.Resonance) : Unresolved.Resonance :=
  ⟨u.energy * r.energy, u.energy * r.spacing, Real.sqrt u.energy * r.elastic, u.energy * r.capture,
    u.energy * r.fission, u.energy * r.competition⟩

noncomputable def table (t : Unresolved.Table) : Unresolved.Table where
  resonances := t.resonances.map u.average
  degrees := t.degrees
  spacing E := scaled u.energy (t.spacing (E / u.energy))
  elastic E := scaled (Real.sqrt u.energy) (t.elastic (E / u.energy))
  capture E := scaled u.energy (t.capture (E / u.energy))
  fission E := scaled u.energy (t.fission (E / u.energy))
  competition E := scaled u.energy (t.competition (E / u.energy))

noncomputable def averageGroup (g : Unresolved.SpinGroup) : Unresolved.SpinGroup :=
  ⟨u.channel g.channel, u.table g.table⟩

/-- A system of Breit-Wigner or unresolved groups. -/
def system {G : Type} (f : G → G) (s : LegacySystem G) : LegacySystem G := ⟨s.groups.map f, s.lmax⟩

/-- The data type of a possible result of a legacy evaluation, with the groups as they are left behind. -/
noncomputable def result {G : Type} (f : G → G) (x : Outcome (LegacyMap × G)) : Outcome (LegacyMap × G) :=
  x.map fun v => (u.crossSections v.1, f v.2)

end Units

end Verif.Spec
