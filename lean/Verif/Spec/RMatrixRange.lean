import Verif.Spec.Endf
import Verif.Spec.HardSphere
import Verif.Spec.RMatrix

/-!
# Specification of the cross sections of an R-matrix-limited range
-/

namespace Verif.Spec

open Endf Complex

/-! ## Particle pairs -/

/-- The particles of a pair and its identifier, by the reaction number: elastic scattering, fission (which
does not name its products), or what the library of reactions says. -/
def IsName (reactions : ReactionLibrary) (incident target : Str) (mt : ℤ) (a b : Str) (id : PairID) : Prop :=
  if mt = 2 then a = incident ∧ b = target ∧ id = incident ++ [','] ++ target
  else if mt = 18 then a = incident ∧ b = target ∧ id = "fission".toList
  else reactions incident target mt = .ok (a, b) ∧ id = a ++ [','] ++ b

/-- `pair` is the particle pair that a row of the evaluation describes: masses are in units of the neutron
mass, charges in units of the elementary charge. -/
structure IsPair (reactions : ReactionLibrary) (neutronMass elementaryCharge : ℝ) (incident target : Str)
    (row : ParticlePairRow) (pair : ParticlePair) : Prop where
  name : IsName reactions incident target row.mt pair.particle.id pair.residual.id pair.id
  masses : pair.particle.mass = row.massA * neutronMass ∧ pair.residual.mass = row.massB * neutronMass
  charges : pair.particle.charge = row.chargeA * elementaryCharge ∧
    pair.residual.charge = row.chargeB * elementaryCharge
  first : SpinParity row.spinA row.parityA pair.particle.spin pair.particle.parity
  second : SpinParity row.spinB row.parityB pair.residual.spin pair.residual.parity
  notNegative : 0 ≤ pair.particle.mass ∧ 0 ≤ pair.residual.mass ∧ 0 ≤ pair.particle.charge ∧
    0 ≤ pair.residual.charge
  total : pair.particle.mass + pair.residual.mass ≠ 0
  reduced : pair.reducedMass
    = pair.particle.mass * pair.residual.mass / (pair.particle.mass + pair.residual.mass)
  ratio : pair.massRatio = pair.residual.mass / (pair.particle.mass + pair.residual.mass)

/-! ## Channel functions -/

/-- The wave number `√(2 μ |E_cm + Q|) / ħ` of a channel, `E_cm = E M / (m + M)` for the incident pair. -/
noncomputable def channelWave (K : Constants) (c : Channel) (E : ℝ) : ℝ :=
  Real.sqrt (2 * c.pair.reducedMass * |c.incident.massRatio * E + c.q|) / K.hbar

/-- The Sommerfeld parameter `z Z μ / (4 π ε0 ħ² k)`. -/
noncomputable def channelEta (K : Constants) (c : Channel) (E : ℝ) : ℝ :=
  c.pair.particle.charge * c.pair.residual.charge * c.pair.reducedMass
    / (4 * Real.pi * K.epsilon0 * K.hbar ^ 2 * channelWave K c E)

/-- The Coulomb wave functions of a channel at a radius. -/
def WavesAt (K : Constants) (lib : CoulombLibrary) (c : Channel) (E radius : ℝ) (w : WaveFunctions) : Prop :=
  lib c.numbers.l (channelWave K c E * radius) (channelEta K c E) = .ok w

/-- The penetrability: that of a hard sphere for neutrons, `ρ / (F² + G²)` for charged particles (zero where
the wave functions are out of range and both are given as zero), otherwise one. -/
def PenetrabilityAt (K : Constants) (lib : CoulombLibrary) (c : Channel) (E P : ℝ) : Prop :=
  match c.type with
  | .neutron => c.numbers.l ≤ 4 ∧ ∃ a, c.radii.penetrability E = .ok a ∧
      P = (hardSphere (channelWave K c E * a) c.numbers.l).1
  | .charged => ∃ a w, c.radii.penetrability E = .ok a ∧ WavesAt K lib c E a w ∧
      P = if w.F = 0 ∧ w.G = 0 then 0 else channelWave K c E * a / (w.F ^ 2 + w.G ^ 2)
  | .photon => P = 1
  | .fission => P = 1

/-- The shift factor: that of a hard sphere for neutrons, `P (F F' + G G')` for charged particles, otherwise
zero. -/
def ShiftFactorAt (K : Constants) (lib : CoulombLibrary) (c : Channel) (E S : ℝ) : Prop :=
  match c.type with
  | .neutron => ∃ a, c.radii.shiftFactor E = .ok a ∧
      S = (hardSphere (channelWave K c E * a) c.numbers.l).2
  | .charged => ∃ a w, c.radii.shiftFactor E = .ok a ∧ WavesAt K lib c E a w ∧
      S = if w.F = 0 ∧ w.G = 0 then 0 else
        channelWave K c E * a / (w.F ^ 2 + w.G ^ 2) * (w.F * w.dF + w.G * w.dG)
  | .photon => S = 0
  | .fission => S = 0

/-- The phase shift `φ`: that of a hard sphere for neutrons, the angle with cosine and sine proportional to
`G` and `F` for charged particles, otherwise zero. -/
def PhaseAt (K : Constants) (lib : CoulombLibrary) (c : Channel) (E φ : ℝ) : Prop :=
  match c.type with
  | .neutron => ∃ a, c.radii.phaseShift E = .ok a ∧
      exp (2 * I * φ) = hardSpherePhase (channelWave K c E * a) c.numbers.l
  | .charged => ∃ a w, c.radii.phaseShift E = .ok a ∧ WavesAt K lib c E a w ∧
      w.G = Real.sqrt (w.F ^ 2 + w.G ^ 2) * Real.cos φ ∧ w.F = Real.sqrt (w.F ^ 2 + w.G ^ 2) * Real.sin φ
  | .photon => φ = 0
  | .fission => φ = 0

/-- The Coulomb phase shift difference `Σ arctan(η/n)`, zero for neutral channels. -/
noncomputable def coulombAt (K : Constants) (c : Channel) (E : ℝ) : ℝ :=
  if c.type = .charged then ∑ n ∈ Finset.range c.numbers.l, Real.arctan (channelEta K c E / (n + 1 : ℕ)) else 0

/-! ## Spin groups -/

/-- A level of a spin group: its energy and a reduced width for each channel. -/
structure RLevel (n : ℕ) where
  energy : ℝ
  width : Fin n → ℝ

/-- A spin group at an energy: its channels, with the eliminated (capture) ones and those that have the shift
factor as the boundary condition; the penetrabilities, shift factors and phases at that energy; and its
levels. -/
structure RGroup where
  n : ℕ
  channel : Fin n → Channel
  eliminated : Fin n → Prop
  own : Fin n → Prop
  P : Fin n → ℝ
  S : Fin n → ℝ
  φ : Fin n → ℝ
  levels : List (RLevel n)

namespace RGroup

open Classical in
/-- The reduced width with which a channel takes part: none if it is eliminated or closed. -/
noncomputable def amplitude (g : RGroup) (E : ℝ) (v : RLevel g.n) (c : Fin g.n) : ℝ :=
  if g.eliminated c ∨ (g.channel c).incident.massRatio * E + (g.channel c).q < 0 then 0 else v.width c

open Classical in
/-- Half the width of the eliminated channels. -/
noncomputable def captureHalf (g : RGroup) (v : RLevel g.n) : ℝ :=
  ∑ c, if g.eliminated c then v.width c ^ 2 else 0

/-- `R_{cc'} = Σ γ_c γ_c' / (E_λ - E - i Γ_γ / 2)`. -/
noncomputable def R (g : RGroup) (E : ℝ) : Matrix (Fin g.n) (Fin g.n) ℂ :=
  Matrix.of fun c c' => (g.levels.map fun v =>
    (g.amplitude E v c : ℂ) * g.amplitude E v c' / ((v.energy : ℂ) - E - I * g.captureHalf v)).sum

open Classical in
/-- `L_c = S_c - B_c + i P_c`, where `B_c` is the shift factor or the number given in the evaluation. -/
noncomputable def L (g : RGroup) (c : Fin g.n) : ℂ :=
  (if g.own c then 0 else (g.S c : ℂ) - (g.channel c).boundary) + I * g.P c

/-- `T = √P (1 - R L)⁻¹ R √P`. -/
noncomputable def T (g : RGroup) (E : ℝ) : Matrix (Fin g.n) (Fin g.n) ℂ :=
  Matrix.of fun c c' => (Real.sqrt (g.P c) : ℂ) *
    ((1 - g.R E * Matrix.diagonal g.L)⁻¹ * g.R E) c c' * (Real.sqrt (g.P c') : ℂ)

/-- `U = Ω (1 + 2 i T) Ω`, `Ω = exp(i (w - φ))`. -/
noncomputable def U (g : RGroup) (K : Constants) (E : ℝ) (c c' : Fin g.n) : ℂ :=
  collision (g.T E) (fun c => coulombAt K (g.channel c) E) g.φ c c'

/-- The channels of the incident pair. -/
def isIncident (g : RGroup) (c : Fin g.n) : Prop := (g.channel c).pair.id = (g.channel c).incident.id

open Classical in
/-- `Σ |exp(2 i w_c) δ_cc' - U_cc'|²` over the incident channels `c` and all channels `c'` of a pair. -/
noncomputable def into (g : RGroup) (K : Constants) (E : ℝ) (out : PairID) : ℝ :=
  ∑ c, if g.isIncident c then ∑ c', if (g.channel c').pair.id = out then
    normSq ((if c = c' then exp (2 * I * coulombAt K (g.channel c) E) else 0) - g.U K E c c') else 0 else 0

open Classical in
/-- `Σ (1 - Σ |U_cc'|²)` over the incident channels `c`. -/
noncomputable def capture (g : RGroup) (K : Constants) (E : ℝ) : ℝ :=
  ∑ c, if g.isIncident c then 1 - ∑ c', normSq (g.U K E c c') else 0

/-- A channel takes part if it is an incident channel, or if a level has a width in it. -/
def TakesPart (g : RGroup) (c : Fin g.n) : Prop :=
  ¬ g.eliminated c ∧ (g.isIncident c ∨ ∃ v ∈ g.levels, v.width c ≠ 0)

end RGroup

/-- The reduced width for a width of the evaluation, which may give either. -/
def IsRWidth (K : Constants) (lib : CoulombLibrary) (reduced : ℤ) (c : Channel) (energy width γ : ℝ) : Prop :=
  if reduced ≠ 0 then γ = width
  else if width = 0 then γ = 0
  else ∃ P, PenetrabilityAt K lib c energy P ∧ P ≠ 0 ∧ ReducedWidth width P γ

/-- `g` is the spin group that a record of an evaluation describes, at the energy `E`. -/
structure IsRGroup (K : Constants) (lib : CoulombLibrary) (incident : ParticlePair)
    (pairs : List ParticlePair) (p : RMatrixLimited) (E : ℝ) (record : SpinGroupRecord) (g : RGroup) :
    Prop where
  channels : List.Forall₂ (IsChannel incident pairs p.pairs record.spin record.parity) record.channels
    (List.ofFn g.channel)
  /-- Capture channels are eliminated; the flag SHF tells which channels have the shift factor as the boundary
  condition. -/
  flags : ∀ (i : Fin g.n) row pairRow, record.channels[i.1]? = some row →
    p.pairs[row.pairNumber - 1]? = some pairRow →
    (g.eliminated i ↔ pairRow.mt = 102) ∧ (g.own i ↔ pairRow.shiftFactorFlag = 0)
  penetrability : ∀ i, g.TakesPart i → 0 ≤ g.P i ∧ PenetrabilityAt K lib (g.channel i) E (g.P i)
  shiftFactor : ∀ i, g.TakesPart i → ¬ g.own i → ShiftFactorAt K lib (g.channel i) E (g.S i)
  phase : ∀ i, g.TakesPart i → PhaseAt K lib (g.channel i) E (g.φ i)
  levels : List.Forall₂ (fun (r : ℝ × List ℝ) (v : RLevel g.n) => v.energy = r.1 ∧
    ∀ i : Fin g.n, ∃ width, r.2[i.1]? = some width ∧
      IsRWidth K lib p.reducedWidths (g.channel i) r.1 width (v.width i)) record.resonances g.levels
  /-- The formulas for R and T involve no division by zero, apart from levels without widths. -/
  finite : (∀ v ∈ g.levels, (∃ c, v.width c ≠ 0) → ¬ (v.energy = E ∧ g.captureHalf v = 0)) ∧
    (1 - g.R E * Matrix.diagonal g.L).det ≠ 0

/-! ## The range -/

/-- The row of a channel refers to a capture pair. -/
def Captures (p : RMatrixLimited) (row : ChannelRow) : Prop :=
  ∃ pairRow, p.pairs[row.pairNumber - 1]? = some pairRow ∧ pairRow.mt = 102

/-- The spin groups for which C70 is proved: those of `C30_partial`, with one capture channel at most and
different energies. -/
structure Ordered (pairs : List ParticlePair) (p : RMatrixLimited) (record : SpinGroupRecord) : Prop where
  count : record.channels.length ≤ p.pairs.length
  number : ∀ row ∈ record.channels, 1 ≤ row.pairNumber ∧ row.pairNumber ≤ p.pairs.length
  type : ∀ (i : ℕ) row, record.channels[i]? = some row → ∀ pair here there, p.pairs[i]? = some here →
    pairs[row.pairNumber - 1]? = some pair → p.pairs[row.pairNumber - 1]? = some there →
    ∃ type, IsType pair here.mt type ∧ IsType pair there.mt type
  capture : ∀ (i j : ℕ) a b, record.channels[i]? = some a → record.channels[j]? = some b →
    Captures p a → Captures p b → i = j
  energies : (record.resonances.map Prod.fst).Nodup
  resonances : record.numberResonances = 0 → record.resonances = []

/-- Two spin groups have the same J and parity. -/
def SameSpinParity (a b : SpinGroupRecord) : Prop :=
  ∃ J π, SpinParity a.spin a.parity J π ∧ SpinParity b.spin b.parity J π

/-- Reactions that emit a particle: all but capture and fission. -/
def Emits (mt : ℤ) : Prop := mt ∉ [102, 18, 19, 20, 21, 38]

/-- The evaluations for which acceptance is proved: `pair` is the incident pair. -/
structure PhysicalRMatrix (reactions : ReactionLibrary) (neutronMass elementaryCharge : ℝ)
    (incident target : Str) (p : RMatrixLimited) (pairs : List ParticlePair) (pair : ParticlePair) : Prop where
  formalism : p.formalism = 3
  described : List.Forall₂ (IsPair reactions neutronMass elementaryCharge incident target) p.pairs pairs
  distinct : (pairs.map ParticlePair.id).Nodup
  neutral : ∀ row ∈ p.pairs, row.chargeA = 0
  masses : ∀ row ∈ p.pairs, Emits row.mt → 0 < row.massA * neutronMass ∧ 0 < row.massB * neutronMass
  elastic : ∃ (i : ℕ) (row : ParticlePairRow), p.pairs[i]? = some row ∧ row.mt = 2 ∧ pairs[i]? = some pair
  capture : ∃ row ∈ p.pairs, row.mt = 102
  some : p.spinGroups ≠ []
  ordered : ∀ record ∈ p.spinGroups, Ordered pairs p record
  groups : p.spinGroups.Pairwise fun a b => ¬ SameSpinParity a b
  spins : ∀ record ∈ p.spinGroups, HalfInt |record.spin| ∧ ∀ row ∈ record.channels, HalfInt row.s
  entrance : ∀ record ∈ p.spinGroups, ∃ row ∈ record.channels, ∃ pairRow,
    p.pairs[row.pairNumber - 1]? = Option.some pairRow ∧ pairRow.mt = 2
  channels : ∀ record ∈ p.spinGroups,
    (record.channels.map fun row => (row.pairNumber, row.l, row.s)).Nodup
  widths : ∀ record ∈ p.spinGroups, ∀ v ∈ record.resonances, record.channels.length ≤ v.2.length
  particles : ∀ record ∈ p.spinGroups, ∀ row ∈ record.channels, ∀ pairRow,
    p.pairs[row.pairNumber - 1]? = Option.some pairRow → Emits pairRow.mt → row.l ≤ 4 ∧ 0 < row.trueRadius
  /-- Widths that are not reduced are only given where the penetrability is not zero. -/
  thresholds : p.reducedWidths = 0 → ∀ record ∈ p.spinGroups, ∀ v ∈ record.resonances,
    ∀ row ∈ p.pairs, pair.massRatio * v.1 + row.q ≠ 0

/-- The same with channels for charged particles: only the incident particle has to be neutral. -/
structure AdmissibleRMatrix (reactions : ReactionLibrary) (neutronMass elementaryCharge : ℝ)
    (incident target : Str) (p : RMatrixLimited) (pairs : List ParticlePair) (pair : ParticlePair) : Prop where
  formalism : p.formalism = 3
  described : List.Forall₂ (IsPair reactions neutronMass elementaryCharge incident target) p.pairs pairs
  distinct : (pairs.map ParticlePair.id).Nodup
  neutral : ∀ row ∈ p.pairs, row.mt = 2 → row.chargeA = 0
  masses : ∀ row ∈ p.pairs, Emits row.mt → 0 < row.massA * neutronMass ∧ 0 < row.massB * neutronMass
  elastic : ∃ (i : ℕ) (row : ParticlePairRow), p.pairs[i]? = some row ∧ row.mt = 2 ∧ pairs[i]? = some pair
  capture : ∃ row ∈ p.pairs, row.mt = 102
  some : p.spinGroups ≠ []
  ordered : ∀ record ∈ p.spinGroups, Ordered pairs p record
  groups : p.spinGroups.Pairwise fun a b => ¬ SameSpinParity a b
  spins : ∀ record ∈ p.spinGroups, HalfInt |record.spin| ∧ ∀ row ∈ record.channels, HalfInt row.s
  entrance : ∀ record ∈ p.spinGroups, ∃ row ∈ record.channels, ∃ pairRow,
    p.pairs[row.pairNumber - 1]? = Option.some pairRow ∧ pairRow.mt = 2
  channels : ∀ record ∈ p.spinGroups,
    (record.channels.map fun row => (row.pairNumber, row.l, row.s)).Nodup
  widths : ∀ record ∈ p.spinGroups, ∀ v ∈ record.resonances, record.channels.length ≤ v.2.length
  particles : ∀ record ∈ p.spinGroups, ∀ row ∈ record.channels, ∀ pairRow,
    p.pairs[row.pairNumber - 1]? = Option.some pairRow → Emits pairRow.mt →
      0 < row.trueRadius ∧ (¬ 0 < pairRow.chargeA * elementaryCharge → row.l ≤ 4)

/-- The channels work at an energy: it is no threshold, and for the channels with charged particles there are
Coulomb wave functions that are not both zero, and the Coulomb phase shifts are finite. -/
structure WorkingEnergy (K : Constants) (lib : CoulombLibrary) (p : RMatrixLimited)
    (pairs : List ParticlePair) (pair : ParticlePair) (E : ℝ) : Prop where
  threshold : ∀ row ∈ p.pairs, pair.massRatio * E + row.q ≠ 0
  charged : ∀ record ∈ p.spinGroups, ∀ row ∈ record.channels, ∀ pairRow exit,
    p.pairs[row.pairNumber - 1]? = some pairRow → pairs[row.pairNumber - 1]? = some exit →
    Emits pairRow.mt → 0 < exit.particle.charge →
    let k := Real.sqrt (2 * exit.reducedMass * |pair.massRatio * E + pairRow.q|) / K.hbar
    let η := exit.particle.charge * exit.residual.charge * exit.reducedMass
      / (4 * Real.pi * K.epsilon0 * K.hbar ^ 2 * k)
    (∃ w, lib row.l (k * row.trueRadius) η = .ok w ∧ ¬ (w.F = 0 ∧ w.G = 0)) ∧
      (∃ w, lib row.l (k * row.effectiveRadius) η = .ok w) ∧
      ∀ n : ℕ, 1 ≤ n → n ≤ row.l → Real.tan (η / n) ≠ 0

/-- The statistical factor `(2J+1) / ((2i+1) (2I+1))` of a spin group. -/
def groupFactor (incident : ParticlePair) (record : SpinGroupRecord) : ℚ :=
  (2 * |record.spin| + 1) / ((2 * incident.particle.spin + 1) * (2 * incident.residual.spin + 1))

/-- What C70 says of the cross sections `m` that are reported for a range: `incident` is the pair with
MT = 2, `q` its Q value. -/
structure IsRMatrix (K : Constants) (lib : CoulombLibrary) (incident : ParticlePair) (q : ℝ)
    (pairs : List ParticlePair) (p : RMatrixLimited) (E : ℝ) (gs : List RGroup)
    (m : ReactionID → Option ℝ) : Prop where
  groups : List.Forall₂ (IsRGroup K lib incident pairs p E) p.spinGroups gs
  elastic : m (.elastic incident.id) = some ((List.zipWith (fun record g =>
    Real.pi / (2 * incident.reducedMass * |incident.massRatio * E + q| / K.hbar ^ 2)
      * groupFactor incident record * RGroup.into g K E incident.id) p.spinGroups gs).sum)
  capture : m (.transition incident.id "capture".toList) = some ((List.zipWith (fun record g =>
    Real.pi / (2 * incident.reducedMass * |incident.massRatio * E + q| / K.hbar ^ 2)
      * groupFactor incident record * RGroup.capture g K E) p.spinGroups gs).sum)
  /-- The other reactions, which are not reported if they have no widths. -/
  reaction : ∀ out, out ≠ incident.id → out ≠ "capture".toList →
    (m (.transition incident.id out)).getD 0 = (List.zipWith (fun record g =>
      Real.pi / (2 * incident.reducedMass * |incident.massRatio * E + q| / K.hbar ^ 2)
        * groupFactor incident record * RGroup.into g K E out) p.spinGroups gs).sum
  /-- There are no cross sections at zero energy. -/
  finite : 2 * incident.reducedMass * |incident.massRatio * E + q| ≠ 0
  /-- Nothing else. -/
  other : ∀ id, (m id).isSome → id = .elastic incident.id ∨ ∃ out, out ≠ incident.id ∧
    id = .transition incident.id out

end Verif.Spec
