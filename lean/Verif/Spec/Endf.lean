import Verif.Model.Endf
import Verif.Spec.QuantumNumbers

/-!
# Specification of the conversion of ENDF data
-/

namespace Verif

namespace Spec

open Endf

/-- What is needed of an l value for its reduced widths to be numbers: a positive mass, an l for which
there are penetrabilities, no resonance at zero energy, and positive radii at all of them. -/
structure Usable (neutronMass ap : ℝ) (nro : Option (ℝ → Outcome ℝ)) (naps : ℤ)
    (lvalue : ReichMooreLValue) : Prop where
  awri : 0 < lvalue.awri
  l : lvalue.l ≤ 4
  energies : ∀ r ∈ lvalue.resonances, r.energy ≠ 0
  radii : ∃ radii, makeChannelRadii (if lvalue.apl ≠ 0 then lvalue.apl else ap) nro naps lvalue.awri
    neutronMass = .ok radii ∧ ∀ r ∈ lvalue.resonances, ∃ a, 0 < a ∧ radii.penetrability r.energy = .ok a

/-- The spins of a Reich-Moore evaluation can be coupled: the l values are given once each, are below the
number of l values needed for convergence, and for each resonance the absolute value of its J is a
possible one; if both J and -J occur, both channel spins have to allow that J. -/
structure CoupledSpins (p : ReichMoore) : Prop where
  possible : ∀ lv ∈ p.lValues, ∀ r ∈ lv.resonances, lv.l < p.nlsc ∧
    ∃ s, Couples (1 / 2) p.spin s ∧ Couples lv.l s |r.spin|
  both : ∀ lv ∈ p.lValues, ∀ r ∈ lv.resonances, ∀ r' ∈ lv.resonances, r.spin ≠ 0 → r'.spin = -r.spin →
    ∃ s s', s ≠ s' ∧ (Couples (1 / 2) p.spin s ∧ Couples lv.l s |r.spin|) ∧
      Couples (1 / 2) p.spin s' ∧ Couples lv.l s' |r.spin|

/-- No l has fission widths for both J and -J. -/
def FissionOnce (p : ReichMoore) : Prop :=
  ∀ lv ∈ p.lValues, ∀ r ∈ lv.resonances, ∀ r' ∈ lv.resonances, r.spin ≠ 0 → r'.spin = -r.spin →
    ¬ ((r.firstFissionWidth ≠ 0 ∨ r.secondFissionWidth ≠ 0) ∧
      (r'.firstFissionWidth ≠ 0 ∨ r'.secondFissionWidth ≠ 0))

/-! ## Radii -/

/-- The radii that an evaluation offers. -/
inductive RadiusSource
  /-- `0.123 (m A)^(1/3) + 0.08` from the mass of the target. -/
  | mass
  /-- The energy independent radius AP. -/
  | constant
  /-- The table of energy dependent radii, given if NRO is 1. -/
  | table
  deriving DecidableEq

/-- What the ENDF-6 format (section 2.1) prescribes: the radius for penetrabilities and shift factors, and
the radius for phase shifts. All other combinations of NRO and NAPS are not allowed. -/
def prescribedRadii : (nro : Bool) → (naps : ℤ) → Option (RadiusSource × RadiusSource)
  | false, 0 => some (.mass, .constant)
  | false, 1 => some (.constant, .constant)
  | true, 0 => some (.mass, .table)
  | true, 1 => some (.table, .table)
  | true, 2 => some (.constant, .table)
  | _, _ => none

/-- `a` is the radius from that source at an energy. -/
def IsRadius (ap : ℝ) (table : Option (ℝ → Outcome ℝ)) (mass energy : ℝ) (a : Outcome ℝ) :
    RadiusSource → Prop
  | .mass => ∃ root : ℝ, 0 ≤ root ∧ root ^ 3 = mass ∧ a = .ok (0.123 * root + 0.08)
  | .constant => a = .ok ap
  | .table => ∃ f, table = some f ∧ a = f energy

/-- The interpolation laws of the ENDF-6 format. -/
inductive Law
  | histogram
  | linLin
  | linLog
  | logLin
  | logLog
  deriving DecidableEq

namespace Law

/-- The interpolation codes, section 0.5.2.1 of the ENDF-6 manual. -/
def ofCode : ℤ → Option Law
  | 1 => some .histogram
  | 2 => some .linLin
  | 3 => some .linLog
  | 4 => some .logLin
  | 5 => some .logLog
  | _ => none

/-- The value at `x` between the points `(x0, y0)` and `(x1, y1)`: `y` is constant, linear in `x`, linear in
`ln x`, or `ln y` is linear in `x` or in `ln x`. -/
noncomputable def between (x0 y0 x1 y1 x : ℝ) : Law → ℝ
  | .histogram => y0
  | .linLin => y0 + (y1 - y0) * (x - x0) / (x1 - x0)
  | .linLog => y0 + (y1 - y0) * Real.log (x / x0) / Real.log (x1 / x0)
  | .logLin => y0 * Real.exp (Real.log (y1 / y0) * (x - x0) / (x1 - x0))
  | .logLog => y0 * Real.exp (Real.log (y1 / y0) * Real.log (x / x0) / Real.log (x1 / x0))

/-- The table of the library for a law. -/
def table (tables : InterpolationLibrary) : Law → Unresolved.Interpolation
  | .histogram => tables.histogram
  | .linLin => tables.linLin
  | .linLog => tables.linLog
  | .logLin => tables.logLin
  | .logLog => tables.logLog

end Law

/-- The table of radii of an evaluation: every region has a table with the law of its interpolation code,
and they are joined. -/
def IsRadiusTable (tables : InterpolationLibrary) (radius : ScatteringRadius) (f : ℝ → Outcome ℝ) : Prop :=
  ∃ fs, List.Forall₂ (fun (region : (List ℝ × List ℝ) × ℤ) g => ∃ law, Law.ofCode region.2 = some law ∧
      law.table tables region.1.1 region.1.2 = .ok g) (radius.regions.zip radius.interpolants) fs ∧
    tables.multiRegion fs = .ok f

/-! ## Widths -/

/-- `γ` is the reduced width of a channel with penetrability `P` and partial width `G`. -/
def ReducedWidth (G P γ : ℝ) : Prop := 2 * P * γ ^ 2 = |G| ∧ (0 < γ ↔ 0 < G) ∧ (γ < 0 ↔ G < 0)

/-! ## R-matrix limited -/

/-- The type of channel that goes with a reaction number: photons for capture, fission for the total and
the partial fission reactions, otherwise by the charge of the outgoing particle. -/
inductive IsType (pair : ParticlePair) : ℤ → ChannelType → Prop
  | capture : IsType pair 102 .photon
  | fission {mt} : mt ∈ [18, 19, 20, 21, 38] → IsType pair mt .fission
  | charged {mt} : mt ∉ [102, 18, 19, 20, 21, 38] → 0 < pair.particle.charge → IsType pair mt .charged
  | neutral {mt} : mt ∉ [102, 18, 19, 20, 21, 38] → pair.particle.charge ≤ 0 → IsType pair mt .neutron

/-- The sign of a spin is its parity; the separate value counts for spin 0. -/
def SpinParity (spin : ℚ) (parity : ℤ) (J : ℚ) (π : ℤ) : Prop :=
  J = |spin| ∧ (π = 1 ∨ π = -1) ∧
    (π = 1 ↔ 0 < spin ∨ spin = 0 ∧ 0 ≤ parity)

/-- `c` is the channel that a row of an R-matrix-limited spin group describes: it has the particle pair,
the Q value and the type of reaction of the pair number that the row refers to. -/
structure IsChannel (incident : ParticlePair) (pairs : List ParticlePair) (rows : List ParticlePairRow)
    (spin : ℚ) (parity : ℤ) (row : ChannelRow) (c : Channel) : Prop where
  incident : c.incident = incident
  number : 1 ≤ row.pairNumber
  pair : pairs[row.pairNumber - 1]? = some c.pair
  reaction : ∃ pairRow, rows[row.pairNumber - 1]? = some pairRow ∧ c.q = pairRow.q ∧
    IsType c.pair pairRow.mt c.type
  l : c.numbers.l = row.l
  s : c.numbers.s = row.s
  jpi : SpinParity spin parity c.numbers.J c.numbers.parity
  boundary : c.boundary = row.boundary
  radii : ∀ energy, c.radii.penetrability energy = .ok row.trueRadius ∧
    c.radii.shiftFactor energy = .ok row.trueRadius ∧
    c.radii.phaseShift energy = .ok row.effectiveRadius

/-! ## Dispatch -/

/-- The formalisms that the library offers. -/
inductive Formalism
  | singleLevelBreitWigner
  | multiLevelBreitWigner
  /-- R-matrix theory with the shift factor as the boundary condition. -/
  | rmatrixShiftFactor
  /-- R-matrix theory with given boundary conditions. -/
  | rmatrixConstant
  | unresolved
  deriving DecidableEq

/-- The formalism of a compound system. -/
def formalismOf : SystemVariant → Formalism
  | .singleLevel _ => .singleLevelBreitWigner
  | .multiLevel _ => .multiLevelBreitWigner
  | .shiftFactor _ => .rmatrixShiftFactor
  | .constant _ => .rmatrixConstant
  | .unresolved _ => .unresolved

/-- The ranges that are supported, by the flags LRU and LRF, the sort of parameters that come with them,
and for LRF = 7 the flags KRM and SHF. -/
inductive Supported : Range → Formalism → Prop
  | singleLevel {r p} : r.type = 1 → r.representation = 1 → r.parameters = .singleLevel p →
      Supported r .singleLevelBreitWigner
  | multiLevel {r p} : r.type = 1 → r.representation = 2 → r.parameters = .multiLevel p →
      Supported r .multiLevelBreitWigner
  | reichMoore {r p} : r.type = 1 → r.representation = 3 → r.parameters = .reichMoore p →
      Supported r .rmatrixShiftFactor
  | shiftFactor {r p pair pairs} : r.type = 1 → r.representation = 7 → r.parameters = .rmatrixLimited p →
      p.formalism = 3 → p.pairs = pair :: pairs → pair.shiftFactorFlag = 0 →
      Supported r .rmatrixShiftFactor
  | constant {r p pair pairs} : r.type = 1 → r.representation = 7 → r.parameters = .rmatrixLimited p →
      p.formalism = 3 → p.pairs = pair :: pairs → pair.shiftFactorFlag ≠ 0 →
      Supported r .rmatrixConstant
  | unresolvedConstant {r p} : r.type = 2 → r.parameters = .unresolvedConstant p →
      Supported r .unresolved
  | unresolvedFission {r p} : r.type = 2 → r.parameters = .unresolvedFission p → Supported r .unresolved
  | unresolvedDependent {r p} : r.type = 2 → r.parameters = .unresolvedDependent p →
      Supported r .unresolved

end Spec

end Verif
