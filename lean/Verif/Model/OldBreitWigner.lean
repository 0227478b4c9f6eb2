import Verif.Model.Endf

/-!
# The older single and multi-level Breit-Wigner code

Everything in namespace `breitWigner` of the code, `breitWigner/...`, and `pack.hpp`. Files there that are
never included (`breitWigner/CRTP`, `breitWigner/lvalue/Type/src/call.hpp`,
`breitWigner/resonance/src/call.hpp`, `breitWigner/multiLevel/Apply/src/resonance.hpp` and others) are not
compiled and not modelled.
-/

namespace Verif

namespace Old

/-! ## Packs -/

/-- Models `Pack< T, ..., T >`, `pack.hpp:11-45`, for components of one type. -/
abbrev Pack (n : ℕ) (α : Type) := Fin n → α

namespace Pack

variable {n : ℕ} {α : Type}

/-- Models `Pack::operator+`, `pack.hpp:14-19,39-40`. -/
def add [Add α] (a b : Pack n α) : Pack n α := fun i => a i + b i

/-- Models `Pack::operator-`, `pack.hpp:21-26,41-42`. -/
def sub [Sub α] (a b : Pack n α) : Pack n α := fun i => a i - b i

/-- Models `Pack::operator*`, `pack.hpp:28-32,43-44`. -/
def mul [Mul α] (a : Pack n α) (value : α) : Pack n α := fun i => a i * value

/-- `ranges::accumulate( packs, initial )`. -/
def accumulate [Add α] (packs : List (Pack n α)) (initial : Pack n α) : Pack n α :=
  packs.foldl add initial

end Pack

/-- Models `breitWigner::CrossSection`, `breitWigner/CrossSection.hpp:1-29`. -/
@[ext]
structure CrossSection where
  elastic : ℝ
  capture : ℝ
  fission : ℝ

namespace CrossSection

/-- Models `CrossSection::operator+`, `breitWigner/CrossSection.hpp:18-22`. -/
noncomputable def add (a b : CrossSection) : CrossSection :=
  ⟨a.elastic + b.elastic, a.capture + b.capture, a.fission + b.fission⟩

/-- Models `CrossSection::operator-`, `breitWigner/CrossSection.hpp:24-28`. -/
noncomputable def sub (a b : CrossSection) : CrossSection :=
  ⟨a.elastic - b.elastic, a.capture - b.capture, a.fission - b.fission⟩

end CrossSection

/-! ## Sorting and grouping -/

/-- Any implementation of `std::sort` with the comparison `key( left ) < key( right )`: the order of
elements with equal keys is not specified. -/
structure Sorting {α : Type} (key : α → ℝ) where
  run : List α → List α
  perm : ∀ l, (run l).Perm l
  sorted : ∀ l, (run l).Pairwise fun a b => key a ≤ key b

/-- `ranges::view::group_by` with the predicate `key( first ) == key( other )`: every element of a group is
compared with the first one of the group. -/
noncomputable def groupBy {α : Type} (key : α → ℝ) : List α → List (List α)
  | [] => []
  | x :: xs =>
    (x :: xs.takeWhile fun y => key x = key y) :: groupBy key (xs.dropWhile fun y => key x = key y)
  termination_by l => l.length
  decreasing_by
    have := (List.dropWhile_sublist (l := xs) fun y => decide (key x = key y)).length_le
    simpa using Nat.lt_succ_of_le this

/-! ## Wave number and radii -/

/-- The constant in `NeutronWaveNumber`, `src/neutronWaveNumber.hpp:3-5`: a positive number. -/
structure WaveConstant where
  value : ℝ
  pos : 0 < value

/-- Models `NeutronWaveNumber::operator()`, `src/neutronWaveNumber.hpp:6-21`, and `Type::neutronWaveNumber`,
`breitWigner/Type/src/neutronWaveNumber.hpp:1-11` and `reichMoore/Base/src/neutronWaveNumber.hpp:1-11`. -/
noncomputable def waveNumber (c : WaveConstant) (weightFraction energy : ℝ) : ℝ :=
  c.value * weightFraction * Real.sqrt |energy|

/-- Models `channelRadius( atomicWeightRatio )`, `src/channelRadius.hpp:1-6`. The cube root of a negative
number is NaN. -/
noncomputable def channelRadius (atomicWeightRatio : ℝ) : ℝ → Outcome ℝ := fun _ =>
  if 1.00866491582 * atomicWeightRatio < 0 then .error .notFinite
  else .ok (0.123 * (1.00866491582 * atomicWeightRatio) ^ (1 / 3 : ℝ) + 0.08)

/-- Models `radius( scalar )`, `src/radius.hpp:1-6`. -/
def constantRadius (scalar : ℝ) : ℝ → Outcome ℝ := fun _ => .ok scalar

/-- The lambda `constructTable`, `src/radius.hpp:12-51`. -/
def constructTable (tables : Endf.InterpolationLibrary) (region : List ℝ × List ℝ) (interpolant : ℤ) :
    Outcome (ℝ → Outcome ℝ) :=
  if interpolant = 1 then tables.histogram region.1 region.2
  else if interpolant = 2 then tables.linLin region.1 region.2
  else if interpolant = 3 then tables.linLog region.1 region.2
  else if interpolant = 4 then tables.logLin region.1 region.2
  else if interpolant = 5 then tables.logLog region.1 region.2
  else .error .throws

/-- Models `radius( tab1 )`, `src/radius.hpp:8-63`. The tables come from another library, about which
nothing is assumed; the code asks it to throw outside of the range of energies. -/
def tableRadius (tables : Endf.InterpolationLibrary) (radius : Endf.ScatteringRadius) :
    Outcome (ℝ → Outcome ℝ) := do
  let regions ← (radius.regions.zip radius.interpolants).mapM fun p => constructTable tables p.1 p.2
  tables.multiRegion regions

/-! ## Resonances and l values -/

/-- Models `breitWigner::resonance::Type`, `breitWigner/resonance/Type.hpp:1-13`. -/
structure Resonance where
  energy : ℝ
  neutronWidth : ℝ
  captureWidth : ℝ
  fissionWidth : ℝ
  weightedCompetitiveWidth : ℝ
  inversePenetrationFactor : ℝ
  shiftFactor : ℝ
  statisticalFactor : ℝ

/-- Models the constructor of `resonance::Type`, `breitWigner/resonance/Type/src/ctor.hpp:1-16`. With a
vanishing penetration factor all values computed from the resonance are NaN. -/
noncomputable def makeResonance (energy neutronWidth captureWidth fissionWidth weightedCompetitiveWidth
    penetrationFactor shiftFactor statisticalFactor : ℝ) : Outcome Resonance :=
  if penetrationFactor = 0 then .error .notFinite
  else .ok ⟨energy, neutronWidth, captureWidth, fissionWidth, weightedCompetitiveWidth,
    1 / penetrationFactor, shiftFactor, statisticalFactor⟩

/-- Models `statisticalFactorSummation`,
`breitWigner/lvalue/Type/src/statisticalFactorSummation.hpp:1-9`. -/
def statisticalFactorSummation (targetSpin orbitalAngularMomentum : ℚ) : Outcome ℚ :=
  let jmin := |(|targetSpin - orbitalAngularMomentum| - 0.5)|
  let jmax := targetSpin + orbitalAngularMomentum + 0.5
  if 4 * targetSpin + 2 = 0 then .error .notFinite
  else .ok ((jmax - jmin + 1) * (jmax + jmin + 1) / (4 * targetSpin + 2))

/-- Models `breitWigner::lvalue::Type`, `breitWigner/lvalue/Type.hpp:1-15`. -/
structure LValue where
  resonances : List Resonance
  weightedQValue : Option ℝ
  l : ℕ
  statisticalFactorSum : ℝ

/-- Models the constructors of `lvalue::Type`, `breitWigner/lvalue/Type/src/ctor.hpp:1-18`. -/
def makeLValue (resonances : List Resonance) (weightedQValue : Option ℝ) (l : ℕ) (targetSpin : ℚ) :
    Outcome LValue := do
  let sum ← statisticalFactorSummation targetSpin l
  pure ⟨resonances, weightedQValue, l, sum⟩

/-- Models `psiChi`, `breitWigner/src/psiChi.hpp:1-10`. -/
noncomputable def psiChi (energy primedResonanceEnergy inverseTotalWidth : ℝ) : ℝ × ℝ :=
  let x := 2 * (energy - primedResonanceEnergy) * inverseTotalWidth
  let psi := 1 / (1 + x * x)
  (psi, x * psi)

/-- Models `penetrationFactor` in `competitiveWidth`,
`breitWigner/lvalue/Type/src/competitiveWidth.hpp:1-10`, for the Q value `q`. -/
noncomputable def competitivePenetrability (l : ℕ) (rho : ℝ → Outcome ℝ) (energy q : ℝ) : Outcome ℝ := do
  let ratio ← rho (energy + q)
  let ps ← oldPenetrationShift l ratio
  pure ps.1

/-- Models the function object `competitiveWidth( energy, rho )` resp. `ZeroWidth{}` as passed in
`breitWigner/singleLevel/Lvalue/src/call.hpp:7-10` and `breitWigner/multiLevel/Lvalue/src/call.hpp:8-11`,
see `breitWigner/lvalue/Type/src/competitiveWidth.hpp:7-9` and `ZeroWidth.hpp:1-6`. -/
noncomputable def competitiveWidth (v : LValue) (rho : ℝ → Outcome ℝ) (energy : ℝ) :
    Outcome (Resonance → ℝ) :=
  match v.weightedQValue with
  | some q => do
    let p ← competitivePenetrability v.l rho energy q
    pure fun r => r.weightedCompetitiveWidth * p
  | none => .ok fun _ => 0

/-! ## Single level -/

/-- Models `singleLevel::Resonance::operator()`, `breitWigner/singleLevel/Resonance/src/call.hpp:1-39`.
`energy` is the one captured by the kernel. -/
noncomputable def Resonance.single (r : Resonance) (energy penetrationFactor shiftFactor sinSquaredPhi
    sin2Phi competitiveWidth : ℝ) : Outcome (Pack 3 ℝ) :=
  let weightedWidth := r.neutronWidth * r.inversePenetrationFactor
  let neutronWidth := weightedWidth * penetrationFactor
  let totalWidth := neutronWidth + r.captureWidth + r.fissionWidth + competitiveWidth
  if totalWidth = 0 then .error .notFinite
  else
    let inverseTotalWidth := 1 / totalWidth
    let primedResonanceEnergy := r.energy + 0.5 * weightedWidth * (r.shiftFactor - shiftFactor)
    let psichi := psiChi energy primedResonanceEnergy inverseTotalWidth
    let psi := psichi.1
    let chi := psichi.2
    let widthRatio := neutronWidth * inverseTotalWidth
    let scattering := (widthRatio - 2 * sinSquaredPhi) * psi + sin2Phi * chi
    let scaling := psi * inverseTotalWidth
    let capture := scaling * r.captureWidth
    let fission := scaling * r.fissionWidth
    .ok (Pack.mul ![scattering, capture, fission] (r.statisticalFactor * widthRatio))

/-- Models `singleLevel::Lvalue::evaluate`, `breitWigner/singleLevel/Lvalue/src/evaluate.hpp:1-33`. -/
noncomputable def LValue.evaluateSingle (v : LValue) (energy channelRatio scatteringRatio : ℝ)
    (competitiveWidth : Resonance → ℝ) : Outcome (Pack 3 ℝ) := do
  let ps ← oldPenetrationShift v.l channelRatio
  let phaseShift ← oldPhaseShift v.l scatteringRatio
  let sinSquaredPhi := Real.sin phaseShift * Real.sin phaseShift
  let sin2Phi := Real.sin (2 * phaseShift)
  let crossSections ← v.resonances.mapM fun r =>
    r.single energy ps.1 ps.2 sinSquaredPhi sin2Phi (competitiveWidth r)
  pure (Pack.accumulate crossSections ![sinSquaredPhi * (2 * v.l + 1), 0, 0])

/-! ## Multi level -/

/-- `std::lround`: to the nearest integer, halves away from zero. -/
def lround (x : ℚ) : ℤ := if 0 ≤ x then ⌊x + 1 / 2⌋ else ⌈x - 1 / 2⌉

/-- The array `cache`, `breitWigner/multiLevel/src/D.hpp:25-33`, with the decimals as given. -/
def repeatedFactors : List ℚ :=
  [0, 0, 0, 0, 0,
   0, 0.75, 1.25, 1.75, 2.25,
   0, 1, 1.666666666666667, 2.333333333333333, 3,
   0, 1, 1.875, 2.625, 3.375,
   0, 1, 2, 2.8, 3.6,
   0, 1, 2, 2.916666666666667, 3.75,
   0, 1, 2, 3, 3.857142857142858,
   0, 1, 2, 3, 3.9375]

/-- Models `multiLevel::D`, `breitWigner/multiLevel/src/D.hpp:24-36`. Reading outside of the array is
undefined. -/
def D (I : ℚ) (l : ℕ) : Outcome ℚ :=
  if I > 3.5 then .ok l
  else
    let index := lround (10 * I) + l
    if 0 ≤ index then
      match repeatedFactors[index.toNat]? with
      | some value => .ok value
      | none => .error .undefined
    else .error .undefined

/-- Models `multiLevel::Resonance::operator()`, `breitWigner/multiLevel/Resonance/src/call.hpp:1-33`. The
result `pack( pack( psi, chi ) * widthRatio, capture, fission )` is given without the inner pack. -/
noncomputable def Resonance.multi (r : Resonance) (energy penetrationFactor shiftFactor
    competitiveWidth : ℝ) : Outcome (Pack 4 ℝ) :=
  let weightedWidth := r.neutronWidth * r.inversePenetrationFactor
  let neutronWidth := weightedWidth * penetrationFactor
  let totalWidth := neutronWidth + r.captureWidth + r.fissionWidth + competitiveWidth
  if totalWidth = 0 then .error .notFinite
  else
    let inverseTotalWidth := 1 / totalWidth
    let primedResonanceEnergy := r.energy + 0.5 * weightedWidth * (r.shiftFactor - shiftFactor)
    let psichi := psiChi energy primedResonanceEnergy inverseTotalWidth
    let psi := psichi.1
    let chi := psichi.2
    let widthRatio := neutronWidth * inverseTotalWidth
    let scaling := psi * inverseTotalWidth * widthRatio
    let capture := scaling * r.captureWidth
    let fission := scaling * r.fissionWidth
    .ok ![psi * widthRatio, chi * widthRatio, capture, fission]

/-- The lambda evaluating a `Jgroup`, `breitWigner/multiLevel/Lvalue/src/evaluate.hpp:30-53`. The front of
an empty group would be undefined. -/
noncomputable def groupMulti (energy penetrationFactor shiftFactor sinSquaredPhi sin2Phi : ℝ)
    (competitiveWidth : Resonance → ℝ) (group : List Resonance) : Outcome (Pack 3 ℝ) := do
  let Jresonances ← group.mapM fun r =>
    r.multi energy penetrationFactor shiftFactor (competitiveWidth r)
  let Jsum := Pack.accumulate Jresonances ![0, 0, 0, 0]
  let first := Jsum 0
  let second := Jsum 1
  let scattering := first * (first - 2 * sinSquaredPhi) + second * (second + sin2Phi)
  let capture := Jsum 2
  let fission := Jsum 3
  match group with
  | [] => .error .undefined
  | front :: _ => .ok (Pack.mul ![scattering, capture, fission] front.statisticalFactor)

/-- Models `multiLevel::Lvalue::evaluate`, `breitWigner/multiLevel/Lvalue/src/evaluate.hpp:1-63`. -/
noncomputable def LValue.evaluateMulti (v : LValue) (energy channelRatio scatteringRatio : ℝ)
    (targetSpin : ℚ) (competitiveWidth : Resonance → ℝ) : Outcome (Pack 3 ℝ) := do
  let ps ← oldPenetrationShift v.l channelRatio
  let phaseShift ← oldPhaseShift v.l scatteringRatio
  let sinSquaredPhi := Real.sin phaseShift * Real.sin phaseShift
  let sin2Phi := Real.sin (2 * phaseShift)
  let Jgroups := groupBy Resonance.statisticalFactor v.resonances
  let crossSections ← Jgroups.mapM fun group =>
    groupMulti energy ps.1 ps.2 sinSquaredPhi sin2Phi competitiveWidth group
  let repeated ← D targetSpin v.l
  let scatteringBase := repeated * sinSquaredPhi
    + v.statisticalFactorSum * (sinSquaredPhi * sinSquaredPhi + 0.25 * sin2Phi * sin2Phi)
  pure (Pack.accumulate crossSections ![scatteringBase, 0, 0])

/-! ## Systems -/

/-- Models `singleLevel::Type` and `multiLevel::Type`, `breitWigner/Type.hpp:1-10`,
`breitWigner/singleLevel/Type.hpp:1-30` and `breitWigner/multiLevel/Type.hpp:1-30`. A system with one radius
has it twice. Simplifications: the range of energies and the number of nucleons, which are never used, are
left out; the target spin is kept for the single-level formalism too. -/
structure System where
  lvalues : List LValue
  weightRatio : ℝ
  targetSpin : ℚ
  channelRadius : ℝ → Outcome ℝ
  scatteringRadius : ℝ → Outcome ℝ

/-- The formalism. -/
inductive Level
  | single
  | multi
  deriving DecidableEq, Repr

/-- Models `singleLevel::Lvalue::operator()`, `breitWigner/singleLevel/Lvalue/src/call.hpp:1-11`, and
`multiLevel::Lvalue::operator()`, `breitWigner/multiLevel/Lvalue/src/call.hpp:1-12`. -/
noncomputable def LValue.call (level : Level) (v : LValue) (energy channelRatio scatteringRatio : ℝ)
    (targetSpin : ℚ) (rho : ℝ → Outcome ℝ) : Outcome (Pack 3 ℝ) := do
  let width ← competitiveWidth v rho energy
  match level with
  | .single => v.evaluateSingle energy channelRatio scatteringRatio width
  | .multi => v.evaluateMulti energy channelRatio scatteringRatio targetSpin width

/-- Models `Base::evaluate`, `breitWigner/singleLevel/Base/src/evaluate.hpp:1-32` and
`breitWigner/multiLevel/Base/src/evaluate.hpp:1-34`, as called from `Type::evaluate`,
`breitWigner/singleLevel/Type/src/evaluate1.hpp:1-11`, `evaluate2.hpp:1-12` and
`breitWigner/multiLevel/Type/src/evaluate1.hpp:1-7`, `evaluate2.hpp:1-13`. A vanishing wave number gives
infinities or NaN. -/
noncomputable def System.evaluate (c : WaveConstant) (level : Level) (s : System) (energy : ℝ) :
    Outcome CrossSection := do
  let channelRadius ← s.channelRadius energy
  let scatteringRadius ← s.scatteringRadius energy
  let k := waveNumber c s.weightRatio
  let channelRatio := channelRadius * k energy
  let scatteringRatio := scatteringRadius * k energy
  let rho : ℝ → Outcome ℝ := fun energy => do
    let radius ← s.channelRadius energy
    pure (k energy * radius)
  let crossSections ← s.lvalues.mapM fun v =>
    v.call level energy channelRatio scatteringRatio s.targetSpin rho
  if k energy = 0 then .error .notFinite
  else
    let scaling := 4 * Real.pi / (k energy * k energy)
    let reduction := Pack.accumulate crossSections ![0, 0, 0]
    pure ⟨reduction 0 * scaling, reduction 1 * scaling, reduction 2 * scaling⟩

/-! ## From ENDF data -/

/-- The lambda `g`, `breitWigner/singleLevel/Apply/src/build.hpp:13-15` and others: the statistical
factor. -/
def statisticalFactor (targetSpin J : ℚ) : ℚ := (2 * J + 1) * (1 / (4 * targetSpin + 2))

/-- The lambda `rho`, `breitWigner/singleLevel/Apply/src/build.hpp:7-11`. -/
noncomputable def channelRatioAt (c : WaveConstant) (weightRatio : ℝ) (radius : ℝ → Outcome ℝ)
    (energy : ℝ) : Outcome ℝ := do
  let r ← radius energy
  pure (waveNumber c weightRatio energy * r)

/-- Models `resonance` without competition, `breitWigner/singleLevel/Apply/src/resonance.hpp:1-32`. -/
noncomputable def convertResonance (rho : ℝ → Outcome ℝ) (targetSpin : ℚ) (l : ℕ)
    (r : Endf.BreitWignerResonance) : Outcome Resonance := do
  let ratio ← rho r.energy
  let ps ← oldPenetrationShift l ratio
  makeResonance r.energy r.neutronWidth r.gammaWidth r.fissionWidth 0 ps.1 ps.2
    (statisticalFactor targetSpin |r.spin|)

/-- Models `resonance` with competition, `breitWigner/singleLevel/Apply/src/resonance.hpp:34-67`, and
`competitiveWidth`, `breitWigner/singleLevel/Apply/src/competitiveWidth.hpp:1-10`. -/
noncomputable def convertCompetitive (rho : ℝ → Outcome ℝ) (targetSpin : ℚ) (l : ℕ) (offset : ℝ)
    (r : Endf.BreitWignerResonance) : Outcome Resonance := do
  let p ← competitivePenetrability l rho r.energy offset
  if p = 0 then .error .notFinite
  else
    let competitiveWidth := r.competitiveWidth / p
    let ratio ← rho |r.energy|
    let ps ← oldPenetrationShift l ratio
    makeResonance r.energy r.neutronWidth r.gammaWidth r.fissionWidth competitiveWidth ps.1 ps.2
      (statisticalFactor targetSpin |r.spin|)

/-- Models `lvalue`, `breitWigner/singleLevel/Apply/src/lvalue.hpp:1-46`. The weight ratio of the l value
itself is used for the offset. -/
noncomputable def convertLValue (rho : ℝ → Outcome ℝ) (targetSpin : ℚ) (lvalue : Endf.BreitWignerLValue) :
    Outcome LValue :=
  if 4 < lvalue.l then .error .throws
  else if lvalue.lrx ≠ 0 then
    if lvalue.awri + 1 = 0 then .error .notFinite
    else do
      let offset := lvalue.qx * (lvalue.awri / (lvalue.awri + 1))
      let resonances ← lvalue.resonances.mapM (convertCompetitive rho targetSpin lvalue.l offset)
      makeLValue resonances (some offset) lvalue.l targetSpin
  else do
    let resonances ← lvalue.resonances.mapM (convertResonance rho targetSpin lvalue.l)
    makeLValue resonances none lvalue.l targetSpin

/-- Models `Base::order`, `breitWigner/multiLevel/Base/src/order.hpp:1-19`, for one l value. -/
noncomputable def order (sort : Sorting Resonance.statisticalFactor) (v : LValue) : LValue :=
  { v with resonances := sort.run v.resonances }

/-- Models `build` and the constructors of the types, `breitWigner/singleLevel/Apply/src/build.hpp:1-55`,
`breitWigner/multiLevel/Apply/src/build.hpp:1-57`, `breitWigner/Type/src/ctor.hpp:1-8` and
`breitWigner/multiLevel/Base/src/ctor.hpp:1-8`. The statistical factors divide by `4 SPI + 2`. -/
noncomputable def build (c : WaveConstant) (sort : Sorting Resonance.statisticalFactor) (level : Level)
    (bw : Endf.BreitWigner) (channelRadius scatteringRadius : ℝ → Outcome ℝ) : Outcome System :=
  match bw.lValues with
  | [] => .error .undefined
  | first :: _ =>
    if first.awri + 1 = 0 ∨ 4 * bw.spin + 2 = 0 then .error .notFinite
    else do
      let weightRatio := first.awri / (first.awri + 1)
      let rho := channelRatioAt c weightRatio channelRadius
      let lvalues ← bw.lValues.mapM (convertLValue rho bw.spin)
      let lvalues := match level with
        | .single => lvalues
        | .multi => lvalues.map (order sort)
      pure ⟨lvalues, weightRatio, bw.spin, channelRadius, scatteringRadius⟩

/-- `std::get< endf::SingleLevelBreitWigner >( range.parameters() )`, resp. the multi-level one. -/
def selectBreitWigner (level : Level) (p : Endf.Parameters) : Outcome Endf.BreitWigner :=
  match level, p with
  | .single, .singleLevel bw => .ok bw
  | .multi, .multiLevel bw => .ok bw
  | _, _ => .error .throws

/-- `range.scatteringRadius().value()`. -/
def scatteringRadius (range : Endf.Range) : Outcome Endf.ScatteringRadius :=
  match range.scatteringRadius with
  | some radius => .ok radius
  | none => .error .throws

/-- Models `Apply::operator()`, `breitWigner/singleLevel/Apply/src/call.hpp:1-45` and
`breitWigner/multiLevel/Apply/src/call.hpp:1-43`: the system that is passed to the callback. `nro` is
`range.NRO()`. Exceptions are caught and replaced by others. For other values of NAPS control reaches the
end of the function without calling the callback: this is undefined, unless the callback returns
nothing. -/
noncomputable def apply (c : WaveConstant) (sort : Sorting Resonance.statisticalFactor)
    (tables : Endf.InterpolationLibrary) (level : Level) (nro : ℤ) (range : Endf.Range) :
    Outcome System := do
  let bw ← selectBreitWigner level range.parameters
  match bw.lValues with
  | [] => .error .undefined
  | first :: _ =>
    if nro ≠ 0 then
      if range.naps = 0 then do
        let table ← scatteringRadius range
        let table ← tableRadius tables table
        build c sort level bw (channelRadius first.awri) table
      else if range.naps = 1 then do
        let table ← scatteringRadius range
        let table ← tableRadius tables table
        build c sort level bw table table
      else if range.naps = 2 then do
        let table ← scatteringRadius range
        let table ← tableRadius tables table
        build c sort level bw (constantRadius bw.ap) table
      else .error .undefined
    else if range.naps = 0 then
      build c sort level bw (channelRadius first.awri) (constantRadius bw.ap)
    else if range.naps = 1 then
      build c sort level bw (constantRadius bw.ap) (constantRadius bw.ap)
    else .error .undefined

end Old

end Verif
