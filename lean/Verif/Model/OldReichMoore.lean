import Verif.Model.OldBreitWigner
import Mathlib.LinearAlgebra.Matrix.NonsingularInverse

/-!
# The older Reich-Moore code

Everything in namespace `reichMoore` of the code, `reichMoore/...`, except files that are never included
(`reichMoore/Lvalue/src/hasFission.hpp`).
-/

namespace Verif

namespace Old

namespace ReichMoore

/-- `Matrix3x3`, `resonanceReconstruction.hpp:67`. -/
abbrev Matrix3 := Matrix (Fin 3) (Fin 3) ℂ

/-- Models `reichMoore::Resonance`, `reichMoore/Resonance.hpp:1-18`. -/
structure Resonance where
  energy : ℝ
  rootNeutronWidth : ℝ
  captureWidth : ℝ
  rootFissionWidthA : ℝ
  rootFissionWidthB : ℝ
  inverseRootPenetrationFactor : ℝ
  flaggedStatisticalFactor : ℝ

/-- `(width.value < 0.0 ? -1 : 1) * sqrt( std::abs( width ) )`,
`reichMoore/Resonance/src/ctor.hpp:11-14`. -/
noncomputable def signedRoot (width : ℝ) : ℝ := (if width < 0 then -1 else 1) * Real.sqrt |width|

/-- Models the constructor of `Resonance`, `reichMoore/Resonance/src/ctor.hpp:1-16`. With a negative
neutron width or a vanishing penetration factor all values computed from the resonance are NaN; a negative
penetration factor does not occur. -/
noncomputable def makeResonance (energy neutronWidth captureWidth fissionWidthA fissionWidthB
    penetrationFactor flaggedStatisticalFactor : ℝ) : Outcome Resonance :=
  if neutronWidth < 0 ∨ penetrationFactor ≤ 0 then .error .notFinite
  else .ok ⟨energy, Real.sqrt neutronWidth, captureWidth, signedRoot fissionWidthA,
    signedRoot fissionWidthB, 1 / Real.sqrt penetrationFactor, flaggedStatisticalFactor⟩

/-- The lambda `accumulate`, `reichMoore/Resonance/src/call.hpp:18-23`. -/
noncomputable def accumulate (realFactor imaginaryFactor : ℝ) (K : Matrix3) (i j : Fin 3)
    (width0 width1 : ℝ) : Matrix3 :=
  let product := width0 * width1
  K.updateRow i (Function.update (K i) j (K i j + ⟨product * realFactor, product * imaginaryFactor⟩))

/-- Models `Resonance::operator()`, `reichMoore/Resonance/src/call.hpp:1-37`: whether there is fission, and
the new matrix. At the energy of a resonance without capture the values are infinite or NaN. -/
noncomputable def Resonance.call (r : Resonance) (energy rootPenetrationFactor : ℝ) (K : Matrix3) :
    Outcome (Bool × Matrix3) :=
  let rootNeutronWidth := r.rootNeutronWidth * r.inverseRootPenetrationFactor * rootPenetrationFactor
  let energyDifference := r.energy - energy
  let squareEnergyDifference := energyDifference * energyDifference
  let squareCaptureWidth := r.captureWidth * r.captureWidth
  if 4 * squareEnergyDifference + squareCaptureWidth = 0 then .error .notFinite
  else
    let denominator := 1 / (4 * squareEnergyDifference + squareCaptureWidth)
    let realFactor := r.captureWidth * denominator
    let imaginaryFactor := -2 * energyDifference * denominator
    let add := accumulate realFactor imaginaryFactor
    let K := add K 0 0 rootNeutronWidth rootNeutronWidth
    if r.rootFissionWidthA ≠ 0 ∨ r.rootFissionWidthB ≠ 0 then
      let K := add K 0 1 rootNeutronWidth r.rootFissionWidthA
      let K := add K 0 2 rootNeutronWidth r.rootFissionWidthB
      let K := add K 1 1 r.rootFissionWidthA r.rootFissionWidthA
      let K := add K 1 2 r.rootFissionWidthA r.rootFissionWidthB
      let K := add K 2 2 r.rootFissionWidthB r.rootFissionWidthB
      .ok (true, K)
    else .ok (false, K)

/-- The accumulation over the resonances of a group, `reichMoore/Lvalue/src/call.hpp:24-33`:
`std::logical_or<>` evaluates both arguments. -/
noncomputable def evaluateResonances (energy rootPenetrationFactor : ℝ) :
    List Resonance → Bool × Matrix3 → Outcome (Bool × Matrix3)
  | [], state => .ok state
  | r :: rs, (hasFission, K) => do
    let (flag, K) ← r.call energy rootPenetrationFactor K
    evaluateResonances energy rootPenetrationFactor rs (hasFission || flag, K)

/-- `rMatrix.triangularView< Eigen::Lower >() = rMatrix.transpose()`,
`reichMoore/Lvalue/src/solveRmatrix.hpp:5`. -/
def symmetrise (K : Matrix3) : Matrix3 := Matrix.of fun i j => if j ≤ i then K j i else K i j

/-- Models `solveRmatrix`, `reichMoore/Lvalue/src/solveRmatrix.hpp:1-24`. The inverse of a singular matrix
has infinite or NaN elements. -/
noncomputable def solveRmatrix (rMatrix : Matrix3) (cos2Phi sin2Phi statisticalFactor : ℝ) :
    Outcome (Pack 4 ℝ) :=
  let rMatrix := symmetrise rMatrix
  if (1 + rMatrix).det = 0 then .error .notFinite
  else
    let collisionMatrix : Matrix3 :=
      (⟨cos2Phi, -sin2Phi⟩ : ℂ) • ((2 : ℂ) • (1 + rMatrix)⁻¹ - 1)
    let total := 2 * statisticalFactor * (1 - (collisionMatrix 0 0).re)
    let elastic := statisticalFactor * ‖1 - collisionMatrix 0 0‖ ^ 2
    let fission := statisticalFactor * (‖collisionMatrix 0 1 ^ 2‖ + ‖collisionMatrix 0 2 ^ 2‖)
    .ok ![total, elastic, fission, statisticalFactor]

/-- Models `solveRfunction`, `reichMoore/Lvalue/src/solveRfunction.hpp:1-54`. -/
noncomputable def solveRfunction (rMatrix : Matrix3) (cos2Phi sin2Phi statisticalFactor phaseShift : ℝ) :
    Outcome (Pack 4 ℝ) :=
  let rMatrixEntry : ℂ := 1 + rMatrix 0 0
  let conjugateProduct := (rMatrixEntry * (starRingEnd ℂ) rMatrixEntry).re
  if conjugateProduct = 0 then .error .notFinite
  else
    let denominator := 1 / conjugateProduct
    let real := rMatrixEntry.re * denominator
    let imaginary := -rMatrixEntry.im * denominator
    let collisionMatrixElement : ℂ :=
      ⟨cos2Phi * (2 * real - 1) + 2 * imaginary * sin2Phi,
        -sin2Phi * (2 * real - 1) + 2 * imaginary * cos2Phi⟩
    if |rMatrixEntry.re| > 3e-4 ∨ |phaseShift| > 3e-4 then
      let conjugateComplement : ℂ := 1 - (starRingEnd ℂ) collisionMatrixElement
      let total := 2 * statisticalFactor * conjugateComplement.re
      let elastic := statisticalFactor * (conjugateComplement * (starRingEnd ℂ) conjugateComplement).re
      .ok ![total, elastic, 0, statisticalFactor]
    else
      let expansion := 2 * denominator * (rMatrixEntry.re + conjugateProduct
        + sin2Phi * rMatrixEntry.im + phaseShift * phaseShift * (1 - conjugateProduct))
      let total := 2 * statisticalFactor * expansion
      let elastic := statisticalFactor
        * (expansion * expansion + collisionMatrixElement.im * collisionMatrixElement.im)
      .ok ![total, elastic, 0, statisticalFactor]

/-- The lambda evaluating a group, `reichMoore/Lvalue/src/call.hpp:23-42`. The front of an empty group would
be undefined. -/
noncomputable def evaluateGroup (energy rootPenetrationFactor phaseShift : ℝ) (group : List Resonance) :
    Outcome (Pack 4 ℝ) := do
  let cos2Phi := Real.cos (2 * phaseShift)
  let sin2Phi := Real.sin (2 * phaseShift)
  let (hasFission, rMatrix) ← evaluateResonances energy rootPenetrationFactor group (false, 0)
  match group with
  | [] => .error .undefined
  | front :: _ =>
    let statisticalFactor := |front.flaggedStatisticalFactor|
    if hasFission then solveRmatrix rMatrix cos2Phi sin2Phi statisticalFactor
    else solveRfunction rMatrix cos2Phi sin2Phi statisticalFactor phaseShift

/-- Models `reichMoore::Lvalue`, `reichMoore/Lvalue.hpp:1-18`; `ap` is always a constant radius. -/
structure LValue where
  ap : Option ℝ
  resonances : List Resonance
  l : ℕ

/-- Models `Lvalue::operator()`, `reichMoore/Lvalue/src/call.hpp:1-58`. The penetration factor is not
negative. -/
noncomputable def LValue.call (v : LValue) (energy channelRatio scatteringRatio : ℝ) :
    Outcome (Pack 3 ℝ) := do
  let ps ← oldPenetrationShift v.l channelRatio
  let rootPenetrationFactor := Real.sqrt ps.1
  let phaseShift ← oldPhaseShift v.l scatteringRatio
  let sinSquaredPhi := Real.sin phaseShift * Real.sin phaseShift
  let crossSections ← (groupBy Resonance.flaggedStatisticalFactor v.resonances).mapM
    (evaluateGroup energy rootPenetrationFactor phaseShift)
  let sum := Pack.accumulate crossSections ![0, 0, 0, 0]
  let unaccountedPotentialScattering := (2 * v.l + 1 - sum 3) * 4 * sinSquaredPhi
  let elastic := sum 1 + unaccountedPotentialScattering
  let capture := sum 0 - sum 1 - sum 2
  let fission := sum 2
  pure ![elastic, capture, fission]

/-- The tags, `reichMoore.hpp:8-11`. -/
inductive Tag
  | both
  | neither
  | channel
  | scattering
  deriving DecidableEq, Repr

/-- Models `Inspector::operator()`, `reichMoore/Inspector.hpp:1-69`. -/
noncomputable def inspect (tag : Tag) (energy waveNumber channelRatio scatteringRatio : ℝ) (v : LValue) :
    Outcome (Pack 3 ℝ) :=
  match tag, v.ap with
  | .both, some ap => v.call energy (waveNumber * ap) (waveNumber * ap)
  | .scattering, some ap => v.call energy channelRatio (waveNumber * ap)
  | .channel, some ap => v.call energy (waveNumber * ap) scatteringRatio
  | _, _ => v.call energy channelRatio scatteringRatio

/-- Models `reichMoore::Type`, `reichMoore/Base.hpp:1-24` and `reichMoore/Type.hpp:1-30`. A system with one
radius has it twice; the range of energies, which is never used, is left out. -/
structure System where
  lvalues : List LValue
  weightRatio : ℝ
  tag : Tag
  channelRadius : ℝ → Outcome ℝ
  scatteringRadius : ℝ → Outcome ℝ

/-- Models `Base::evaluate`, `reichMoore/Base/src/evaluate.hpp:1-26`, as called from `Type::evaluate`,
`reichMoore/Type/src/evaluate1.hpp:1-4` and `evaluate2.hpp:1-5`. A vanishing wave number gives infinities or
NaN. -/
noncomputable def System.evaluate (c : WaveConstant) (s : System) (energy : ℝ) : Outcome CrossSection := do
  let channelRadius ← s.channelRadius energy
  let scatteringRadius ← s.scatteringRadius energy
  let k := waveNumber c s.weightRatio energy
  let crossSections ← s.lvalues.mapM
    (inspect s.tag energy k (k * channelRadius) (k * scatteringRadius))
  if k = 0 then .error .notFinite
  else
    let scaling := Real.pi / (k * k)
    let reduction := Pack.accumulate crossSections ![0, 0, 0]
    pure ⟨reduction 0 * scaling, reduction 1 * scaling, reduction 2 * scaling⟩

/-! ## From ENDF data -/

/-- `std::copysign( g( std::abs( resonance.AJ() ) ), resonance.AJ() )`,
`reichMoore/Apply/src/resonance.hpp:18-19`, for a non-negative factor. Simplification: there is no negative
zero. -/
def flaggedStatisticalFactor (targetSpin J : ℚ) : ℚ :=
  if J < 0 then -statisticalFactor targetSpin |J| else statisticalFactor targetSpin |J|

/-- Models `resonance`, `reichMoore/Apply/src/resonance.hpp:1-28`. -/
noncomputable def convertResonance (rho : ℝ → Outcome ℝ) (targetSpin : ℚ) (l : ℕ)
    (r : Endf.ReichMooreResonance) : Outcome Resonance := do
  let ratio ← rho |r.energy|
  let ps ← oldPenetrationShift l ratio
  makeResonance r.energy r.neutronWidth r.gammaWidth r.firstFissionWidth r.secondFissionWidth ps.1
    (flaggedStatisticalFactor targetSpin r.spin)

/-- Models `lvalue`, `reichMoore/Apply/src/lvalue.hpp:1-55`; `k` is the wave number as a function of the
energy. -/
noncomputable def convertLValue (k : ℝ → ℝ) (radius : ℝ → Outcome ℝ) (targetSpin : ℚ) (useAPL : Bool)
    (lvalue : Endf.ReichMooreLValue) : Outcome LValue :=
  if 4 < lvalue.l then .error .throws
  else do
    let rho : ℝ → Outcome ℝ := fun energy => do
      let r ← if lvalue.apl ≠ 0 ∧ useAPL then constantRadius lvalue.apl energy else radius energy
      pure (r * k energy)
    let resonances ← lvalue.resonances.mapM (convertResonance rho targetSpin lvalue.l)
    pure ⟨if lvalue.apl ≠ 0 then some lvalue.apl else none, resonances, lvalue.l⟩

/-- Models `Base::order`, `reichMoore/Base/src/order.hpp:1-20`, for one l value. -/
noncomputable def order (sort : Sorting Resonance.flaggedStatisticalFactor) (v : LValue) : LValue :=
  { v with resonances := sort.run v.resonances }

/-- Models `build` and the constructors, `reichMoore/Apply/src/build.hpp:1-52` and
`reichMoore/Base/src/ctor.hpp:1-9`. -/
noncomputable def build (c : WaveConstant) (sort : Sorting Resonance.flaggedStatisticalFactor)
    (rm : Endf.ReichMoore) (tag : Tag) (channelRadius scatteringRadius : ℝ → Outcome ℝ) (useAPL : Bool) :
    Outcome System :=
  match rm.lValues with
  | [] => .error .undefined
  | first :: _ =>
    if first.awri + 1 = 0 ∨ 4 * rm.spin + 2 = 0 then .error .notFinite
    else do
      let weightRatio := first.awri / (first.awri + 1)
      let lvalues ← rm.lValues.mapM
        (convertLValue (waveNumber c weightRatio) channelRadius rm.spin useAPL)
      pure ⟨lvalues.map (order sort), weightRatio, tag, channelRadius, scatteringRadius⟩

/-- `std::get< endf::ReichMoore >( range.parameters() )`. -/
def select (p : Endf.Parameters) : Outcome Endf.ReichMoore :=
  match p with
  | .reichMoore rm => .ok rm
  | _ => .error .throws

/-- Models `Apply::operator()`, `reichMoore/Apply/src/call.hpp:1-55`: the system that is passed to the
callback, see `Old.apply`. -/
noncomputable def apply (c : WaveConstant) (sort : Sorting Resonance.flaggedStatisticalFactor)
    (tables : Endf.InterpolationLibrary) (nro : ℤ) (range : Endf.Range) : Outcome System := do
  let rm ← select range.parameters
  match rm.lValues with
  | [] => .error .undefined
  | first :: _ =>
    if nro ≠ 0 then
      if range.naps = 0 then do
        let table ← Old.scatteringRadius range
        let table ← tableRadius tables table
        build c sort rm .neither (Old.channelRadius first.awri) table false
      else if range.naps = 1 then do
        let table ← Old.scatteringRadius range
        let table ← tableRadius tables table
        build c sort rm .neither table table false
      else if range.naps = 2 then do
        let table ← Old.scatteringRadius range
        let table ← tableRadius tables table
        build c sort rm .channel (constantRadius rm.ap) table true
      else .error .undefined
    else if range.naps = 0 then
      build c sort rm .scattering (Old.channelRadius first.awri) (constantRadius rm.ap) false
    else if range.naps = 1 then
      build c sort rm .both (constantRadius rm.ap) (constantRadius rm.ap) true
    else .error .undefined

end ReichMoore

end Old

end Verif
