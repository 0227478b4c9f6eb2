import Verif.Model.Reconstructor
import Mathlib.Analysis.SpecialFunctions.Pow.Real

/-!
# From ENDF data to reconstructors

The ENDF records come from another library (`ENDFtk`), which is not modelled: a record is represented by
the values that its member functions return. Columns of one table have the same length there, so a table
is a list of rows. Quantities get units by multiplication with `electronVolt`, `rootBarn` and so on; the
model assumes consistent units and leaves the numbers as they are.
-/

namespace Verif

namespace Endf

/-! ## Records -/

/-- `endf::ScatteringRadius`: the regions with their energies and radii, and the interpolation codes. -/
structure ScatteringRadius where
  regions : List (List ℝ × List ℝ)
  interpolants : List ℤ

/-- A row of `endf::BreitWignerLValue`. -/
structure BreitWignerResonance where
  energy : ℝ
  spin : ℚ
  neutronWidth : ℝ
  gammaWidth : ℝ
  fissionWidth : ℝ
  competitiveWidth : ℝ

/-- `endf::BreitWignerLValue`. Its `spinValues()` are those of its resonances. -/
structure BreitWignerLValue where
  l : ℕ
  awri : ℝ
  qx : ℝ
  lrx : ℤ
  resonances : List BreitWignerResonance

/-- `endf::SingleLevelBreitWigner` and `endf::MultiLevelBreitWigner`. `numberLValues()` is the length of
`lValues()`. -/
structure BreitWigner where
  spin : ℚ
  ap : ℝ
  lValues : List BreitWignerLValue

/-- A row of `endf::ReichMooreLValue`. -/
structure ReichMooreResonance where
  energy : ℝ
  spin : ℚ
  neutronWidth : ℝ
  gammaWidth : ℝ
  firstFissionWidth : ℝ
  secondFissionWidth : ℝ

/-- `endf::ReichMooreLValue`. Its `spinValues()` are those of its resonances. -/
structure ReichMooreLValue where
  l : ℕ
  awri : ℝ
  apl : ℝ
  resonances : List ReichMooreResonance

/-- `endf::ReichMoore`. -/
structure ReichMoore where
  spin : ℚ
  ap : ℝ
  nlsc : ℕ
  lValues : List ReichMooreLValue

/-- A row of `endf::RMatrixLimited::ParticlePairs`. Parities are given by the sign of the spin, or by
a separate value if the spin is zero. -/
structure ParticlePairRow where
  massA : ℝ
  massB : ℝ
  chargeA : ℝ
  chargeB : ℝ
  spinA : ℚ
  spinB : ℚ
  parityA : ℤ
  parityB : ℤ
  q : ℝ
  shiftFactorFlag : ℤ
  mt : ℤ

/-- A row of `endf::RMatrixLimited::ResonanceChannels`. -/
structure ChannelRow where
  pairNumber : ℕ
  l : ℕ
  s : ℚ
  boundary : ℝ
  trueRadius : ℝ
  effectiveRadius : ℝ

/-- `endf::RMatrixLimited::SpinGroup`: its channels and its resonances, each an energy and the widths of
the channels. -/
structure SpinGroupRecord where
  spin : ℚ
  parity : ℤ
  channels : List ChannelRow
  numberResonances : ℕ
  resonances : List (ℝ × List ℝ)

/-- `endf::RMatrixLimited`. -/
structure RMatrixLimited where
  formalism : ℤ
  reducedWidths : ℤ
  pairs : List ParticlePairRow
  spinGroups : List SpinGroupRecord

/-- The degrees of freedom of the average widths. Simplification: natural numbers in C++ `int`s. -/
abbrev Degrees := Data ℕ

/-- `endf::UnresolvedEnergyIndependent::JValue`. -/
structure UnresolvedConstantJ where
  spin : ℚ
  spacing : ℝ
  neutronWidth : ℝ
  gammaWidth : ℝ
  fissionWidth : ℝ
  competitiveWidth : ℝ
  degrees : Degrees

/-- `endf::UnresolvedEnergyDependentFissionWidths::JValue`. -/
structure UnresolvedFissionJ where
  spin : ℚ
  spacing : ℝ
  neutronWidth : ℝ
  gammaWidth : ℝ
  fissionWidths : List ℝ
  competitiveWidth : ℝ
  degrees : Degrees

/-- `endf::UnresolvedEnergyDependent::JValue`: rows of energy, level spacing and widths. -/
structure UnresolvedDependentJ where
  spin : ℚ
  rows : List Unresolved.Resonance
  degrees : Degrees

/-- An l value of any of the three sorts of unresolved parameters. `numberSpinValues()` is the length of
`jValues()`. -/
structure UnresolvedLValue (J : Type) where
  l : ℕ
  awri : ℝ
  jValues : List J

/-- Any of the three sorts of unresolved parameters. `NLS()` is the length of `lValues()`; only
`endf::UnresolvedEnergyDependentFissionWidths` has `energies()`. -/
structure UnresolvedParameters (J : Type) where
  spin : ℚ
  ap : ℝ
  energies : List ℝ
  lValues : List (UnresolvedLValue J)

/-- The variant returned by `endf::ResonanceRange::parameters()`, in the order of its alternatives. -/
inductive Parameters
  | specialCase
  | singleLevel (p : BreitWigner)
  | multiLevel (p : BreitWigner)
  | reichMoore (p : ReichMoore)
  | rmatrixLimited (p : RMatrixLimited)
  | unresolvedConstant (p : UnresolvedParameters UnresolvedConstantJ)
  | unresolvedFission (p : UnresolvedParameters UnresolvedFissionJ)
  | unresolvedDependent (p : UnresolvedParameters UnresolvedDependentJ)

/-- `endf::ResonanceRange`. -/
structure Range where
  lower : ℝ
  upper : ℝ
  type : ℤ
  representation : ℤ
  naps : ℤ
  scatteringRadius : Option ScatteringRadius
  parameters : Parameters

/-! ## Other libraries -/

/-- The interpolation tables of `rmatrix/Table.hpp:1-48` (an external library). Nothing is assumed about
them. -/
structure InterpolationLibrary where
  histogram : Unresolved.Interpolation
  linLin : Unresolved.Interpolation
  linLog : Unresolved.Interpolation
  logLin : Unresolved.Interpolation
  logLog : Unresolved.Interpolation
  multiRegion : List (ℝ → Outcome ℝ) → Outcome (ℝ → Outcome ℝ)

/-- The symbol of `ParticlePairID( particle, residual )` (an external library), e.g. `n,U235_e0`
(`rmatrix/ParticlePair/src/ctor.hpp:28`). -/
def pairID (particle residual : Str) : PairID := particle ++ [','] ++ residual

/-- What the external library `elementary` makes of an incident particle, a target and a reaction
number: the outgoing particle and the residual nuclide, or an exception. -/
abbrev ReactionLibrary := Str → Str → ℤ → Outcome (Str × Str)

/-! ## Radii -/

/-- Models `makeChannelRadii`, `rmatrix/src/makeChannelRadii.hpp:1-44`. The cube root of a negative mass
is NaN. -/
noncomputable def makeChannelRadii (ap : ℝ) (nro : Option (ℝ → Outcome ℝ)) (naps : ℤ)
    (awri neutronMass : ℝ) : Outcome ChannelRadii :=
  let fixed : Outcome ℝ :=
    if awri * neutronMass < 0 then .error .notFinite
    else .ok (0.123 * (awri * neutronMass) ^ (1 / 3 : ℝ) + 0.08)
  match nro with
  | some table =>
    if naps = 0 then do
      let radius ← fixed
      pure ⟨fun _ => .ok radius, fun _ => .ok radius, table⟩
    else if naps = 1 then .ok ⟨table, table, table⟩
    else if naps = 2 then .ok ⟨fun _ => .ok ap, fun _ => .ok ap, table⟩
    else .error .throws
  | none =>
    if naps = 0 then do
      let radius ← fixed
      pure ⟨fun _ => .ok radius, fun _ => .ok radius, fun _ => .ok ap⟩
    else .ok ⟨fun _ => .ok ap, fun _ => .ok ap, fun _ => .ok ap⟩

/-- The lambda `makeTable`, `rmatrix/src/makeChannelRadiusTable.hpp:6-49`. -/
def makeRegion (tables : InterpolationLibrary) (region : List ℝ × List ℝ) (interpolant : ℤ) :
    Outcome (ℝ → Outcome ℝ) :=
  if interpolant = 1 then tables.histogram region.1 region.2
  else if interpolant = 2 then tables.linLin region.1 region.2
  else if interpolant = 3 then tables.linLog region.1 region.2
  else if interpolant = 4 then tables.logLin region.1 region.2
  else if interpolant = 5 then tables.logLog region.1 region.2
  else .error .throws

/-- Models `makeChannelRadiusTable`, `rmatrix/src/makeChannelRadiusTable.hpp:1-61`. -/
def makeChannelRadiusTable (tables : InterpolationLibrary) :
    Option ScatteringRadius → Outcome (Option (ℝ → Outcome ℝ))
  | none => .ok none
  | some radius => do
    let regions ← (radius.regions.zip radius.interpolants).mapM fun p => makeRegion tables p.1 p.2
    let table ← tables.multiRegion regions
    pure (some table)

/-! ## The incident pair -/

/-- `ParticlePair in( Particle( incident, neutronMass, 0, 0.5, +1 ), Particle( target, awri *
neutronMass, 0, spin, +1 ) )`, `rmatrix/src/makeReichMooreCompoundSystem.hpp:19-22`,
`rmatrix/src/makeReichMooreChannelData.hpp:52-56`,
`rmatrix/src/makeLegacyBreitWignerCompoundSystem.hpp:20-24`,
`rmatrix/src/makeLegacyBreitWignerSpinGroups.hpp:34-38` and
`rmatrix/src/makeLegacyUnresolvedCompoundSystem.hpp:36-39`. -/
noncomputable def incidentPair (neutronMass : ℝ) (incident target : Str) (awri : ℝ) (spin : ℚ) :
    Outcome ParticlePair := do
  let particle ← makeParticle incident neutronMass 0 (1 / 2) 1
  let residual ← makeParticle target (awri * neutronMass) 0 spin 1
  makeParticlePair particle residual (pairID incident target)

/-- `Channel< ... >( in, pair, 0, numbers, radii )`. -/
def plainChannel (type : ChannelType) (incident pair : ParticlePair) (numbers : QuantumNumbers)
    (radii : ChannelRadii) : Channel := makeChannel type incident pair pair.id 0 numbers radii 0

/-! ## Breit-Wigner -/

section

variable (K : Constants) (lib : CoulombLibrary)

/-- The values `P`, `Q` and `S` of one resonance and its construction,
`rmatrix/src/makeLegacyBreitWignerSpinGroups.hpp:64-105` and the lambda `toResonance`, lines 24-31. -/
noncomputable def breitWignerResonance (channel : Channel) (qx : ℝ) (lrx : ℤ)
    (r : BreitWignerResonance) : Outcome Verif.BreitWigner.Resonance := do
  let p ← channel.penetrability K lib r.energy
  let q ← if lrx ≠ 0 then channel.penetrability K lib (r.energy - qx) else .ok p
  let s ← channel.shiftFactor K lib r.energy
  Verif.BreitWigner.makeResonance r.energy r.neutronWidth r.gammaWidth r.fissionWidth
    (if lrx ≠ 0 then r.competitiveWidth else 0) p q s

/-- The loop over the J values, `rmatrix/src/makeLegacyBreitWignerSpinGroups.hpp:52-115`. The numbers
that remain available are returned with the groups. -/
noncomputable def breitWignerGroups (initial : Channel → Verif.BreitWigner.Cache) (pair : ParticlePair)
    (radii : ChannelRadii) (lvalue : BreitWignerLValue) :
    List ℚ → List QuantumNumbers → Outcome (List Verif.BreitWigner.SpinGroup × List QuantumNumbers)
  | [], available => .ok ([], available)
  | J :: Js, available => do
    let (numbers, available) ← retrieveQuantumNumber lvalue.l J available
    let channel := plainChannel .neutron pair pair numbers radii
    let resonances ← (lvalue.resonances.filter fun r => r.spin == J).mapM
      (breitWignerResonance K lib channel lvalue.qx lvalue.lrx)
    let group := Verif.BreitWigner.makeSpinGroup channel resonances lvalue.qx (initial channel)
    let (groups, available) ← breitWignerGroups initial pair radii lvalue Js available
    pure (group :: groups, available)

/-- Models `makeLegacyBreitWignerSpinGroups`, `rmatrix/src/makeLegacyBreitWignerSpinGroups.hpp:1-119`. -/
noncomputable def makeLegacyBreitWignerSpinGroups (initial : Channel → Verif.BreitWigner.Cache)
    (neutronMass : ℝ) (incident target : Str) (spin : ℚ) (ap : ℝ) (nro : Option (ℝ → Outcome ℝ))
    (naps : ℤ) (lvalue : BreitWignerLValue) (available : List QuantumNumbers) :
    Outcome (List Verif.BreitWigner.SpinGroup × List QuantumNumbers) := do
  let pair ← incidentPair neutronMass incident target lvalue.awri spin
  let radii ← makeChannelRadii ap nro naps lvalue.awri neutronMass
  breitWignerGroups K lib initial pair radii lvalue
    (sortUnique (lvalue.resonances.map BreitWignerResonance.spin)) available

/-- The loop over the l values, `rmatrix/src/makeLegacyBreitWignerCompoundSystem.hpp:30-36` and
`rmatrix/src/makeReichMooreCompoundSystem.hpp:32-39`. -/
def overLValues {L G : Type} (make : L → List QuantumNumbers → Outcome (List G × List QuantumNumbers)) :
    List L → List QuantumNumbers → Outcome (List G × List QuantumNumbers)
  | [], available => .ok ([], available)
  | lvalue :: lvalues, available => do
    let (groups, available) ← make lvalue available
    let (rest, available) ← overLValues make lvalues available
    pure (groups ++ rest, available)

/-- Models `makeLegacyBreitWignerCompoundSystem`,
`rmatrix/src/makeLegacyBreitWignerCompoundSystem.hpp:1-40`. `front()` of an empty range is undefined
behaviour. -/
noncomputable def makeLegacyBreitWignerCompoundSystem (initial : Channel → Verif.BreitWigner.Cache)
    (neutronMass : ℝ) (incident target : Str) (nro : Option (ℝ → Outcome ℝ)) (naps : ℤ)
    (p : BreitWigner) : Outcome (LegacySystem Verif.BreitWigner.SpinGroup) :=
  match p.lValues with
  | [] => .error .undefined
  | first :: _ => do
    let _ ← incidentPair neutronMass incident target first.awri p.spin
    let required := makeQuantumNumbers (1 / 2) p.spin p.lValues.length
    let (groups, _) ← overLValues
      (makeLegacyBreitWignerSpinGroups K lib initial neutronMass incident target p.spin p.ap nro naps)
      p.lValues required
    LegacySystem.make Verif.BreitWigner.SpinGroup.channel groups

/-! ## Reich-Moore -/

/-- The lambda `toElasticWidth`, `rmatrix/src/makeReichMooreChannelData.hpp:31-35`. -/
noncomputable def toElasticWidth (value p : ℝ) : Outcome ℝ :=
  let sign : ℝ := if value ≥ 0 then 1 else -1
  if p = 0 ∨ |value| / 2 / p < 0 then .error .notFinite
  else .ok (sign * Real.sqrt (|value| / 2 / p))

/-- The lambda `toOtherWidth`, `rmatrix/src/makeReichMooreChannelData.hpp:36-40`. -/
noncomputable def toOtherWidth (value : ℝ) : ℝ :=
  let sign : ℝ := if value ≥ 0 then 1 else -1
  sign * Real.sqrt (|value| / 2)

open Classical in
/-- The lambda `isAllZero`, `rmatrix/src/makeReichMooreChannelData.hpp:41-49`. -/
noncomputable def isAllZero (values : List ℝ) : Bool :=
  (values.map fun value => decide (value = 0)).foldl (fun left right => left && right) true

/-- The body of the loop over the J values,
`rmatrix/src/makeReichMooreChannelData.hpp:76-152`, after the quantum numbers of the elastic channel have
been retrieved. -/
noncomputable def reichMooreData (pair fission capture : ParticlePair) (radii : ChannelRadii) (l : ℕ)
    (J : ℚ) (current : List ReichMooreResonance) (nElastic : QuantumNumbers) :
    Outcome (List ChannelData) := do
  let nOther : QuantumNumbers := ⟨l, 0, |J|, parityOfL l⟩
  let cElastic := plainChannel .neutron pair pair nElastic radii
  let cCapture := plainChannel .photon pair capture nOther radii
  let cFission1 := makeChannel .fission pair fission "fission1".toList 0 nOther radii 0
  let cFission2 := makeChannel .fission pair fission "fission2".toList 0 nOther radii 0
  let energies := current.map ReichMooreResonance.energy
  let rwElastic ← current.mapM fun r => do
    let p ← cElastic.penetrability K lib r.energy
    toElasticWidth r.neutronWidth p
  let rwCapture := current.map fun r => toOtherWidth r.gammaWidth
  let rwFission1 := current.map fun r => toOtherWidth r.firstFissionWidth
  let rwFission2 := current.map fun r => toOtherWidth r.secondFissionWidth
  let bFission1 := !isAllZero (current.map ReichMooreResonance.firstFissionWidth)
  let bFission2 := !isAllZero (current.map ReichMooreResonance.secondFissionWidth)
  let elastic ← makeChannelData cElastic energies rwElastic false
  let captured ← makeChannelData cCapture energies rwCapture true
  let first ← makeChannelData cFission1 energies rwFission1 false
  let second ← makeChannelData (if bFission1 then cFission2 else cFission1) energies rwFission2 false
  pure ([elastic, captured] ++ (if bFission1 then [first] else []) ++ (if bFission2 then [second] else []))

/-- The loop over the J values, `rmatrix/src/makeReichMooreChannelData.hpp:74-153`. -/
noncomputable def reichMooreLoop (pair fission capture : ParticlePair) (radii : ChannelRadii)
    (lvalue : ReichMooreLValue) :
    List ℚ → List QuantumNumbers → Outcome (List ChannelData × List QuantumNumbers)
  | [], available => .ok ([], available)
  | J :: Js, available => do
    let (numbers, available) ← retrieveQuantumNumber lvalue.l J available
    let data ← reichMooreData K lib pair fission capture radii lvalue.l J
      (lvalue.resonances.filter fun r => r.spin == J) numbers
    let (rest, available) ← reichMooreLoop pair fission capture radii lvalue Js available
    pure (data ++ rest, available)

open Classical in
/-- Models `makeReichMooreChannelData`, `rmatrix/src/makeReichMooreChannelData.hpp:1-156`. -/
noncomputable def makeReichMooreChannelData (neutronMass : ℝ) (incident target : Str) (spin : ℚ)
    (ap : ℝ) (nro : Option (ℝ → Outcome ℝ)) (naps : ℤ) (lvalue : ReichMooreLValue)
    (available : List QuantumNumbers) : Outcome (List ChannelData × List QuantumNumbers) := do
  let pair ← incidentPair neutronMass incident target lvalue.awri spin
  let fission ← makeParticlePair pair.particle pair.residual "fission".toList
  let capture ← makeParticlePair pair.particle pair.residual "capture".toList
  let radii ← makeChannelRadii (if lvalue.apl ≠ 0 then lvalue.apl else ap) nro naps lvalue.awri
    neutronMass
  reichMooreLoop K lib pair fission capture radii lvalue
    (sortUnique (lvalue.resonances.map ReichMooreResonance.spin)) available

/-- The data of the elastic channels without resonances,
`rmatrix/src/makeReichMooreCompoundSystem.hpp:42-48`. -/
def emptyElastic (pair : ParticlePair) (radii : ChannelRadii) (numbers : QuantumNumbers) : ChannelData :=
  ⟨plainChannel .neutron pair pair numbers radii, [], [], false⟩

/-- Models `makeReichMooreCompoundSystem`, `rmatrix/src/makeReichMooreCompoundSystem.hpp:1-53`. -/
noncomputable def makeReichMooreCompoundSystem
    (initial : (g : SpinGroup) → MatrixCache g.channels.length) (neutronMass : ℝ)
    (incident target : Str) (nro : Option (ℝ → Outcome ℝ)) (naps : ℤ) (p : ReichMoore) :
    Outcome CompoundSystem :=
  match p.lValues with
  | [] => .error .undefined
  | first :: _ => do
    let pair ← incidentPair neutronMass incident target first.awri p.spin
    let radii ← makeChannelRadii p.ap nro naps first.awri neutronMass
    let required := makeQuantumNumbers (1 / 2) p.spin p.nlsc
    let (data, remaining) ← overLValues
      (makeReichMooreChannelData K lib neutronMass incident target p.spin p.ap nro naps)
      p.lValues required
    let data := data ++ remaining.map (emptyElastic pair radii)
    let consolidated ← consolidateChannelData data
    makeCompoundSystemFromData initial consolidated

/-! ## R-matrix limited -/

/-- Models `findParticlePairForReaction`, `rmatrix/src/makeParticlePairs.hpp:1-12`, with `incident` and
`eliminated`, lines 14-26: the position of the first pair with that reaction number, or the number of
pairs. -/
def findParticlePair (pairs : List ParticlePairRow) (mt : ℤ) : ℕ :=
  pairs.findIdx fun row => row.mt == mt

/-- The parity of a spin, `rmatrix/src/makeParticlePairs.hpp:68-69` and
`rmatrix/src/makeParticleChannels.hpp:12-13`. -/
def parityOf (spin : ℚ) (parity : ℤ) : ℤ :=
  if spin = 0 then (if parity ≥ 0 then 1 else -1) else (if spin > 0 then 1 else -1)

/-- The lambda `makeParticleIDs`, `rmatrix/src/makeParticlePairs.hpp:36-59`. -/
def makeParticleIDs (reactions : ReactionLibrary) (incident target : Str) (mt : ℤ) :
    Outcome (Str × Str × PairID) :=
  if mt = 2 then .ok (incident, target, pairID incident target)
  else if mt = 18 then .ok (incident, target, "fission".toList)
  else do
    let (outgoing, residual) ← reactions incident target mt
    pure (outgoing, residual, pairID outgoing residual)

/-- Models `makeParticlePairs`, `rmatrix/src/makeParticlePairs.hpp:28-101`. -/
noncomputable def makeParticlePairs (reactions : ReactionLibrary) (neutronMass elementaryCharge : ℝ)
    (incident target : Str) (rows : List ParticlePairRow) : Outcome (List ParticlePair) :=
  rows.mapM fun row => do
    let (a, b, id) ← makeParticleIDs reactions incident target row.mt
    let particle ← makeParticle a (row.massA * neutronMass) (row.chargeA * elementaryCharge) |row.spinA|
      (parityOf row.spinA row.parityA)
    let residual ← makeParticle b (row.massB * neutronMass) (row.chargeB * elementaryCharge) |row.spinB|
      (parityOf row.spinB row.parityB)
    makeParticlePair particle residual id

/-- The type of channel that the lambda `makeParticleChannel` chooses,
`rmatrix/src/makeParticleChannels.hpp:25-61`. -/
noncomputable def channelType (pair : ParticlePair) (mt : ℤ) : ChannelType :=
  if mt = 102 then .photon
  else if mt = 18 ∨ mt = 19 ∨ mt = 20 ∨ mt = 21 ∨ mt = 38 then .fission
  else if pair.particle.charge > 0 then .charged
  else .neutron

/-- Models `makeParticleChannels`, `rmatrix/src/makeParticleChannels.hpp:1-89`. The ranges are zipped:
the incident pair is repeated as often as there are pairs, and the reaction numbers are those of the
pairs in their own order. A pair number outside `1..n` is a read outside the vector. -/
noncomputable def makeParticleChannels (incident : ParticlePair) (pairs : List ParticlePair)
    (rows : List ParticlePairRow) (group : SpinGroupRecord) : Outcome (List Channel) :=
  let incidents := List.replicate pairs.length incident
  (incidents.zip (group.channels.zip (rows.map ParticlePairRow.mt))).mapM fun (incident, row, mt) =>
    if row.pairNumber = 0 then .error .undefined
    else
      match pairs[row.pairNumber - 1]?, rows[row.pairNumber - 1]? with
      | some pair, some pairRow =>
        .ok (makeChannel (channelType pair mt) incident pair pair.id pairRow.q
          ⟨row.l, row.s, |group.spin|, parityOf group.spin group.parity⟩
          ⟨fun _ => .ok row.trueRadius, fun _ => .ok row.trueRadius, fun _ => .ok row.effectiveRadius⟩
          row.boundary)
      | _, _ => .error .undefined

/-- The lambda `calculateReducedWidth`, `rmatrix/src/makeParticleChannelData.hpp:236-245`. -/
noncomputable def calculateReducedWidth (channel : Channel) (energy width : ℝ) : Outcome ℝ := do
  let P ← channel.penetrability K lib energy
  if P = 0 ∨ |width| / 2 / P < 0 then .error .notFinite
  else pure ((if width < 0 then -1 else 1) * Real.sqrt (|width| / 2 / P))

/-- The lambda `toReducedWidths`, `rmatrix/src/makeParticleChannelData.hpp:246-260`. -/
noncomputable def toReducedWidths (reduced : Bool) (channel : Channel) (values : List (ℝ × ℝ)) :
    Outcome (List ℝ) :=
  if reduced then .ok (values.map Prod.snd)
  else values.mapM fun v => calculateReducedWidth K lib channel v.1 v.2

/-- The pairs of energy and width of channel `i`,
`rmatrix/src/makeParticleChannelData.hpp:289-293`. A row without that many widths is read past its
end. -/
def channelWidths (i : ℕ) (resonances : List (ℝ × List ℝ)) : Outcome (List (ℝ × ℝ)) :=
  resonances.mapM fun r =>
    match r.2[i]? with
    | none => .error .undefined
    | some width => .ok (r.1, width)

open Classical in
/-- The body of the loop over the channels,
`rmatrix/src/makeParticleChannelData.hpp:285-335`: at most one item of data. -/
noncomputable def channelDatum (reduced : Bool) (group : SpinGroupRecord) (eliminated : ℕ)
    (channel : Channel) (i : ℕ) : Outcome (Option ChannelData) :=
  let empty : Option ChannelData := if channel.isIncident then some ⟨channel, [], [], false⟩ else none
  if group.numberResonances ≠ 0 then do
    let values ← channelWidths i group.resonances
    let nonzero := values.filter fun v => decide (v.2 ≠ 0)
    if nonzero.length ≠ 0 then
      let widths ← toReducedWidths K lib reduced channel nonzero
      let data ← makeChannelData channel (nonzero.map Prod.fst) widths (i == eliminated)
      pure (some data)
    else pure empty
  else .ok empty

/-- Models `makeParticleChannelData` for the Reich-Moore formalism,
`rmatrix/src/makeParticleChannelData.hpp:198-338`. `pairs[ n ]` for a reaction number that no pair has
is a read past the end. -/
noncomputable def makeParticleChannelData (incident : ParticlePair) (pairs : List ParticlePair)
    (rows : List ParticlePairRow) (reduced : Bool) (group : SpinGroupRecord) :
    Outcome (List ChannelData) := do
  let channels ← makeParticleChannels incident pairs rows group
  match pairs[findParticlePair rows 102]? with
  | none => .error .undefined
  | some eliminatedPair =>
    let eliminated := channels.findIdx fun c => eliminatedPair.id == c.pair.id
    let data ← channels.zipIdx.mapM fun p => channelDatum K lib reduced group eliminated p.1 p.2
    pure (data.filterMap id)

/-- Models `makeCompoundSystem`, `rmatrix/src/makeCompoundSystem.hpp:1-30`, for the Reich-Moore
formalism. -/
noncomputable def makeRMatrixCompoundSystem
    (initial : (g : SpinGroup) → MatrixCache g.channels.length) (reactions : ReactionLibrary)
    (neutronMass elementaryCharge : ℝ) (incident target : Str) (p : RMatrixLimited) :
    Outcome CompoundSystem := do
  let pairs ← makeParticlePairs reactions neutronMass elementaryCharge incident target p.pairs
  match pairs[findParticlePair p.pairs 2]? with
  | none => .error .undefined
  | some pair =>
    let data ← p.spinGroups.mapM
      (makeParticleChannelData K lib pair pairs p.pairs (p.reducedWidths != 0))
    let consolidated ← consolidateChannelData data.flatten
    makeCompoundSystemFromData initial consolidated

end

/-! ## Unresolved resonances -/

/-- Models `makeLegacyUnresolvedResonanceTable` for energy independent parameters,
`rmatrix/src/makeLegacyUnresolvedResonanceTable.hpp:58-108`. `front()` and `back()` of an empty vector
are undefined behaviour. -/
def constantTable (tables : InterpolationLibrary) (energies : List ℝ) (j : UnresolvedConstantJ) :
    Outcome Unresolved.Table :=
  match energies.head?, energies.getLast? with
  | some lower, some upper =>
    Unresolved.makeTable tables.linLin
      [⟨lower, j.spacing, j.neutronWidth, j.gammaWidth, j.fissionWidth, j.competitiveWidth⟩,
        ⟨upper, j.spacing, j.neutronWidth, j.gammaWidth, j.fissionWidth, j.competitiveWidth⟩] j.degrees
  | _, _ => .error .undefined

/-- Models `makeLegacyUnresolvedResonanceTable` for energy dependent fission widths,
`rmatrix/src/makeLegacyUnresolvedResonanceTable.hpp:110-165`. -/
def fissionTable (tables : InterpolationLibrary) (energies : List ℝ) (j : UnresolvedFissionJ) :
    Outcome Unresolved.Table :=
  Unresolved.makeTable tables.linLin
    (List.zipWith (fun energy fission =>
      ⟨energy, j.spacing, j.neutronWidth, j.gammaWidth, fission, j.competitiveWidth⟩)
      energies j.fissionWidths) j.degrees

/-- Models `makeLegacyUnresolvedResonanceTable` for energy dependent parameters,
`rmatrix/src/makeLegacyUnresolvedResonanceTable.hpp:1-56`. -/
def dependentTable (tables : InterpolationLibrary) (_ : List ℝ) (j : UnresolvedDependentJ) :
    Outcome Unresolved.Table := Unresolved.makeTable tables.linLin j.rows j.degrees

/-- Models `makeLegacyUnresolvedSpinGroups`, `rmatrix/src/makeLegacyUnresolvedSpinGroups.hpp:1-38`. -/
noncomputable def makeLegacyUnresolvedSpinGroups {J : Type} (spin : J → ℚ)
    (table : List ℝ → J → Outcome Unresolved.Table) (pair : ParticlePair) (radii : ChannelRadii)
    (energies : List ℝ) (lvalue : UnresolvedLValue J) : Outcome (List Unresolved.SpinGroup) :=
  lvalue.jValues.mapM fun j => do
    let channel := plainChannel .neutron pair pair
      ⟨lvalue.l, 1 / 2, spin j, if (-1 : ℚ) ^ lvalue.l > 0 then 1 else -1⟩ radii
    let t ← table energies j
    pure ⟨channel, t⟩

/-- Models `makeLegacyUnresolvedCompoundSystem`,
`rmatrix/src/makeLegacyUnresolvedCompoundSystem.hpp:16-61`. -/
noncomputable def makeLegacyUnresolvedCompoundSystem {J : Type} (spin : J → ℚ)
    (table : List ℝ → J → Outcome Unresolved.Table) (energies : List ℝ) (neutronMass : ℝ)
    (incident target : Str) (nro : Option (ℝ → Outcome ℝ)) (naps : ℤ) (p : UnresolvedParameters J) :
    Outcome (LegacySystem Unresolved.SpinGroup) :=
  match p.lValues with
  | [] => .error .undefined
  | first :: _ => do
    let pair ← incidentPair neutronMass incident target first.awri p.spin
    let radii ← makeChannelRadii p.ap nro naps first.awri neutronMass
    let groups ← p.lValues.mapM (makeLegacyUnresolvedSpinGroups spin table pair radii energies)
    LegacySystem.make Unresolved.SpinGroup.channel groups.flatten

/-! ## Dispatch -/

/-- Models `fromENDF`, `rmatrix/src/fromENDF.hpp:1-186`, and `getEnergies`,
`rmatrix/src/makeLegacyUnresolvedCompoundSystem.hpp:1-14`. `std::get` of an alternative that is not held
throws. -/
noncomputable def fromENDF (K : Constants) (lib : CoulombLibrary) (tables : InterpolationLibrary)
    (reactions : ReactionLibrary) (initialBreitWigner : Channel → Verif.BreitWigner.Cache)
    (initial : (g : SpinGroup) → MatrixCache g.channels.length)
    (neutronMass elementaryCharge : ℝ) (incident target : Str) (range : Range) :
    Outcome Reconstructor := do
  let lower := range.lower
  let upper := range.upper
  let naps := range.naps
  let nro ← makeChannelRadiusTable tables range.scatteringRadius
  if range.type = 1 then
    if range.representation = 1 then
      match range.parameters with
      | .singleLevel p =>
        let system ← makeLegacyBreitWignerCompoundSystem K lib initialBreitWigner neutronMass incident
          target nro naps p
        pure ⟨lower, upper, .singleLevel system⟩
      | _ => .error .throws
    else if range.representation = 2 then
      match range.parameters with
      | .multiLevel p =>
        let system ← makeLegacyBreitWignerCompoundSystem K lib initialBreitWigner neutronMass incident
          target nro naps p
        pure ⟨lower, upper, .multiLevel system⟩
      | _ => .error .throws
    else if range.representation = 3 then
      match range.parameters with
      | .reichMoore p =>
        let system ← makeReichMooreCompoundSystem K lib initial neutronMass incident target nro naps p
        pure ⟨lower, upper, .shiftFactor system⟩
      | _ => .error .throws
    else if range.representation = 7 then
      match range.parameters with
      | .rmatrixLimited p =>
        match p.pairs with
        | [] => .error .undefined
        | first :: _ =>
          if p.formalism = 3 then
            if first.shiftFactorFlag = 0 then
              let system ← makeRMatrixCompoundSystem K lib initial reactions neutronMass
                elementaryCharge incident target p
              pure ⟨lower, upper, .shiftFactor system⟩
            else
              let system ← makeRMatrixCompoundSystem K lib initial reactions neutronMass
                elementaryCharge incident target p
              pure ⟨lower, upper, .constant system⟩
          else .error .throws
      | _ => .error .throws
    else .error .throws
  else if range.type = 2 then
    match range.parameters with
    | .unresolvedConstant p =>
      let system ← makeLegacyUnresolvedCompoundSystem UnresolvedConstantJ.spin (constantTable tables)
        [lower, upper] neutronMass incident target nro naps p
      pure ⟨lower, upper, .unresolved system⟩
    | .unresolvedFission p =>
      let system ← makeLegacyUnresolvedCompoundSystem UnresolvedFissionJ.spin (fissionTable tables)
        p.energies neutronMass incident target nro naps p
      pure ⟨lower, upper, .unresolved system⟩
    | .unresolvedDependent p =>
      let system ← makeLegacyUnresolvedCompoundSystem UnresolvedDependentJ.spin (dependentTable tables)
        [lower, upper] neutronMass incident target nro naps p
      pure ⟨lower, upper, .unresolved system⟩
    | _ => .error .throws
  else .error .throws

end Endf

end Verif
