import Verif.Model.CompoundSystem

/-!
# Legacy resolved resonances: single and multi-level Breit-Wigner

Everything in namespace `rmatrix::legacy` of the code except the unresolved resonances.
-/

namespace Verif

/-- The reaction types of the legacy classes, `rmatrix/legacy/SpinGroupBase.hpp:36-38`. -/
inductive LegacyKind
  | elastic
  | capture
  | fission
  deriving DecidableEq, Repr

/-- `ReactionID{ incident, target, ReactionType( ... ) }` (an external library): assumed equal only
if the three parts are. -/
structure LegacyID where
  particle : Str
  target : Str
  kind : LegacyKind
  deriving DecidableEq, Repr

/-- `std::map< ReactionID, CrossSection >` for the legacy classes. -/
abbrev LegacyMap := LegacyID → Option ℝ

/-- `result[ id ] += value`. -/
def LegacyMap.add (m : LegacyMap) (id : LegacyID) (value : ℝ) : LegacyMap :=
  Function.update m id (some ((m id).getD 0 + value))

/-- The identifiers made in the `SpinGroupBase` constructor,
`rmatrix/legacy/SpinGroupBase.hpp:28-39` and in
`rmatrix/legacy/CompoundSystemBase/src/evaluate.hpp:16-18,35`. The former reads the channel after it
has been moved from; assumption: the identifiers are still there. -/
def legacyID (channel : Channel) (kind : LegacyKind) : LegacyID :=
  ⟨channel.pair.particle.id, channel.pair.residual.id, kind⟩

/-- Models `legacy::Data`, `rmatrix/legacy/Data.hpp:5-52`. -/
@[ext]
structure Data (α : Type) where
  elastic : α
  capture : α
  fission : α
  competition : α

namespace Data

variable {α : Type}

/-- Models `Data::operator+`, `rmatrix/legacy/Data.hpp:18-23`, and `operator+=`, lines 32-38. -/
def add [Add α] (a b : Data α) : Data α :=
  ⟨a.elastic + b.elastic, a.capture + b.capture, a.fission + b.fission,
    a.competition + b.competition⟩

/-- Models `Data::operator-`, `rmatrix/legacy/Data.hpp:25-30`, and `operator-=`, lines 40-46. -/
def sub [Sub α] (a b : Data α) : Data α :=
  ⟨a.elastic - b.elastic, a.capture - b.capture, a.fission - b.fission,
    a.competition - b.competition⟩

end Data

namespace BreitWigner

/-- Models `legacy::resolved::Resonance`, `rmatrix/legacy/resolved/Resonance.hpp:18-31`. A field
without a value is indeterminate. -/
structure Resonance where
  energy : ℝ
  elastic : ℝ
  capture : ℝ
  fission : ℝ
  competition : ℝ
  elasticToPenetrability : ℝ
  competitionToPenetrability : ℝ
  penetrabilityField : Option ℝ
  shiftfactor : ℝ

/-- Models the `Resonance` constructor, `rmatrix/legacy/resolved/Resonance/src/ctor.hpp:13-28`. There
is no initialiser for `penetrability_`. -/
noncomputable def makeResonance (energy elastic capture fission competition P Q S : ℝ) :
    Outcome Resonance :=
  if P = 0 ∨ Q = 0 then .error .notFinite
  else .ok ⟨energy, elastic, capture, fission, competition, elastic / P, competition / Q, none, S⟩

namespace Resonance

variable (r : Resonance)

/-- Models `Resonance::total`, `rmatrix/legacy/resolved/Resonance.hpp:66-70`. -/
def total : ℝ := r.elastic + r.capture + r.fission + r.competition

/-- Models `Resonance::penetrability`, `rmatrix/legacy/resolved/Resonance.hpp:75`: reading an
indeterminate value is undefined behaviour. -/
def penetrability : Outcome ℝ :=
  match r.penetrabilityField with
  | none => .error .undefined
  | some p => .ok p

/-- Models `Resonance::elastic( penetrability )`, `rmatrix/legacy/resolved/Resonance.hpp:85-88`. -/
def elasticAt (penetrability : ℝ) : ℝ := penetrability * r.elasticToPenetrability

/-- Models `Resonance::competition( penetrability )`,
`rmatrix/legacy/resolved/Resonance.hpp:93-96`. -/
def competitionAt (penetrability : ℝ) : ℝ := penetrability * r.competitionToPenetrability

/-- Models `Resonance::total( P, Q )`, `rmatrix/legacy/resolved/Resonance.hpp:101-105`. -/
def totalAt (P Q : ℝ) : ℝ := r.elasticAt P + r.capture + r.fission + r.competitionAt Q

/-- Models `Resonance::energyPrime`, `rmatrix/legacy/resolved/Resonance.hpp:113-118`. -/
noncomputable def energyPrime (shiftfactor : ℝ) : ℝ :=
  r.energy + (r.shiftfactor - shiftfactor) / 2 * r.elasticToPenetrability

end Resonance

/-- The vectors that a spin group keeps between calls,
`rmatrix/legacy/resolved/SpinGroup/SingleLevelBreitWigner.hpp:18-23`. -/
structure Cache where
  elastic : List ℝ
  capture : List ℝ
  fission : List ℝ
  total : List ℝ
  delta : List ℝ
  denominator : List ℝ

/-- Models `legacy::resolved::SpinGroup< SingleLevelBreitWigner >`,
`rmatrix/legacy/resolved/SpinGroup/SingleLevelBreitWigner.hpp:9-60`, and
`SpinGroup< MultiLevelBreitWigner >`,
`rmatrix/legacy/resolved/SpinGroup/MultiLevelBreitWigner.hpp:9-25`, with its mutable vectors. The
channel is a `Channel< Neutron >`. -/
structure SpinGroup where
  channel : Channel
  resonances : List Resonance
  qx : ℝ
  cache : Cache

/-- Models the `SpinGroup` constructor,
`rmatrix/legacy/resolved/SpinGroup/SingleLevelBreitWigner/src/ctor.hpp:8-16`. The lengths are taken
from a table that has been moved from: any cache. -/
def makeSpinGroup (incident : Channel) (resonances : List Resonance) (qx : ℝ) (cache : Cache) :
    SpinGroup := ⟨incident, resonances, qx, cache⟩

namespace SpinGroup

variable (K : Constants) (lib : CoulombLibrary)

/-- `qx.value != 0. ? channel.penetrability( energy - qx ) : p`,
`rmatrix/legacy/resolved/SpinGroup/SingleLevelBreitWigner/src/precompute.hpp:7-8` and `evaluate.hpp:15`. -/
noncomputable def competitionPenetrability (g : SpinGroup) (energy p : ℝ) : Outcome ℝ :=
  if g.qx ≠ 0 then g.channel.penetrability K lib (energy - g.qx) else .ok p

/-- Models `precompute`,
`rmatrix/legacy/resolved/SpinGroup/SingleLevelBreitWigner/src/precompute.hpp:1-30`. -/
noncomputable def precompute (g : SpinGroup) (energy : ℝ) : Outcome SpinGroup := do
  let p ← g.channel.penetrability K lib energy
  let q ← g.competitionPenetrability K lib energy p
  let s ← g.channel.shiftFactor K lib energy
  let elastic := g.resonances.map fun r => r.elasticAt p
  let capture := g.resonances.map fun r => r.capture
  let fission := g.resonances.map fun r => r.fission
  let total := g.resonances.map fun r => r.totalAt p q
  let delta := g.resonances.map fun r => energy - r.energyPrime s
  let denominator := List.zipWith (fun d t => d * d + 0.25 * t * t) delta total
  pure { g with cache := ⟨elastic, capture, fission, total, delta, denominator⟩ }

/-- The lambda `calculate`,
`rmatrix/legacy/resolved/SpinGroup/SingleLevelBreitWigner/src/evaluate.hpp:30-40`. -/
noncomputable def calculate (sin2phi sintwophi : ℝ)
    (v : ℝ × ℝ × ℝ × ℝ × ℝ × ℝ) : Data ℝ :=
  let (elastic, capture, fission, total, delta, denominator) := v
  ⟨elastic * (elastic - 2 * total * sin2phi + 2 * delta * sintwophi) / denominator,
    capture * elastic / denominator, fission * elastic / denominator, 0⟩

/-- `ranges::view::zip_with` over the six vectors,
`rmatrix/legacy/resolved/SpinGroup/SingleLevelBreitWigner/src/evaluate.hpp:44-47`. -/
def zipped (c : Cache) : List (ℝ × ℝ × ℝ × ℝ × ℝ × ℝ) :=
  c.elastic.zip (c.capture.zip (c.fission.zip (c.total.zip (c.delta.zip c.denominator))))

/-- Models `SpinGroup< SingleLevelBreitWigner >::evaluate`,
`rmatrix/legacy/resolved/SpinGroup/SingleLevelBreitWigner/src/evaluate.hpp:7-57`. A vanishing wave
number or denominator gives infinities or NaN. -/
noncomputable def evaluateSLBW (g : SpinGroup) (energy : ℝ) (result : LegacyMap) :
    Outcome (LegacyMap × SpinGroup) := do
  let channel := g.channel
  let waveNumber := channel.waveNumber K energy
  let p ← channel.penetrability K lib energy
  let _ ← g.competitionPenetrability K lib energy p
  let _ ← channel.shiftFactor K lib energy
  let phaseShift ← channel.phaseShift K lib energy
  let sinphi := Real.sin phaseShift
  let sintwophi := Real.sin (2 * phaseShift)
  let sin2phi := sinphi * sinphi
  if waveNumber = 0 then .error .notFinite
  else
    let factor := Real.pi / (waveNumber * waveNumber) * channel.spinFactor
    let g ← g.precompute K lib energy
    if (0 : ℝ) ∈ g.cache.denominator then .error .notFinite
    else
      let components := ((zipped g.cache).map (calculate sin2phi sintwophi)).foldl Data.add ⟨0, 0, 0, 0⟩
      let result := result.add (legacyID channel .elastic) (factor * components.elastic)
      let result := result.add (legacyID channel .capture) (factor * components.capture)
      let result := if components.fission ≠ 0 then
        result.add (legacyID channel .fission) (factor * components.fission) else result
      pure (result, g)

/-- The loops over pairs of resonances,
`rmatrix/legacy/resolved/SpinGroup/MultiLevelBreitWigner/src/evaluate.hpp:22-36`: `r` from 1, `rp`
from 0 to `r - 1`. -/
noncomputable def crossTerm (c : Cache) (n : ℕ) : ℝ :=
  (List.range' 1 (n - 1)).foldl (fun term r => (List.range r).foldl (fun term rp =>
    term + 2 * c.elastic.getD r 0 * c.elastic.getD rp 0
      * (c.delta.getD r 0 * c.delta.getD rp 0 + 0.25 * c.total.getD r 0 * c.total.getD rp 0)
      / c.denominator.getD r 0 / c.denominator.getD rp 0) term) 0

/-- Models `SpinGroup< MultiLevelBreitWigner >::evaluate`,
`rmatrix/legacy/resolved/SpinGroup/MultiLevelBreitWigner/src/evaluate.hpp:7-40`. The vectors have as
many elements as there are resonances after the single-level evaluation. -/
noncomputable def evaluateMLBW (g : SpinGroup) (energy : ℝ) (result : LegacyMap) :
    Outcome (LegacyMap × SpinGroup) := do
  let channel := g.channel
  let waveNumber := channel.waveNumber K energy
  let factor := Real.pi / (waveNumber * waveNumber) * channel.spinFactor
  let (result, g) ← g.evaluateSLBW K lib energy result
  let term := crossTerm g.cache g.resonances.length
  pure (result.add (legacyID channel .elastic) (factor * term), g)

/-- Models `SpinGroup< SingleLevelBreitWigner >::grid`,
`rmatrix/legacy/resolved/SpinGroup/SingleLevelBreitWigner/src/grid.hpp:9-28`. -/
noncomputable def grid (g : SpinGroup) : List ℝ :=
  sortUnique (g.resonances.flatMap fun r =>
    if r.energy > 0 then [r.energy - 0.5 * r.total, r.energy, r.energy + 0.5 * r.total] else [])

end SpinGroup

end BreitWigner

/-! ## Legacy compound systems -/

/-- Models `legacy::CompoundSystemBase`, `rmatrix/legacy/CompoundSystemBase.hpp:8-30`, for any type of
spin group. -/
structure LegacySystem (G : Type) where
  groups : List G
  lmax : ℕ

namespace LegacySystem

variable {G : Type}

/-- Models `getLMax`, `rmatrix/legacy/CompoundSystemBase/src/getLMax.hpp:1-13`. -/
def getLMax (channel : G → Channel) : List G → ℕ
  | [] => 0
  | g :: groups => groups.foldl (fun m h => max m (channel h).numbers.l) (channel g).numbers.l

/-- Models `verifySpinGroups`, `rmatrix/legacy/CompoundSystemBase/src/verifySpinGroups.hpp:1-49`. -/
def verifySpinGroups (channel : G → Channel) (groups : List G) : Outcome Unit :=
  if groups.length = 0 then .error .throws
  else if ∃ g ∈ groups, 1 < groups.countP (fun h =>
      (channel h).numbers.l == (channel g).numbers.l && (channel h).numbers.J == (channel g).numbers.J)
    then .error .throws
  else .ok ()

/-- Models the `CompoundSystemBase` constructor,
`rmatrix/legacy/CompoundSystemBase/src/ctor.hpp:6-22`. -/
def make (channel : G → Channel) (groups : List G) : Outcome (LegacySystem G) := do
  let lmax := getLMax channel groups
  verifySpinGroups channel groups
  pure ⟨groups, lmax⟩

/-- The loop over the spin groups, `rmatrix/legacy/CompoundSystemBase/src/evaluate.hpp:11-13`. -/
def evaluateGroups (step : G → LegacyMap → Outcome (LegacyMap × G)) :
    List G → LegacyMap → Outcome (LegacyMap × List G)
  | [], result => .ok (result, [])
  | g :: groups, result => do
    let (result, g) ← step g result
    let (result, groups) ← evaluateGroups step groups result
    pure (result, g :: groups)

/-- The loop over `l`, `rmatrix/legacy/CompoundSystemBase/src/evaluate.hpp:26-33`. -/
noncomputable def potential (lib : CoulombLibrary) (ratio : ℝ) (lmax : ℕ) : Outcome ℝ := do
  let phases ← (List.range (lmax + 1)).mapM fun l => calculatePhaseShift lib .neutron l ratio 0
  pure ((phases.zipIdx).foldl (fun value p =>
    value + (2 * (p.2 : ℝ) + 1) * (Real.sin p.1 * Real.sin p.1)) 0)

/-- Models `CompoundSystemBase::evaluate`,
`rmatrix/legacy/CompoundSystemBase/src/evaluate.hpp:7-36`. -/
noncomputable def evaluate (K : Constants) (lib : CoulombLibrary) (channel : G → Channel)
    (step : G → LegacyMap → Outcome (LegacyMap × G)) (energy : ℝ) (s : LegacySystem G)
    (result : LegacyMap) : Outcome (LegacyMap × LegacySystem G) := do
  let (result, groups) ← evaluateGroups step s.groups result
  match groups with
  | [] => .error .undefined
  | first :: _ =>
    let c := channel first
    let waveNumber := c.waveNumber K energy
    let radius ← c.radii.phaseShift energy
    if waveNumber = 0 then .error .notFinite
    else
      let factor := 4 * Real.pi / (waveNumber * waveNumber)
      let value ← potential lib (waveNumber * radius) s.lmax
      pure (result.add (legacyID c .elastic) (factor * value), ⟨groups, s.lmax⟩)

end LegacySystem

/-- Models `legacy::resolved::CompoundSystem::grid`,
`rmatrix/legacy/resolved/CompoundSystem/src/grid.hpp:10-22`. -/
noncomputable def BreitWigner.grid (s : LegacySystem BreitWigner.SpinGroup) : List ℝ :=
  sortUnique (s.groups.flatMap BreitWigner.SpinGroup.grid)

end Verif
