import Verif.Model.Channel
import Mathlib.Analysis.Complex.Exponential
import Mathlib.LinearAlgebra.Matrix.NonsingularInverse

/-!
# Spin groups: construction and evaluation

Matrices are `Matrix (Fin n) (Fin n) ℂ` with `n` the number of channels.
-/

namespace Verif

/-- Run a C++ range of `n` computations: all values, or the first failure. -/
def collect {α : Type*} : {n : ℕ} → (Fin n → Outcome α) → Outcome (Fin n → α)
  | 0, _ => .ok Fin.elim0
  | _ + 1, f => do
    let head ← f 0
    let tail ← collect fun i => f i.succ
    pure (Fin.cons head tail)

/-- Models the class `Resonance`, `rmatrix/Resonance.hpp:11-39`, and its constructor
`rmatrix/Resonance/src/ctor.hpp:16-21` (no validation). -/
structure Resonance where
  energy : ℝ
  widths : List ℝ
  eliminated : ℝ

namespace Resonance

/-- The complex number inverted in `Resonance::rmatrix`,
`rmatrix/Resonance/src/rmatrix.hpp:27-31`. -/
def denominator (r : Resonance) (energy : ℝ) : ℂ :=
  ⟨r.energy - energy, -(r.eliminated * r.eliminated)⟩

/-- Models `Resonance::rmatrix`, `rmatrix/Resonance/src/rmatrix.hpp:21-48`: the cartesian product of
the widths with themselves, chunked into rows (`widths[c]`; the callers have checked the number of widths). -/
noncomputable def rmatrix (r : Resonance) (energy : ℝ) (n : ℕ) : Matrix (Fin n) (Fin n) ℂ :=
  Matrix.of fun c c' => ((r.widths.getD c 0 * r.widths.getD c' 0 : ℝ) : ℂ) * (1 / r.denominator energy)

end Resonance

/-- Models the class `ResonanceTable`, `rmatrix/ResonanceTable.hpp:5-48`. -/
structure ResonanceTable where
  channels : List Str
  resonances : List Resonance

/-- Models the `ResonanceTable` constructor, `rmatrix/ResonanceTable/src/ctor.hpp:15-21` and
`verifyTable`, `rmatrix/ResonanceTable/src/verifyTable.hpp:2-21`. -/
def makeTable (channels : List Str) (resonances : List Resonance) : Outcome ResonanceTable :=
  if ∀ r ∈ resonances, r.widths.length = channels.length then .ok ⟨channels, resonances⟩
  else .error .throws

/-- The boundary condition options, `rmatrix.hpp:43-44`. -/
inductive BoundaryOption
  | shiftFactor
  | constant
  deriving DecidableEq, Repr

/-- The matrices that an `RLMatrixCalculator` and its `LMatrixCalculator` keep between calls,
`rmatrix/RLMatrixCalculator/ReichMoore.hpp:10-12`, `rmatrix/LMatrixCalculator/Constant.hpp:12`,
`rmatrix/LMatrixCalculator/ShiftFactor.hpp:21`. -/
structure MatrixCache (n : ℕ) where
  L : Fin n → ℂ
  R : Matrix (Fin n) (Fin n) ℂ
  RL : Matrix (Fin n) (Fin n) ℂ

/-- The state after construction, `rmatrix/RLMatrixCalculator/ReichMoore.hpp:21-24`
(the contents of `R` and `RL` are indeterminate in C++: any value). -/
def MatrixCache.initial {n : ℕ} (R RL : Matrix (Fin n) (Fin n) ℂ) : MatrixCache n := ⟨0, R, RL⟩

/-- Models `LMatrixCalculator< ... >::operator()`,
`rmatrix/LMatrixCalculator/Constant/src/call.hpp:12-36` and
`rmatrix/LMatrixCalculator/ShiftFactor/src/call.hpp:12-23`: reset the stored diagonal, then overwrite
it entry by entry. -/
noncomputable def lmatrix (option : BoundaryOption) (K : Constants) (lib : CoulombLibrary)
    (channels : List Channel) (energy : ℝ) (P : Fin channels.length → ℝ)
    (cache : MatrixCache channels.length) : Outcome (MatrixCache channels.length) := do
  let zeroed := { cache with L := 0 }
  match option with
  | .shiftFactor =>
    pure ((List.finRange channels.length).foldl
      (fun c i => { c with L := Function.update c.L i ⟨0, P i⟩ }) zeroed)
  | .constant =>
    let S ← collect fun i => channels[i].shiftFactor K lib energy
    pure ((List.finRange channels.length).foldl
      (fun c i => { c with L := Function.update c.L i ⟨S i - channels[i].boundary, P i⟩ }) zeroed)

/-- `rmatrix_.row(c).setZero(); rmatrix_.col(c).setZero();`,
`rmatrix/RLMatrixCalculator/ReichMoore/src/call.hpp:47-48`. -/
def zeroRowCol {n : ℕ} (M : Matrix (Fin n) (Fin n) ℂ) (c : Fin n) : Matrix (Fin n) (Fin n) ℂ :=
  Matrix.of fun i j => if i = c ∨ j = c then 0 else M i j

open Classical in
/-- Models `RLMatrixCalculator< ReichMoore, ... >::operator()`,
`rmatrix/RLMatrixCalculator/ReichMoore/src/call.hpp:11-59`.
A pole of the R-matrix or a singular matrix gives infinities or NaN; a resonance without the right
number of widths would be read out of bounds. -/
noncomputable def rlmatrix (option : BoundaryOption) (K : Constants) (lib : CoulombLibrary)
    (channels : List Channel) (resonances : List Resonance) (energy : ℝ)
    (P : Fin channels.length → ℝ) (cache : MatrixCache channels.length) :
    Outcome (MatrixCache channels.length) :=
  if ¬ ∀ r ∈ resonances, r.widths.length = channels.length then .error .undefined
  else
    -- lines 26-33
    let cache := { cache with R := 0 }
    let cache := resonances.foldl
      (fun c r => { c with R := c.R + r.rmatrix energy channels.length }) cache
    -- lines 43-50
    let cache := (List.finRange channels.length).foldl
      (fun c i => if channels[i].belowThreshold energy then { c with R := zeroRowCol c.R i } else c)
      cache
    -- lines 53-57
    match lmatrix option K lib channels energy P cache with
    | .error e => .error e
    | .ok cache =>
      if ∃ r ∈ resonances, r.denominator energy = 0 then .error .notFinite
      else
        let cache := { cache with RL := 1 - cache.R * Matrix.diagonal cache.L }
        if Matrix.det cache.RL = (0 : ℂ) then .error .notFinite
        else
          let cache := { cache with RL := cache.RL⁻¹ }
          .ok { cache with RL := cache.RL * cache.R }

/-- Models the class `SpinGroup`, `rmatrix/SpinGroup.hpp:5-14`, without the matrix cache
(see `MatrixCache`). -/
structure SpinGroup where
  channels : List Channel
  reactions : List ReactionID
  incident : List (Fin channels.length)
  table : ResonanceTable

/-- Models `SpinGroup::determineIncidentChannels`,
`rmatrix/SpinGroup/src/determineIncidentChannels.hpp:3-22`: repeated `find_if` from the position after
the last hit, i.e. all matching positions in order. -/
def determineIncidentChannels (channels : List Channel) : List (Fin channels.length) :=
  (List.finRange channels.length).filter fun i => channels[i].isIncident

/-- Models `SpinGroup::makeReactionIdentifiers`,
`rmatrix/SpinGroup/src/makeReactionIdentifiers.hpp:2-19`. `front()` of an empty vector is undefined
behaviour. -/
def makeReactionIdentifiers (channels : List Channel) : Outcome (List ReactionID) :=
  match channels with
  | [] => .error .undefined
  | first :: _ =>
    .ok (channels.map Channel.reaction ++ [.transition first.incident.id "capture".toList])

/-- Models `SpinGroup::verifyChannels`, `rmatrix/SpinGroup/src/verifyChannels.hpp:2-91`: exceptions
for no channels, different incident pairs (counting those equal to the first), repeated channel
identifiers, different J or parity. -/
def verifyChannels (channels : List Channel) : Outcome Unit :=
  match channels with
  | [] => .error .throws
  | first :: rest =>
    if channels.countP (fun c => c.incident.id == first.incident.id) < channels.length then
      .error .throws
    else if ∃ c ∈ channels, 1 < channels.countP (fun d => d.id == c.id) then .error .throws
    else if ∃ c ∈ rest, c.numbers.J ≠ first.numbers.J ∨ c.numbers.parity ≠ first.numbers.parity then
      .error .throws
    else .ok ()

/-- Models `SpinGroup::verifyIncidentChannels`,
`rmatrix/SpinGroup/src/verifyIncidentChannels.hpp:2-13`. -/
def verifyIncidentChannels {n : ℕ} (incident : List (Fin n)) : Outcome Unit :=
  if incident.length = 0 then .error .throws else .ok ()

/-- Models `SpinGroup::verifyResonanceChannels`,
`rmatrix/SpinGroup/src/verifyResonanceChannels.hpp:2-42`. -/
def verifyResonanceChannels (channels : List Channel) (table : ResonanceTable) : Outcome Unit :=
  if channels.length ≠ table.channels.length then .error .throws
  else if ∃ p ∈ (channels.map Channel.id).zip table.channels, p.1 ≠ p.2 then .error .throws
  else .ok ()

/-- Models the `SpinGroup` constructor, `rmatrix/SpinGroup/src/ctor.hpp:7-19`, in the order of the
member initialisers and of the constructor body. -/
def makeSpinGroup (channels : List Channel) (table : ResonanceTable) : Outcome SpinGroup := do
  let reactions ← makeReactionIdentifiers channels
  let incident := determineIncidentChannels channels
  verifyChannels channels
  verifyIncidentChannels incident
  verifyResonanceChannels channels table
  pure ⟨channels, reactions, incident, table⟩

/-- `std::map< ReactionID, CrossSection >`. -/
abbrev CrossSectionMap := ReactionID → Option ℝ

/-- `result[ id ] += value`: `operator[]` inserts a zero for a missing key. -/
def CrossSectionMap.add (m : CrossSectionMap) (id : ReactionID) (value : ℝ) : CrossSectionMap :=
  Function.update m id (some ((m id).getD 0 + value))

/-- The values computed once per call of `SpinGroup::evaluate`,
`rmatrix/SpinGroup/src/evaluate.hpp:12-32`. -/
structure Prepared (n : ℕ) where
  P : Fin n → ℝ
  w : Fin n → ℝ
  phi : Fin n → ℝ
  RL : Matrix (Fin n) (Fin n) ℂ
  factor : ℝ

namespace Prepared

variable {n : ℕ} (p : Prepared n)

open Complex

/-- `sqrtPenetrabilities`, `rmatrix/SpinGroup/src/sqrtPenetrabilities.hpp:1-8`. -/
noncomputable def sqrtP (c : Fin n) : ℝ := Real.sqrt (p.P c)

/-- `omegas`, `rmatrix/SpinGroup/src/omegas.hpp:1-8`. -/
noncomputable def omega (c : Fin n) : ℂ := exp ⟨0, p.w c - p.phi c⟩

/-- `uElements`, `rmatrix/SpinGroup/src/evaluate.hpp:49-68`. Eigen stores matrices by column, so the
range called `row` in the code, starting at `data() + c * size`, is column `c`. -/
noncomputable def uElement (c c' : Fin n) : ℂ :=
  p.omega c * ((if c' = c then 1 else 0) + ⟨0, 2⟩ * p.sqrtP c * p.RL c' c * p.sqrtP c') * p.omega c'

/-- `sigma`, `rmatrix/SpinGroup/src/evaluate.hpp:71-81`. -/
noncomputable def sigma (c c' : Fin n) : ℝ :=
  normSq ((if c' = c then exp ⟨0, p.w c⟩ else 0) - p.uElement c c')

/-- `capture`, `rmatrix/SpinGroup/src/evaluate.hpp:84-90`. -/
noncomputable def capture (c : Fin n) : ℝ :=
  (List.ofFn fun c' => normSq (p.uElement c c')).foldl (fun a b => a - b) 1

/-- `crossSections`, `rmatrix/SpinGroup/src/evaluate.hpp:93-97`. -/
noncomputable def crossSections (c : Fin n) : List ℝ :=
  (List.ofFn (p.sigma c) ++ [p.capture c]).map fun value => p.factor * value

end Prepared

namespace SpinGroup

/-- The first part of `SpinGroup::evaluate`, `rmatrix/SpinGroup/src/evaluate.hpp:12-32`, with the
square roots of line 14. When several failures apply at once the model reports one of them. -/
noncomputable def prepare (option : BoundaryOption) (K : Constants) (lib : CoulombLibrary)
    (g : SpinGroup) (energy : ℝ) (cache : MatrixCache g.channels.length) :
    Outcome (Prepared g.channels.length × MatrixCache g.channels.length) := do
  let P ← collect fun i => g.channels[i].penetrability K lib energy
  let w ← collect fun i => g.channels[i].coulombPhaseShift K energy
  let phi ← collect fun i => g.channels[i].phaseShift K lib energy
  if ∃ i, P i < 0 then .error .notFinite
  else
    let cache ← rlmatrix option K lib g.channels g.table.resonances energy P cache
    match g.incident with
    | [] => .error .undefined
    | first :: _ =>
      let k := g.channels[first].waveNumber K energy
      if k = 0 then .error .notFinite
      else
        let factor := Real.pi / (k * k) * g.channels[first].spinFactor
        pure (⟨P, w, phi, cache.RL, factor⟩, cache)

/-- Models `processIncidentChannel`, `rmatrix/SpinGroup/src/evaluate.hpp:38-104`: the accumulation
loop over the zip of identifiers and cross sections. -/
noncomputable def processIncidentChannel {n : ℕ} (reactions : List ReactionID) (p : Prepared n)
    (result : CrossSectionMap) (c : Fin n) : CrossSectionMap :=
  (reactions.zip (p.crossSections c)).foldl (fun m e => m.add e.1 e.2) result

/-- Models `SpinGroup::evaluate`, `rmatrix/SpinGroup/src/evaluate.hpp:7-108`. -/
noncomputable def evaluate (option : BoundaryOption) (K : Constants) (lib : CoulombLibrary)
    (g : SpinGroup) (energy : ℝ) (cache : MatrixCache g.channels.length)
    (result : CrossSectionMap) :
    Outcome (CrossSectionMap × MatrixCache g.channels.length) := do
  let (p, cache) ← g.prepare option K lib energy cache
  pure (g.incident.foldl (processIncidentChannel g.reactions p) result, cache)

/-- Models `SpinGroup::evaluateTMatrix`, `rmatrix/SpinGroup/src/evaluateTMatrix.hpp:12-66`:
`result[ key ] = value` for every ordered pair of channels. -/
noncomputable def evaluateTMatrix (option : BoundaryOption) (K : Constants) (lib : CoulombLibrary)
    (g : SpinGroup) (energy : ℝ) (cache : MatrixCache g.channels.length)
    (result : Str → Option ℂ) :
    Outcome ((Str → Option ℂ) × MatrixCache g.channels.length) := do
  let P ← collect fun i => g.channels[i].penetrability K lib energy
  if ∃ i, P i < 0 then .error .notFinite
  else
    let cache ← rlmatrix option K lib g.channels g.table.resonances energy P cache
    pure ((List.finRange g.channels.length).foldl (fun m c =>
      (List.finRange g.channels.length).foldl (fun m c' =>
        Function.update m (tMatrixKey g.channels[c].id g.channels[c'].id)
          (some (Real.sqrt (P c) * cache.RL c' c * Real.sqrt (P c')))) m) result, cache)

end SpinGroup

end Verif
