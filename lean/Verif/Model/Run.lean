import Verif.Model.Reconstructor

/-!
# Evaluations that are interrupted by an exception

The functions `evaluate` of the other model files return an outcome: the new map or a failure. An
exception leaves a C++ function half way: what was written to the map of the caller and to the members
of the object before the exception stays there. This file follows the code in the order in which it
does things, including the ranges that are evaluated lazily (`ranges::view::transform` and
`ranges::view::zip_with` call their functions when an element is read, every time), and keeps the state
when it stops.
-/

namespace Verif

/-- C++ statements that change a state: how they ended, and the state then. -/
def Exec (σ α : Type) := σ → Outcome α × σ

namespace Exec

variable {σ α β : Type}

/-- A statement that cannot fail. -/
def pure (a : α) : Exec σ α := fun s => (.ok a, s)

/-- One statement after the other: an exception skips what follows and keeps the state. -/
def bind (x : Exec σ α) (f : α → Exec σ β) : Exec σ β := fun s =>
  match x s with
  | (.ok a, s) => f a s
  | (.error e, s) => (.error e, s)

instance : Monad (Exec σ) where
  pure := pure
  bind := bind

/-- An expression that does not change the state. -/
def lift (o : Outcome α) : Exec σ α := fun s => (o, s)

/-- An assignment. -/
def modify (f : σ → σ) : Exec σ Unit := fun s => (.ok (), f s)

/-- A call that only changes the second part of the state. -/
def second {τ : Type} (x : Exec τ α) : Exec (σ × τ) α := fun s =>
  match x s.2 with
  | (o, t) => (o, (s.1, t))

/-- A loop over a range. -/
def forEach (f : β → Exec σ Unit) : List β → Exec σ Unit
  | [] => Exec.pure ()
  | b :: rest => (f b).bind fun _ => forEach f rest

end Exec

/-! ## R-matrix spin groups -/

namespace Run

variable (option : BoundaryOption) (K : Constants) (lib : CoulombLibrary)

/-- The element `diagonal[i]`, `rmatrix/LMatrixCalculator/Constant/src/call.hpp:17-29,34`, and the
complex number of `rmatrix/LMatrixCalculator/ShiftFactor/src/call.hpp:20-21`: the shift factor and the
penetrability are calculated when the element is read. -/
noncomputable def diagonal (energy : ℝ) (channel : Channel) : Outcome ℂ :=
  match option with
  | .shiftFactor => do
    let P ← channel.penetrability K lib energy
    pure ⟨0, P⟩
  | .constant => do
    let S ← channel.shiftFactor K lib energy
    let P ← channel.penetrability K lib energy
    pure ⟨S - channel.boundary, P⟩

/-- Models `LMatrixCalculator< ... >::operator()`,
`rmatrix/LMatrixCalculator/Constant/src/call.hpp:12-36` and
`rmatrix/LMatrixCalculator/ShiftFactor/src/call.hpp:12-23`, with the entries it has written when it
stops. -/
noncomputable def lmatrix (channels : List Channel) (energy : ℝ) :
    Exec (MatrixCache channels.length) Unit := do
  Exec.modify fun c => { c with L := 0 }
  Exec.forEach (fun i => do
    let value ← Exec.lift (diagonal option K lib energy channels[i])
    Exec.modify fun c => { c with L := Function.update c.L i value })
    (List.finRange channels.length)

open Classical in
/-- Models `RLMatrixCalculator< ReichMoore, ... >::operator()`,
`rmatrix/RLMatrixCalculator/ReichMoore/src/call.hpp:11-59`, with what it has written to its matrices when
it stops. -/
noncomputable def rlmatrix (channels : List Channel) (resonances : List Resonance) (energy : ℝ) :
    Exec (MatrixCache channels.length) (Matrix (Fin channels.length) (Fin channels.length) ℂ) := do
  if ¬ ∀ r ∈ resonances, r.widths.length = channels.length then Exec.lift (.error .undefined)
  else
    -- lines 26-33
    Exec.modify fun c => { c with R := 0 }
    Exec.forEach (fun r => Exec.modify fun c =>
      { c with R := c.R + r.rmatrix energy channels.length }) resonances
    -- lines 43-50
    Exec.forEach (fun i =>
      if channels[i].belowThreshold energy then
        Exec.modify fun c => { c with R := zeroRowCol c.R i }
      else Exec.pure ()) (List.finRange channels.length)
    -- lines 53-55
    Exec.modify fun c => { c with RL := 1 }
    lmatrix option K lib channels energy
    if ∃ r ∈ resonances, r.denominator energy = 0 then Exec.lift (.error .notFinite)
    else
      Exec.modify fun c => { c with RL := c.RL - c.R * Matrix.diagonal c.L }
      -- lines 56-58
      fun c =>
        if Matrix.det c.RL = 0 then (.error .notFinite, c)
        else
          let c := { c with RL := c.RL⁻¹ }
          let c := { c with RL := c.RL * c.R }
          (.ok c.RL, c)

/-- The element `diagonalSqrtPMatrix[c]`, `rmatrix/SpinGroup/src/sqrtPenetrabilities.hpp:1-8` and
`rmatrix/SpinGroup/src/penetrabilities.hpp:1-10`. The square root of a negative number is NaN. -/
noncomputable def sqrtP (energy : ℝ) (channel : Channel) : Outcome ℝ := do
  let P ← channel.penetrability K lib energy
  if P < 0 then .error .notFinite else pure (Real.sqrt P)

/-- The element `diagonalOmegaMatrix[c]`, `rmatrix/SpinGroup/src/omegas.hpp:1-8` and
`rmatrix/SpinGroup/src/coulombShifts.hpp`, `phaseShifts.hpp:1-10`. -/
noncomputable def omega (energy : ℝ) (channel : Channel) : Outcome ℂ := do
  let w ← channel.coulombPhaseShift K energy
  let phi ← channel.phaseShift K lib energy
  pure (Complex.exp ⟨0, w - phi⟩)

variable (g : SpinGroup)

/-- The element `uElements[c']`, `rmatrix/SpinGroup/src/evaluate.hpp:57-68`. -/
noncomputable def uElement (energy : ℝ)
    (RL : Matrix (Fin g.channels.length) (Fin g.channels.length) ℂ)
    (c : Fin g.channels.length) (incidentSqrtP : ℝ) (incidentOmega : ℂ)
    (c' : Fin g.channels.length) : Outcome ℂ := do
  let s ← sqrtP K lib energy g.channels[c']
  let o ← omega K lib energy g.channels[c']
  pure (incidentOmega * ((if c' = c then 1 else 0) + ⟨0, 2⟩ * incidentSqrtP * RL c' c * s) * o)

/-- `ranges::accumulate( ..., 1., ranges::minus() )` over the norms of `uElements`,
`rmatrix/SpinGroup/src/evaluate.hpp:84-90`. -/
noncomputable def minusAll {α : Type} (f : α → Outcome ℂ) : List α → ℝ → Outcome ℝ
  | [], a => .ok a
  | c :: rest, a => do
    let u ← f c
    minusAll f rest (a - Complex.normSq u)

/-- Models `processIncidentChannel`, `rmatrix/SpinGroup/src/evaluate.hpp:38-104`. The elements of
`sigma` are calculated in the last loop, one by one; that of `capture` before it. -/
noncomputable def processIncidentChannel (energy factor : ℝ)
    (RL : Matrix (Fin g.channels.length) (Fin g.channels.length) ℂ) (c : Fin g.channels.length) :
    Exec CrossSectionMap Unit := do
  let incidentSqrtP ← Exec.lift (sqrtP K lib energy g.channels[c])
  let incidentOmega ← Exec.lift (omega K lib energy g.channels[c])
  let w ← Exec.lift (g.channels[c].coulombPhaseShift K energy)
  let u := uElement K lib g energy RL c incidentSqrtP incidentOmega
  let capture ← Exec.lift (minusAll u (List.finRange g.channels.length) 1)
  let crossSections : List (Outcome ℝ) :=
    (List.finRange g.channels.length).map (fun c' => do
      let value ← u c'
      pure (factor * Complex.normSq ((if c' = c then Complex.exp ⟨0, w⟩ else 0) - value)))
    ++ [pure (factor * capture)]
  Exec.forEach (fun e => do
    let value ← Exec.lift e.2
    Exec.modify fun m => m.add e.1 value) (g.reactions.zip crossSections)

/-- The lambda `factor`, `rmatrix/SpinGroup/src/evaluate.hpp:24-32`. -/
noncomputable def factor (energy : ℝ) : Outcome ℝ :=
  match g.incident with
  | [] => .error .undefined
  | first :: _ =>
    let k := g.channels[first].waveNumber K energy
    if k = 0 then .error .notFinite else .ok (Real.pi / (k * k) * g.channels[first].spinFactor)

/-- Models `SpinGroup::evaluate`, `rmatrix/SpinGroup/src/evaluate.hpp:7-108`: the map and the matrices
when it returns or stops. -/
noncomputable def spinGroup (energy : ℝ) (s : CrossSectionMap × MatrixCache g.channels.length) :
    Outcome Unit × CrossSectionMap × MatrixCache g.channels.length :=
  match rlmatrix option K lib g.channels g.table.resonances energy s.2 with
  | (.error e, cache) => (.error e, s.1, cache)
  | (.ok RL, cache) =>
    match factor K g energy with
    | .error e => (.error e, s.1, cache)
    | .ok f =>
      match Exec.forEach (processIncidentChannel K lib g energy f RL) g.incident s.1 with
      | (o, m) => (o, m, cache)

/-- Models `SpinGroup::evaluateTMatrix`, `rmatrix/SpinGroup/src/evaluateTMatrix.hpp:12-66`. -/
noncomputable def spinGroupTMatrix (energy : ℝ)
    (s : (Str → Option ℂ) × MatrixCache g.channels.length) :
    Outcome Unit × (Str → Option ℂ) × MatrixCache g.channels.length :=
  match rlmatrix option K lib g.channels g.table.resonances energy s.2 with
  | (.error e, cache) => (.error e, s.1, cache)
  | (.ok RL, cache) =>
    match Exec.forEach (fun c => do
      let current ← Exec.lift (sqrtP K lib energy g.channels[c])
      Exec.forEach (fun c' => do
        let s ← Exec.lift (sqrtP K lib energy g.channels[c'])
        Exec.modify fun m => Function.update m (tMatrixKey g.channels[c].id g.channels[c'].id)
          (some (current * RL c' c * s))) (List.finRange g.channels.length))
      (List.finRange g.channels.length) s.1 with
    | (o, m) => (o, m, cache)

/-- Models `CompoundSystem::evaluate`, `rmatrix/CompoundSystem/src/evaluate.hpp:7-13`. -/
noncomputable def system (energy : ℝ) :
    CompoundSystem → CrossSectionMap → Outcome Unit × CrossSectionMap × CompoundSystem
  | [], result => (.ok (), result, [])
  | s :: rest, result =>
    match spinGroup option K lib s.group energy (result, s.cache) with
    | (.error e, result, cache) => (.error e, result, ⟨s.group, cache⟩ :: rest)
    | (.ok _, result, cache) =>
      match system energy rest result with
      | (o, result, rest) => (o, result, ⟨s.group, cache⟩ :: rest)

/-- Models `CompoundSystem::evaluateTMatrix`,
`rmatrix/CompoundSystem/src/evaluateTMatrix.hpp:7-14`. -/
noncomputable def systemTMatrix (energy : ℝ) :
    CompoundSystem → (Str → Option ℂ) → Outcome Unit × (Str → Option ℂ) × CompoundSystem
  | [], result => (.ok (), result, [])
  | s :: rest, result =>
    match spinGroupTMatrix option K lib s.group energy (result, s.cache) with
    | (.error e, result, cache) => (.error e, result, ⟨s.group, cache⟩ :: rest)
    | (.ok _, result, cache) =>
      match systemTMatrix energy rest result with
      | (o, result, rest) => (o, result, ⟨s.group, cache⟩ :: rest)

/-! ## Legacy systems -/

/-- Models `SpinGroup< SingleLevelBreitWigner >::evaluate`,
`rmatrix/legacy/resolved/SpinGroup/SingleLevelBreitWigner/src/evaluate.hpp:7-57`, with `precompute`,
`precompute.hpp:1-30`: the map and the group when it returns or stops. -/
noncomputable def singleLevel (energy : ℝ) (g : BreitWigner.SpinGroup) (result : LegacyMap) :
    Outcome Unit × LegacyMap × BreitWigner.SpinGroup :=
  let channel := g.channel
  let waveNumber := channel.waveNumber K energy
  match (show Outcome ℝ from do
    let p ← channel.penetrability K lib energy
    let _ ← g.competitionPenetrability K lib energy p
    let _ ← channel.shiftFactor K lib energy
    channel.phaseShift K lib energy) with
  | .error e => (.error e, result, g)
  | .ok phaseShift =>
    let sinphi := Real.sin phaseShift
    let sintwophi := Real.sin (2 * phaseShift)
    let sin2phi := sinphi * sinphi
    open Classical in
    if waveNumber = 0 then (.error .notFinite, result, g)
    else
      let factor := Real.pi / (waveNumber * waveNumber) * channel.spinFactor
      match g.precompute K lib energy with
      | .error e => (.error e, result, g)
      | .ok g =>
        if (0 : ℝ) ∈ g.cache.denominator then (.error .notFinite, result, g)
        else
          let components := ((BreitWigner.SpinGroup.zipped g.cache).map
            (BreitWigner.SpinGroup.calculate sin2phi sintwophi)).foldl Data.add ⟨0, 0, 0, 0⟩
          let result := result.add (legacyID channel .elastic) (factor * components.elastic)
          let result := result.add (legacyID channel .capture) (factor * components.capture)
          let result := if components.fission ≠ 0 then
            result.add (legacyID channel .fission) (factor * components.fission) else result
          (.ok (), result, g)

/-- Models `SpinGroup< MultiLevelBreitWigner >::evaluate`,
`rmatrix/legacy/resolved/SpinGroup/MultiLevelBreitWigner/src/evaluate.hpp:7-40`: the map and the group
when it returns or stops. -/
noncomputable def multiLevel (energy : ℝ) (g : BreitWigner.SpinGroup) (result : LegacyMap) :
    Outcome Unit × LegacyMap × BreitWigner.SpinGroup :=
  let channel := g.channel
  let waveNumber := channel.waveNumber K energy
  let factor := Real.pi / (waveNumber * waveNumber) * channel.spinFactor
  match singleLevel K lib energy g result with
  | (.error e, result, g) => (.error e, result, g)
  | (.ok _, result, g) =>
    let term := BreitWigner.SpinGroup.crossTerm g.cache g.resonances.length
    (.ok (), result.add (legacyID channel .elastic) (factor * term), g)

/-- Models `unresolved::SpinGroup::evaluate`,
`rmatrix/legacy/unresolved/SpinGroup/src/evaluate.hpp:7-54`. Everything that can throw (lines 11-38) comes
before the first assignment to the map (line 41), and the group has no members that change. -/
noncomputable def unresolved (energy : ℝ) (g : Unresolved.SpinGroup) (result : LegacyMap) :
    Outcome Unit × LegacyMap × Unresolved.SpinGroup :=
  match g.evaluate K lib energy result with
  | .error e => (.error e, result, g)
  | .ok (result, g) => (.ok (), result, g)

/-- The loop over the spin groups, `rmatrix/legacy/CompoundSystemBase/src/evaluate.hpp:11-13`. -/
def legacyGroups {G : Type} (step : G → LegacyMap → Outcome Unit × LegacyMap × G) :
    List G → LegacyMap → Outcome Unit × LegacyMap × List G
  | [], result => (.ok (), result, [])
  | g :: groups, result =>
    match step g result with
    | (.error e, result, g) => (.error e, result, g :: groups)
    | (.ok _, result, g) =>
      match legacyGroups step groups result with
      | (o, result, groups) => (o, result, g :: groups)

/-- Models `CompoundSystemBase::evaluate`,
`rmatrix/legacy/CompoundSystemBase/src/evaluate.hpp:7-36`: the map and the system when it returns or
stops. -/
noncomputable def legacySystem {G : Type} (channel : G → Channel)
    (step : G → LegacyMap → Outcome Unit × LegacyMap × G) (energy : ℝ) (s : LegacySystem G)
    (result : LegacyMap) : Outcome Unit × LegacyMap × LegacySystem G :=
  match legacyGroups step s.groups result with
  | (.error e, result, groups) => (.error e, result, ⟨groups, s.lmax⟩)
  | (.ok _, result, groups) =>
    match groups with
    | [] => (.error .undefined, result, ⟨groups, s.lmax⟩)
    | first :: _ =>
      let c := channel first
      let waveNumber := c.waveNumber K energy
      match (show Outcome (ℝ × ℝ) from do
        let radius ← c.radii.phaseShift energy
        if waveNumber = 0 then .error .notFinite
        else
          let value ← LegacySystem.potential lib (waveNumber * radius) s.lmax
          pure (4 * Real.pi / (waveNumber * waveNumber), value)) with
      | .error e => (.error e, result, ⟨groups, s.lmax⟩)
      | .ok (factor, value) =>
        (.ok (), result.add (legacyID c .elastic) (factor * value), ⟨groups, s.lmax⟩)

/-! ## Reconstructors -/

/-- `std::visit( [&] ( auto& system ) { system.evaluate( energy, result ); }, system_ )` with an empty
map, `rmatrix/Reconstructor.hpp:74,78-80`. -/
noncomputable def variant (energy : ℝ) : SystemVariant → Outcome ReactionMap × SystemVariant
  | .singleLevel s =>
    match legacySystem K lib BreitWigner.SpinGroup.channel (singleLevel K lib energy) energy s
      fun _ => none with
    | (o, m, s) => (o.map fun _ => .ofLegacy m, .singleLevel s)
  | .multiLevel s =>
    match legacySystem K lib BreitWigner.SpinGroup.channel (multiLevel K lib energy) energy s
      fun _ => none with
    | (o, m, s) => (o.map fun _ => .ofLegacy m, .multiLevel s)
  | .shiftFactor s =>
    match system .shiftFactor K lib energy s fun _ => none with
    | (o, m, s) => (o.map fun _ => .ofCrossSections m, .shiftFactor s)
  | .constant s =>
    match system .constant K lib energy s fun _ => none with
    | (o, m, s) => (o.map fun _ => .ofCrossSections m, .constant s)
  | .unresolved s =>
    match legacySystem K lib Unresolved.SpinGroup.channel (unresolved K lib energy) energy s
      fun _ => none with
    | (o, m, s) => (o.map fun _ => .ofLegacy m, .unresolved s)

/-- Models `Reconstructor::operator()`, `rmatrix/Reconstructor.hpp:72-83`: the map that is returned, or
the failure, and the state of the reconstructor. -/
noncomputable def reconstructor (r : Reconstructor) (energy : ℝ) : Outcome ReactionMap × Reconstructor :=
  if energy ≥ r.lower ∧ energy ≤ r.upper then
    match variant K lib energy r.system with
    | (o, system) => (o, { r with system := system })
  else (.ok fun _ => none, r)

/-- A caller that evaluates a reconstructor at one energy after the other, catches the exceptions and
goes on. -/
noncomputable def session (r : Reconstructor) : List ℝ → List (Outcome ReactionMap)
  | [] => []
  | energy :: rest =>
    match reconstructor K lib r energy with
    | (o, r) => o :: session r rest

end Run

end Verif
