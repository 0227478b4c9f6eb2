import Verif.Model.SpinGroup
import Mathlib.Data.List.Sort
import Mathlib.Data.List.Destutter
import Mathlib.Data.Prod.Lex

/-!
# Channel data, resonance tables, compound systems and grids
-/

namespace Verif

/-- Models `range | ranges::action::sort | ranges::action::unique` (used in
`rmatrix/CompoundSystem/src/makeSpinGroups.hpp:14-18`, `rmatrix/CompoundSystem/src/grid.hpp:19`,
`rmatrix/SpinGroup/src/grid.hpp:40` and elsewhere): sort, then drop elements equal to the one before. -/
def sortUnique {α : Type*} [LinearOrder α] (values : List α) : List α :=
  (values.insertionSort (· ≤ ·)).destutter (· ≠ ·)

/-- Models the class `ParticleChannelData`, `rmatrix/ParticleChannelData.hpp:11-17`. -/
structure ChannelData where
  channel : Channel
  energies : List ℝ
  widths : List ℝ
  eliminated : Bool

/-- Models the `ParticleChannelData` constructor, `rmatrix/ParticleChannelData/src/ctor.hpp:8-16`, and
`verifySize`, `rmatrix/ParticleChannelData/src/verifySize.hpp`. -/
def makeChannelData (channel : Channel) (energies widths : List ℝ) (eliminated : Bool) :
    Outcome ChannelData :=
  if energies.length ≠ widths.length then .error .throws
  else .ok ⟨channel, energies, widths, eliminated⟩

/-- `indexEliminated`: position of the first eliminated channel, or the number of channels,
`rmatrix/SpinGroup/src/makeChannels.hpp:15-20` and
`rmatrix/SpinGroup/src/makeResonanceTable.hpp:13-18`. -/
def indexEliminated (channels : List ChannelData) : ℕ := channels.findIdx ChannelData.eliminated

/-- Models `SpinGroup::makeChannels`, `rmatrix/SpinGroup/src/makeChannels.hpp:1-27`. -/
def makeChannels (channels : List ChannelData) : List Channel :=
  let result := channels.map ChannelData.channel
  if indexEliminated channels ≠ channels.length then result.eraseIdx (indexEliminated channels)
  else result

/-- `std::map< Energy, std::vector< ReducedWidth > >` as the list of its entries in the order of the
keys. -/
abbrev WidthMap := List (ℝ × List ℝ)

/-- The lambda `addWidth`, `rmatrix/SpinGroup/src/makeResonanceTable.hpp:37-40`: find the entry of the
energy, inserting `n` zeros at the place where the key belongs if there is none, then assign one
width. Assumption: value-initialised quantities are zero. -/
noncomputable def addWidth (n index : ℕ) (energy width : ℝ) : WidthMap → WidthMap
  | [] => [(energy, (List.replicate n 0).set index width)]
  | entry :: rest =>
    if energy < entry.1 then (energy, (List.replicate n 0).set index width) :: entry :: rest
    else if entry.1 < energy then entry :: addWidth n index energy width rest
    else (entry.1, entry.2.set index width) :: rest

/-- The lambda `addWidthsToMap`, `rmatrix/SpinGroup/src/makeResonanceTable.hpp:41-55`. -/
noncomputable def addWidthsToMap (n index : ℕ) (data : ChannelData) (map : WidthMap) : WidthMap :=
  (data.energies.zip data.widths).foldl (fun m p => addWidth n index p.1 p.2 m) map

/-- The loop over the channels, `rmatrix/SpinGroup/src/makeResonanceTable.hpp:56-59`. -/
noncomputable def widthMap (channels : List ChannelData) : WidthMap :=
  channels.zipIdx.foldl (fun m p => addWidthsToMap channels.length p.2 p.1 m) []

/-- Models `SpinGroup::makeResonanceTable`, `rmatrix/SpinGroup/src/makeResonanceTable.hpp:1-79`. -/
noncomputable def makeResonanceTable (channels : List ChannelData) : Outcome ResonanceTable :=
  let index := indexEliminated channels
  let number := channels.countP ChannelData.eliminated
  if number > 1 then .error .throws
  else
    let ids := channels.map fun data => data.channel.id
    let ids := if number ≠ 0 then ids.eraseIdx index else ids
    let resonances := (widthMap channels).map fun entry =>
      if number ≠ 0 then (⟨entry.1, entry.2.eraseIdx index, entry.2.getD index 0⟩ : Resonance)
      else ⟨entry.1, entry.2, 0⟩
    makeTable ids resonances

/-- Models the second `SpinGroup` constructor, `rmatrix/SpinGroup/src/ctor.hpp:26-27`. -/
noncomputable def makeSpinGroupFromData (channels : List ChannelData) : Outcome SpinGroup := do
  let table ← makeResonanceTable channels
  makeSpinGroup (makeChannels channels) table

/-- The lambda `getJpi`, `rmatrix/CompoundSystem/src/makeSpinGroups.hpp:8-11`. Pairs are compared
lexicographically. -/
def ChannelData.jpi (data : ChannelData) : ℚ ×ₗ ℤ :=
  toLex (data.channel.numbers.J, data.channel.numbers.parity)

/-- The body of the loop over J and parity of `consolidateChannelData`,
`rmatrix/src/makeParticleChannelData.hpp:43-69`, for the eliminated channels with that J and parity.
`front()` of an empty range is undefined behaviour. -/
def mergeEliminated : List ChannelData → Outcome ChannelData
  | [] => .error .undefined
  | [data] => .ok data
  | data :: rest =>
    makeChannelData data.channel ((data :: rest).flatMap ChannelData.energies)
      ((data :: rest).flatMap ChannelData.widths) true

/-- Models `consolidateChannelData`, `rmatrix/src/makeParticleChannelData.hpp:1-72`. -/
def consolidateChannelData (channels : List ChannelData) : Outcome (List ChannelData) := do
  let consolidated := channels.filter fun data => ¬ data.eliminated
  let remaining := channels.filter fun data => data.eliminated
  let merged ← (sortUnique (remaining.map ChannelData.jpi)).mapM fun jpi =>
    mergeEliminated (remaining.filter fun data => data.jpi == jpi)
  pure (consolidated ++ merged)

/-- Models `CompoundSystem::makeSpinGroups`, `rmatrix/CompoundSystem/src/makeSpinGroups.hpp:1-36`. -/
noncomputable def makeSpinGroups (channels : List ChannelData) : Outcome (List SpinGroup) :=
  (sortUnique (channels.map ChannelData.jpi)).mapM fun jpi =>
    makeSpinGroupFromData (channels.filter fun data => data.jpi == jpi)

/-- Models `CompoundSystem::verifySpinGroups`,
`rmatrix/CompoundSystem/src/verifySpinGroups.hpp:2-51`. The quantum numbers of a group are those of
`channels().front()`. -/
def verifySpinGroups (groups : List SpinGroup) : Outcome Unit :=
  if groups.length = 0 then .error .throws
  else if ∃ g ∈ groups, g.channels = [] then .error .undefined
  else if ∃ g ∈ groups, ∃ c ∈ g.channels.head?, 1 < groups.countP (fun h => h.channels.head?.any
      fun d => d.numbers.J == c.numbers.J && d.numbers.parity == c.numbers.parity) then
    .error .throws
  else .ok ()

/-- A spin group with the matrices it keeps between calls. -/
structure GroupState where
  group : SpinGroup
  cache : MatrixCache group.channels.length

/-- Models the class `CompoundSystem`, `rmatrix/CompoundSystem.hpp:5-26`, with the state of its
groups. -/
abbrev CompoundSystem := List GroupState

/-- Models the first `CompoundSystem` constructor, `rmatrix/CompoundSystem/src/ctor.hpp:6-10`. -/
def makeCompoundSystem (groups : CompoundSystem) : Outcome CompoundSystem :=
  match verifySpinGroups (groups.map GroupState.group) with
  | .error e => .error e
  | .ok _ => .ok groups

/-- Models the second `CompoundSystem` constructor, `rmatrix/CompoundSystem/src/ctor.hpp:18-19`. The
initial contents of the matrices are arbitrary. -/
noncomputable def makeCompoundSystemFromData (initial : (g : SpinGroup) → MatrixCache g.channels.length)
    (channels : List ChannelData) : Outcome CompoundSystem := do
  let groups ← makeSpinGroups channels
  makeCompoundSystem (groups.map fun g => ⟨g, initial g⟩)

namespace CompoundSystem

/-- Models `CompoundSystem::evaluate`, `rmatrix/CompoundSystem/src/evaluate.hpp:7-13`. The new states
of the groups are returned with the map. -/
noncomputable def evaluate (option : BoundaryOption) (K : Constants) (lib : CoulombLibrary)
    (energy : ℝ) : CompoundSystem → CrossSectionMap → Outcome (CrossSectionMap × CompoundSystem)
  | [], result => .ok (result, [])
  | s :: rest, result => do
    let (result, cache) ← s.group.evaluate option K lib energy s.cache result
    let (result, rest) ← evaluate option K lib energy rest result
    pure (result, ⟨s.group, cache⟩ :: rest)

/-- Models `CompoundSystem::evaluateTMatrix`,
`rmatrix/CompoundSystem/src/evaluateTMatrix.hpp:7-14`. -/
noncomputable def evaluateTMatrix (option : BoundaryOption) (K : Constants) (lib : CoulombLibrary)
    (energy : ℝ) : CompoundSystem → (Str → Option ℂ) → Outcome ((Str → Option ℂ) × CompoundSystem)
  | [], result => .ok (result, [])
  | s :: rest, result => do
    let (result, cache) ← s.group.evaluateTMatrix option K lib energy s.cache result
    let (result, rest) ← evaluateTMatrix option K lib energy rest result
    pure (result, ⟨s.group, cache⟩ :: rest)

end CompoundSystem

/-- The lambda `totalWidth`, `rmatrix/SpinGroup/src/grid.hpp:15-27`: the eliminated width plus those
of the channels, `2 P γ²` with the penetrabilities at the resonance energy. -/
noncomputable def totalWidth (K : Constants) (lib : CoulombLibrary) (channels : List Channel)
    (r : Resonance) : Outcome ℝ := do
  let P ← collect fun i : Fin channels.length => channels[i].penetrability K lib r.energy
  let widths := List.zipWith (fun gamma p => 2 * p * gamma * gamma) r.widths (List.ofFn P)
  pure (widths.foldl (· + ·) (2 * r.eliminated * r.eliminated))

/-- The loop over the resonances, `rmatrix/SpinGroup/src/grid.hpp:29-39`. -/
noncomputable def gridPoints (K : Constants) (lib : CoulombLibrary) (channels : List Channel) :
    List Resonance → Outcome (List ℝ)
  | [] => .ok []
  | r :: rest => do
    if r.energy > 0 then
      let total ← totalWidth K lib channels r
      let points ← gridPoints K lib channels rest
      pure ([r.energy - 0.5 * total, r.energy, r.energy + 0.5 * total] ++ points)
    else gridPoints K lib channels rest

/-- Models `SpinGroup::grid`, `rmatrix/SpinGroup/src/grid.hpp:9-43`. -/
noncomputable def SpinGroup.grid (K : Constants) (lib : CoulombLibrary) (g : SpinGroup) :
    Outcome (List ℝ) := do
  let points ← gridPoints K lib g.channels g.table.resonances
  pure (sortUnique points)

/-- Models `CompoundSystem::grid`, `rmatrix/CompoundSystem/src/grid.hpp:10-22`. -/
noncomputable def CompoundSystem.grid (K : Constants) (lib : CoulombLibrary) (s : CompoundSystem) :
    Outcome (List ℝ) := do
  let grids ← s.mapM fun state => state.group.grid K lib
  pure (sortUnique grids.flatten)

end Verif
