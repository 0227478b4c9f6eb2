import Verif.Model.Unresolved

/-!
# Reconstructors
-/

namespace Verif

/-- Models `CompoundSystemVariant`, `rmatrix.hpp:92-99`. -/
inductive SystemVariant
  | singleLevel (s : LegacySystem BreitWigner.SpinGroup)
  | multiLevel (s : LegacySystem BreitWigner.SpinGroup)
  | shiftFactor (s : CompoundSystem)
  | constant (s : CompoundSystem)
  | unresolved (s : LegacySystem Unresolved.SpinGroup)

namespace SystemVariant

/-- `std::variant::index()`: the position of the alternative in the list, `rmatrix.hpp:93-99`. -/
def index : SystemVariant → ℕ
  | singleLevel _ => 0
  | multiLevel _ => 1
  | shiftFactor _ => 2
  | constant _ => 3
  | unresolved _ => 4

/-- `std::variant_size_v< CompoundSystemVariant >`, `rmatrix.hpp:93-99`. -/
def size : ℕ := 5

end SystemVariant

/-- `std::map< ReactionID, CrossSection >`: the identifiers are those made by the R-matrix classes or
those made by the legacy classes. Simplification: the two sorts are kept apart, although a legacy
identifier may be equal to one of the other sort. A compound system only uses one sort. -/
abbrev ReactionMap := ReactionID ⊕ LegacyID → Option ℝ

/-- The identifiers of the R-matrix classes. -/
def ReactionMap.ofCrossSections (m : CrossSectionMap) : ReactionMap := Sum.elim m fun _ => none

/-- The identifiers of the legacy classes. -/
def ReactionMap.ofLegacy (m : LegacyMap) : ReactionMap := Sum.elim (fun _ => none) m

namespace SystemVariant

variable (K : Constants) (lib : CoulombLibrary)

/-- `std::visit( [&] ( auto& system ) { system.evaluate( energy, result ); }, system_ )` with an empty
map, `rmatrix/Reconstructor.hpp:74,78-80`. The new state of the system is returned with the map. -/
noncomputable def evaluate (energy : ℝ) : SystemVariant → Outcome (ReactionMap × SystemVariant)
  | singleLevel s => do
    let (m, s) ← s.evaluate K lib BreitWigner.SpinGroup.channel
      (fun g m => g.evaluateSLBW K lib energy m) energy fun _ => none
    pure (.ofLegacy m, singleLevel s)
  | multiLevel s => do
    let (m, s) ← s.evaluate K lib BreitWigner.SpinGroup.channel
      (fun g m => g.evaluateMLBW K lib energy m) energy fun _ => none
    pure (.ofLegacy m, multiLevel s)
  | shiftFactor s => do
    let (m, s) ← CompoundSystem.evaluate .shiftFactor K lib energy s fun _ => none
    pure (.ofCrossSections m, shiftFactor s)
  | constant s => do
    let (m, s) ← CompoundSystem.evaluate .constant K lib energy s fun _ => none
    pure (.ofCrossSections m, constant s)
  | unresolved s => do
    let (m, s) ← s.evaluate K lib Unresolved.SpinGroup.channel
      (fun g m => g.evaluate K lib energy m) energy fun _ => none
    pure (.ofLegacy m, unresolved s)

/-- `std::visit( [&] ( auto& system ) { return system.grid(); }, system_ )`,
`rmatrix/Reconstructor.hpp:64-65`. The grid of unresolved resonances is made by a loop that runs for at
most `fuel` steps here; `none` if it has not ended by then. -/
noncomputable def grid (fuel : ℕ) : SystemVariant → Outcome (Option (List ℝ))
  | singleLevel s => .ok (some (BreitWigner.grid s))
  | multiLevel s => .ok (some (BreitWigner.grid s))
  | shiftFactor s => do
    let energies ← s.grid K lib
    pure (some energies)
  | constant s => do
    let energies ← s.grid K lib
    pure (some energies)
  | unresolved s => Unresolved.grid fuel s

end SystemVariant

/-- Models the class `Reconstructor`, `rmatrix/Reconstructor.hpp:5-18`, with the state of its compound
system. -/
structure Reconstructor where
  lower : ℝ
  upper : ℝ
  system : SystemVariant

namespace Reconstructor

variable (K : Constants) (lib : CoulombLibrary)

/-- Models `Reconstructor::isResolved`, `rmatrix/Reconstructor.hpp:28-32`. -/
def isResolved (r : Reconstructor) : Bool := r.system.index != SystemVariant.size - 1

/-- Models `Reconstructor::isUnresolved`, `rmatrix/Reconstructor.hpp:37-40`. -/
def isUnresolved (r : Reconstructor) : Bool := !r.isResolved

/-- Models `Reconstructor::grid`, `rmatrix/Reconstructor.hpp:56-67`. -/
noncomputable def grid (fuel : ℕ) (r : Reconstructor) : Outcome (Option (List ℝ)) := do
  let energies ← r.system.grid K lib fuel
  pure (energies.map fun list => list.filter fun energy => r.lower ≤ energy ∧ energy ≤ r.upper)

/-- Models `Reconstructor::operator()`, `rmatrix/Reconstructor.hpp:72-83`. -/
noncomputable def call (r : Reconstructor) (energy : ℝ) : Outcome (ReactionMap × Reconstructor) :=
  if energy ≥ r.lower ∧ energy ≤ r.upper then do
    let (m, system) ← r.system.evaluate K lib energy
    pure (m, { r with system := system })
  else .ok (fun _ => none, r)

end Reconstructor

end Verif
