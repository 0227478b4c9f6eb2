import Verif.Model.Basic
import Mathlib.Analysis.SpecialFunctions.Trigonometric.Arctan
import Mathlib.Analysis.SpecialFunctions.Trigonometric.Inverse

/-!
# Penetrability, shift factor and phase shift

`double` is idealised as `ℝ`.
-/

namespace Verif

/-- The channel types, `rmatrix.hpp:14-17`. -/
inductive ChannelType
  | neutron
  | photon
  | charged
  | fission
  deriving DecidableEq, Repr

/-- The values that `coulombWaveFunctions( l, ratio, eta, gf, dgf )` writes
(`rmatrix/src/coh3-coulomb.hpp:18-38`). -/
structure WaveFunctions where
  G : ℝ
  F : ℝ
  dG : ℝ
  dF : ℝ

/-- Any implementation of `coulombWaveFunctions`: the functions that use it are modelled for an arbitrary
one. The algorithm of the code is `coulombWaveFunctions` in `Verif.Model.Coulomb`. -/
abbrev CoulombLibrary := ℕ → ℝ → ℝ → Outcome WaveFunctions

/-- Models `horner`, `rmatrix/src/horner.hpp:24-35`; the list starts with the coefficient of the
highest power (the callers pass reverse iterators). -/
def horner (coefficients : List ℝ) (x : ℝ) : ℝ :=
  match coefficients with
  | [] => 0
  | c :: cs => cs.foldl (fun y c => y * x + c) c

/-- Models `calculatePenetrability`, `rmatrix/src/calculatePenetrability.hpp:7-79`. -/
noncomputable def calculatePenetrability (lib : CoulombLibrary) :
    ChannelType → ℕ → ℝ → ℝ → Outcome ℝ
  | .neutron, l, ratio, _ =>
    let squared := ratio * ratio
    match l with
    | 0 => .ok ratio
    | 1 => .ok (ratio * squared / (1 + squared))
    | 2 => .ok (ratio * squared * squared / horner [9, 3, 1].reverse squared)
    | 3 => .ok (ratio * squared * squared * squared / horner [225, 45, 6, 1].reverse squared)
    | 4 => .ok (ratio * squared * squared * squared * squared
              / horner [11025, 1575, 135, 10, 1].reverse squared)
    | _ => .error .throws
  | .charged, l, ratio, eta => do
    let w ← lib l ratio eta
    pure (if w.F = 0 ∧ w.G = 0 then 0 else ratio / (w.F * w.F + w.G * w.G))
  | .photon, _, _, _ => .ok 1
  | .fission, _, _, _ => .ok 1

/-- Models `calculateShiftFactor`, `rmatrix/src/calculateShiftFactor.hpp:6-78`. -/
noncomputable def calculateShiftFactor (lib : CoulombLibrary) :
    ChannelType → ℕ → ℝ → ℝ → Outcome ℝ
  | .neutron, l, ratio, _ =>
    let squared := ratio * ratio
    match l with
    | 0 => .ok 0
    | 1 => .ok (-1 / (1 + squared))
    | 2 => .ok (-horner [18, 3].reverse squared / horner [9, 3, 1].reverse squared)
    | 3 => .ok (-horner [675, 90, 6].reverse squared / horner [225, 45, 6, 1].reverse squared)
    | 4 => .ok (-horner [44100, 4725, 270, 10].reverse squared
              / horner [11025, 1575, 135, 10, 1].reverse squared)
    | _ => .error .throws
  | .charged, l, ratio, eta => do
    let w ← lib l ratio eta
    pure (if w.F = 0 ∧ w.G = 0 then 0
         else ratio / (w.F * w.F + w.G * w.G) * (w.F * w.dF + w.G * w.dG))
  | .photon, _, _, _ => .ok 0
  | .fission, _, _, _ => .ok 0

/-- `std::atan( x / y )` for doubles: a zero denominator (a `+0.`, being a difference of equal
numbers) gives an infinity of the sign of `x` and hence plus or minus a quarter turn. -/
noncomputable def atanQuotient (x y : ℝ) : ℝ :=
  if y = 0 then (if 0 < x then Real.pi / 2 else -(Real.pi / 2)) else Real.arctan (x / y)

/-- Models `calculatePhaseShift`, `rmatrix/src/calculatePhaseShift.hpp:7-75`. -/
noncomputable def calculatePhaseShift (lib : CoulombLibrary) :
    ChannelType → ℕ → ℝ → ℝ → Outcome ℝ
  | .neutron, l, ratio, _ =>
    let squared := ratio * ratio
    match l with
    | 0 => .ok ratio
    | 1 => .ok (ratio - Real.arctan ratio)
    | 2 => .ok (ratio - atanQuotient (3 * ratio) (3 - squared))
    | 3 => .ok (ratio - atanQuotient (ratio * (15 - squared)) (15 - 6 * squared))
    | 4 => .ok (ratio - atanQuotient (ratio * (105 - 10 * squared))
              (horner [105, -45, 1].reverse squared))
    | _ => .error .throws
  | .charged, l, ratio, eta => do
    let w ← lib l ratio eta
    pure (if w.F = 0 ∧ w.G = 0 then 0
         else Real.arccos (w.G / Real.sqrt (w.F * w.F + w.G * w.G)))
  | .photon, _, _, _ => .ok 0
  | .fission, _, _, _ => .ok 0

/-- Models `calculateCoulombPhaseShift`, `rmatrix/src/calculateCoulombPhaseShift.hpp:7-36`:
the sum over `n = 1..l` of `1. / std::tan( eta / n )`.
A vanishing tangent makes the floating-point value infinite. -/
noncomputable def calculateCoulombPhaseShift : ChannelType → ℕ → ℝ → Outcome ℝ
  | .charged, l, eta =>
    if ∃ n ∈ List.range l, Real.tan (eta / (n + 1 : ℕ)) = 0 then .error .notFinite
    else .ok ((List.range l).map fun n => 1 / Real.tan (eta / (n + 1 : ℕ))).sum
  | .neutron, _, _ => .ok 0
  | .photon, _, _ => .ok 0
  | .fission, _, _ => .ok 0

/-- Models `PenetrationShift::operator()` and `penetrationShift( L, channelRatio )` of the older
code, `src/penetrationShift.hpp:6-52`. The factor `(channelRatio > 0)` is 0 or 1. -/
noncomputable def oldPenetrationShift (L : ℤ) (rho : ℝ) : Outcome (ℝ × ℝ) :=
  let rho2 := rho * rho
  let rho4 := rho2 * rho2
  let rab : Option (ℝ × ℝ × ℝ) :=
    if L = 0 then some (1, 1, 0)
    else if L = 1 then some (1 + rho2, rho2, 1)
    else if L = 2 then some (9 + rho2 * (3 + rho2), rho4, 18 + rho2 * 3)
    else if L = 3 then
      some (225 + rho2 * (45 + rho2 * (6 + rho2)), rho4 * rho2, 675 + rho2 * (90 + rho2 * 6))
    else if L = 4 then
      some (11025 + rho2 * (1575 + rho2 * (135 + rho2 * (10 + rho2))), rho4 * rho4,
        44100 + rho2 * (4725 + rho2 * (270 + rho2 * 10)))
    else none
  match rab with
  | none => .error .throws
  | some (r, a, b) => .ok ((if rho > 0 then 1 else 0) * rho * a / r, -b / r)

/-- `std::atan( channelRatio * offset )` with `offset = x / y`, see `atanQuotient`. For
`channelRatio = 0` and a zero denominator the value would be NaN; the denominators concerned are
not zero there. -/
noncomputable def atanProductQuotient (rho x y : ℝ) : ℝ :=
  if y = 0 then (if 0 < rho * x then Real.pi / 2 else -(Real.pi / 2)) else Real.arctan (rho * (x / y))

/-- Models `phaseShift( L, channelRatio )` of the older code, `src/phaseShift.hpp:1-16`. -/
noncomputable def oldPhaseShift (L : ℤ) (rho : ℝ) : Outcome ℝ :=
  let rho2 := rho * rho
  if L = 0 then .ok rho
  else if L = 1 then .ok (rho - atanProductQuotient rho 1 1)
  else if L = 2 then .ok (rho - atanProductQuotient rho 3 (3 - rho2))
  else if L = 3 then .ok (rho - atanProductQuotient rho (15 - rho2) (15 - 6 * rho2))
  else if L = 4 then
    .ok (rho - atanProductQuotient rho (105 - 10 * rho2) (105 + rho2 * (rho2 - 45)))
  else .error .throws

end Verif
