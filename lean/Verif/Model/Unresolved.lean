import Verif.Model.Legacy
import Mathlib.Analysis.SpecialFunctions.Log.Base

/-!
# Legacy unresolved resonances

Everything in namespace `rmatrix::legacy::unresolved` of the code.
-/

namespace Verif

namespace Unresolved

/-- Models the class `unresolved::Resonance`, `rmatrix/legacy/unresolved/Resonance.hpp:10-55`, and its
constructor, `rmatrix/legacy/unresolved/Resonance/src/ctor.hpp:8-19`. -/
structure Resonance where
  energy : ℝ
  spacing : ℝ
  elastic : ℝ
  capture : ℝ
  fission : ℝ
  competition : ℝ

/-- `LinLinTable` (an external library): given abscissae and ordinates, construction throws or gives a
table, and a table is some function of energy that may throw. Nothing else is assumed. -/
abbrev Interpolation := List ℝ → List ℝ → Outcome (ℝ → Outcome ℝ)

/-- Models the class `unresolved::ResonanceTable`,
`rmatrix/legacy/unresolved/ResonanceTable.hpp:16-52`. -/
structure Table where
  resonances : List Resonance
  degrees : Data ℕ
  spacing : ℝ → Outcome ℝ
  elastic : ℝ → Outcome ℝ
  capture : ℝ → Outcome ℝ
  fission : ℝ → Outcome ℝ
  competition : ℝ → Outcome ℝ

/-- Models `ResonanceTable::verifyTable`,
`rmatrix/legacy/unresolved/ResonanceTable/src/verifyTable.hpp:1-27`. -/
def verifyTable (resonances : List Resonance) (degrees : Data ℕ) : Outcome Unit :=
  if resonances.length < 2 then .error .throws
  else if degrees.elastic > 4 then .error .throws
  else if degrees.capture > 4 then .error .throws
  else if degrees.fission > 4 then .error .throws
  else if degrees.competition > 4 then .error .throws
  else .ok ()

/-- Models the `ResonanceTable` constructors,
`rmatrix/legacy/unresolved/ResonanceTable/src/ctor.hpp:6-34`, and `makeTables`,
`rmatrix/legacy/unresolved/ResonanceTable/src/make.hpp:1-69`. The interpolation tables are made before
the table is verified. -/
def makeTable (interpolation : Interpolation) (resonances : List Resonance) (degrees : Data ℕ) :
    Outcome Table := do
  let energies := resonances.map Resonance.energy
  let spacing ← interpolation energies (resonances.map Resonance.spacing)
  let elastic ← interpolation energies (resonances.map Resonance.elastic)
  let capture ← interpolation energies (resonances.map Resonance.capture)
  let fission ← interpolation energies (resonances.map Resonance.fission)
  let competition ← interpolation energies (resonances.map Resonance.competition)
  verifyTable resonances degrees
  pure ⟨resonances, degrees, spacing, elastic, capture, fission, competition⟩

/-- Models `ResonanceTable::operator()`,
`rmatrix/legacy/unresolved/ResonanceTable/src/call.hpp:6-14`. -/
def Table.call (t : Table) (energy : ℝ) : Outcome Resonance := do
  let spacing ← t.spacing energy
  let elastic ← t.elastic energy
  let capture ← t.capture energy
  let fission ← t.fission energy
  let competition ← t.competition energy
  pure ⟨energy, spacing, elastic, capture, fission, competition⟩

/-! ## Fluctuation integrals -/

/-- The array `w`,
`rmatrix/legacy/unresolved/src/calculateFluctuationIntegrals.hpp:16-28`: one row per quadrature point,
one column per number of degrees of freedom. -/
def weightTable : List (List ℚ) :=
  [[1.1120413e-1, 3.3773418e-2, 3.3376214e-4, 1.7623788e-3],
   [2.3546798e-1, 7.9932171e-2, 1.8506108e-2, 2.1517749e-2],
   [2.8440987e-1, 1.2835937e-1, 1.2309946e-1, 8.0979849e-2],
   [2.2419127e-1, 1.7652616e-1, 2.9918923e-1, 1.8797998e-1],
   [1.0967668e-1, 2.1347043e-1, 3.3431475e-1, 3.0156335e-1],
   [3.0493789e-2, 2.1154965e-1, 1.7766657e-1, 2.9616091e-1],
   [4.2930874e-3, 1.3365186e-1, 4.2695894e-2, 1.0775649e-1],
   [2.5827047e-4, 2.2630659e-2, 4.0760575e-3, 2.5171914e-3],
   [4.9031965e-6, 1.6313638e-5, 1.1766115e-4, 8.9630388e-10],
   [1.4079206e-8, 2.7453830e-31, 5.0989546e-7, 0]]

/-- The array `q`, `rmatrix/legacy/unresolved/src/calculateFluctuationIntegrals.hpp:30-42`. -/
def pointTable : List (List ℚ) :=
  [[3.0013465e-3, 1.3219203e-2, 1.0004488e-3, 1.3219203e-2],
   [7.8592886e-2, 7.2349624e-2, 2.6197629e-2, 7.2349624e-2],
   [4.3282415e-1, 1.9089473e-1, 1.4427472e-1, 1.9089473e-1],
   [1.3345267e0, 3.9528842e-1, 4.4484223e-1, 3.9528842e-1],
   [3.0481846e0, 7.4083443e-1, 1.0160615e0, 7.4083443e-1],
   [5.8263198e0, 1.3498293e0, 1.9421066e0, 1.3498293e0],
   [9.9452656e0, 2.5297983e0, 3.3150885e0, 2.5297983e0],
   [1.5782128e1, 5.2384894e0, 5.2607092e0, 5.2384894e0],
   [2.3996824e1, 1.3821772e1, 7.9989414e0, 1.3821772e1],
   [3.6216208e1, 7.5647525e1, 1.2072069e1, 7.5647525e1]]

/-- `w[i][mu]`, for indices inside the array. -/
def w (i mu : ℕ) : ℚ := (weightTable.getD i []).getD mu 0

/-- `q[i][mu]`, for indices inside the array. -/
def q (i mu : ℕ) : ℚ := (pointTable.getD i []).getD mu 0

/-- `n - 1` for an `unsigned int` of 32 bits. -/
def unsignedPred (n : ℕ) : ℕ := (n + (2 ^ 32 - 1)) % 2 ^ 32

/-- The loops `result += ...`: each term is a denominator and the four numerators that are divided by
it. A vanishing denominator gives an infinity or NaN. -/
noncomputable def accumulate (terms : List (ℝ × Data ℝ)) : Outcome (Data ℝ) :=
  if ∃ t ∈ terms, t.1 = 0 then .error .notFinite
  else .ok (terms.foldl (fun result t => result.add
    ⟨t.2.elastic / t.1, t.2.capture / t.1, t.2.fission / t.1, t.2.competition / t.1⟩) ⟨0, 0, 0, 0⟩)

/-- Models `calculateFluctuationIntegrals`,
`rmatrix/legacy/unresolved/src/calculateFluctuationIntegrals.hpp:13-128`. A column index beyond the
last one is a read past the end of the array. -/
noncomputable def calculateFluctuationIntegrals (widths : Data ℝ) (degrees : Data ℕ) :
    Outcome (Data ℝ) :=
  let mu := unsignedPred degrees.elastic
  let nu := if degrees.fission ≠ 0 then unsignedPred degrees.fission else 0
  let lambda := if degrees.competition ≠ 0 then unsignedPred degrees.competition else 0
  if ¬ (widths.fission ≠ 0) ∧ ¬ (widths.competition ≠ 0) then
    if 4 ≤ mu then .error .undefined
    else accumulate ((List.range 10).map fun i =>
      let factor : ℝ := w i mu
      (q i mu * widths.elastic + widths.capture,
        ⟨q i mu * q i mu * factor, q i mu * factor, 0, 0⟩))
  else if widths.fission ≠ 0 ∧ ¬ (widths.competition ≠ 0) then
    if 4 ≤ mu ∨ 4 ≤ nu then .error .undefined
    else accumulate ((List.range 10).flatMap fun i => (List.range 10).map fun j =>
      let factor : ℝ := w i mu * w j nu
      (q i mu * widths.elastic + widths.capture + q j nu * widths.fission,
        ⟨q i mu * q i mu * factor, q i mu * factor, q i mu * q j nu * factor, 0⟩))
  else if ¬ (widths.fission ≠ 0) ∧ widths.competition ≠ 0 then
    if 4 ≤ mu ∨ 4 ≤ lambda then .error .undefined
    else accumulate ((List.range 10).flatMap fun i => (List.range 10).map fun k =>
      let factor : ℝ := w i mu * w k lambda
      (q i mu * widths.elastic + widths.capture + q k lambda * widths.competition,
        ⟨q i mu * q i mu * factor, q i mu * factor, 0, q i mu * q k lambda * factor⟩))
  else
    if 4 ≤ mu ∨ 4 ≤ nu ∨ 4 ≤ lambda then .error .undefined
    else accumulate ((List.range 10).flatMap fun i => (List.range 10).flatMap fun j =>
      (List.range 10).map fun k =>
        let factor : ℝ := w i mu * w j nu * w k lambda
        (q i mu * widths.elastic + widths.capture + q j nu * widths.fission
            + q k lambda * widths.competition,
          ⟨q i mu * q i mu * factor, q i mu * factor, q i mu * q j nu * factor,
            q i mu * q k lambda * factor⟩))

/-! ## Spin groups -/

/-- Models `unresolved::SpinGroup`, `rmatrix/legacy/unresolved/SpinGroup.hpp:8-24`, and
`SpinGroupBase`, `rmatrix/legacy/SpinGroupBase.hpp:5-72`. The channel is a `Channel< Neutron >`. -/
structure SpinGroup where
  channel : Channel
  table : Table

/-- Models `unresolved::SpinGroup::evaluate`,
`rmatrix/legacy/unresolved/SpinGroup/src/evaluate.hpp:7-54`. The group is returned unchanged, so that
the function can be used in a `LegacySystem`. Division by zero and the square root of a negative energy
give infinities or NaN. -/
noncomputable def SpinGroup.evaluate (K : Constants) (lib : CoulombLibrary) (energy : ℝ)
    (g : SpinGroup) (result : LegacyMap) : Outcome (LegacyMap × SpinGroup) := do
  let channel := g.channel
  let waveNumber := channel.waveNumber K energy
  let penetrability ← channel.penetrability K lib energy
  let phaseShift ← channel.phaseShift K lib energy
  let radius ← channel.radii.penetrability energy
  let spinFactor := channel.spinFactor
  let ratio := waveNumber * radius
  let sinphi := Real.sin phaseShift
  let sin2phi := sinphi * sinphi
  let parameters ← g.table.call energy
  let spacing := parameters.spacing
  let degrees := g.table.degrees
  if waveNumber = 0 ∨ ratio = 0 ∨ energy < 0 ∨ spacing = 0 then .error .notFinite
  else
    let factor := 2 * Real.pi * Real.pi / (waveNumber * waveNumber)
    let vl := degrees.elastic * penetrability / ratio
    let widths : Data ℝ := ⟨parameters.elastic * Real.sqrt energy * vl, parameters.capture,
      parameters.fission, parameters.competition⟩
    let integrals ← calculateFluctuationIntegrals widths degrees
    let result := result.add (legacyID channel .elastic) (factor * (spinFactor / spacing *
      (widths.elastic * (widths.elastic * integrals.elastic - 2 * sin2phi))))
    let result := result.add (legacyID channel .capture) (factor * spinFactor / spacing *
      (widths.elastic * widths.capture * integrals.capture))
    let result := if widths.fission ≠ 0 then
      result.add (legacyID channel .fission) (factor * spinFactor / spacing *
        (widths.elastic * widths.fission * integrals.fission)) else result
    pure (result, g)

/-! ## The energy grid -/

/-- The array `points`, `rmatrix/legacy/unresolved/CompoundSystem/src/grid.hpp:33-34`. -/
def gridPoints : List ℚ := [1.0, 1.25, 1.5, 1.7, 2.0, 2.5, 3.0, 3.5, 4.0, 5.0, 6.0, 7.2, 8.5]

/-- The local variables of the loop, `rmatrix/legacy/unresolved/CompoundSystem/src/grid.hpp:36-37`: the
grid and the positions that the two iterators point to. -/
structure GridState where
  grid : List ℝ
  previous : ℕ
  iter : ℕ

/-- The exponent, `rmatrix/legacy/unresolved/CompoundSystem/src/grid.hpp:42-46`. -/
noncomputable def gridExponent (previous : ℝ) : ℤ :=
  let exponent := ⌊Real.logb 10 |previous|⌋
  if 8.5 * (10 : ℝ) ^ exponent ≤ previous then exponent + 1 else exponent

/-- The range `values`, `rmatrix/legacy/unresolved/CompoundSystem/src/grid.hpp:48-52`. -/
noncomputable def gridValues (previous : ℝ) : List ℝ :=
  gridPoints.map fun point : ℚ => (point : ℝ) * (10 : ℝ) ^ gridExponent previous

/-- The points from `std::upper_bound( values, *previous )` to `std::lower_bound( values, *iter )`,
`rmatrix/legacy/unresolved/CompoundSystem/src/grid.hpp:54-55`: drop those not greater than `previous`,
keep those less than `next`. The range is ascending, so that binary search finds the first position. -/
noncomputable def inserted (previous next : ℝ) : List ℝ :=
  ((gridValues previous).dropWhile (· ≤ previous)).takeWhile (· < next)

/-- The body of the loop and its increment,
`rmatrix/legacy/unresolved/CompoundSystem/src/grid.hpp:38-61`. `none` when the loop ends. Division by
zero gives an infinity if the other energy is positive (`0/0` and a negative infinity compare as not
greater), and the conversion of `floor( log10( 0 ) )` to `int` is undefined behaviour. If the range of
points is empty then `iter` goes back one position, to `previous`. Reading outside the grid is undefined
behaviour. -/
noncomputable def gridStep (s : GridState) : Outcome (Option GridState) :=
  if s.iter = s.grid.length then .ok none
  else
    match s.grid[s.previous]?, s.grid[s.iter]? with
    | some previous, some current =>
      if previous = 0 ∧ current > 0 then .error .undefined
      else if previous ≠ 0 ∧ current / previous > 1.25 then
        let values := inserted previous current
        let iter := s.iter + values.length - 1
        .ok (some ⟨s.grid.take s.iter ++ values ++ s.grid.drop s.iter, iter, iter + 1⟩)
      else .ok (some ⟨s.grid, s.iter, s.iter + 1⟩)
    | _, _ => .error .undefined

/-- At most `fuel` steps of the loop. `none` if it has not ended by then. -/
noncomputable def gridRun : ℕ → GridState → Outcome (Option (List ℝ))
  | 0, _ => .ok none
  | fuel + 1, s => do
    match ← gridStep s with
    | none => pure (some s.grid)
    | some s => gridRun fuel s

/-- Models `unresolved::CompoundSystem::grid`,
`rmatrix/legacy/unresolved/CompoundSystem/src/grid.hpp:16-65`, run for at most `fuel` steps of its
loop. -/
noncomputable def grid (fuel : ℕ) (s : LegacySystem SpinGroup) : Outcome (Option (List ℝ)) :=
  let grid := sortUnique (s.groups.flatMap fun g => g.table.resonances.map Resonance.energy)
  if grid.length > 1 then gridRun fuel ⟨grid, 0, 1⟩ else .ok (some grid)

end Unresolved

end Verif
