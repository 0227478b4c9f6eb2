import Verif.Spec.ReichMooreRange
import Verif.Spec.RMatrixRange
import Mathlib.Analysis.SpecialFunctions.Pow.Real

/-!
# Specification of evaluations given in two formats

An evaluation in the Reich-Moore format (LRF = 3) for a target without spin, with one fission channel, and how
it is written in the R-matrix-limited format (LRF = 7).
-/

namespace Verif.Spec

open Endf

/-- The total angular momenta that an orbital angular momentum and the spin of a neutron couple to. -/
def spinsOf (l : ℕ) : List ℚ := if l = 0 then [1 / 2] else [l - 1 / 2, l + 1 / 2]

/-- The l and J of the partial waves with l below a number. -/
def partialWaves (n : ℕ) : List (ℕ × ℚ) := (List.range n).flatMap fun l => (spinsOf l).map fun J => (l, J)

/-- What is not in the Reich-Moore format: the charge of the target, and the Q values of capture and
fission. -/
structure Supplement where
  charge : ℝ
  qCapture : ℝ
  qFission : ℝ

/-- The particle pairs for capture, elastic scattering and fission, for a target of mass ratio `A` without
spin. The shift factor is the boundary condition. -/
noncomputable def rmlPairs (A : ℝ) (x : Supplement) : List ParticlePairRow :=
  [⟨0, A + 1, 0, x.charge, 1, 1 / 2, 0, 0, x.qCapture, 0, 102⟩,
    ⟨1, A, 0, x.charge, 1 / 2, 0, 0, 1, 0, 0, 2⟩,
    ⟨1, A, 0, x.charge, 1 / 2, 0, 0, 1, x.qFission, 0, 18⟩]

/-- The scattering radius for an orbital angular momentum: its own if the evaluation gives one. -/
noncomputable def scatteringLength (p : ReichMoore) (l : ℕ) : ℝ :=
  ((p.lValues.filter fun lv => lv.l = l).map (lengthOf p)).headD p.ap

/-- The channel radius: NAPS tells if it is calculated from the mass of the target, or the same as the
scattering radius. -/
noncomputable def channelLength (mass : ℝ) (naps : ℤ) (p : ReichMoore) (l : ℕ) : ℝ :=
  if naps = 0 then 0.123 * mass ^ (1 / 3 : ℝ) + 0.08 else scatteringLength p l

/-- The resonances of an l and J. -/
noncomputable def resonancesOf (p : ReichMoore) (l : ℕ) (J : ℚ) : List ReichMooreResonance :=
  ((p.lValues.filter fun lv => lv.l = l).flatMap ReichMooreLValue.resonances).filter fun r => r.spin = J

/-- The spin group for an l and J, with channels for capture, elastic scattering and fission. -/
noncomputable def rmlGroup (mass : ℝ) (naps : ℤ) (p : ReichMoore) (k : ℕ × ℚ) : SpinGroupRecord where
  spin := (-1) ^ k.1 * k.2
  parity := 0
  channels := [⟨1, 0, 0, 0, 0, 0⟩,
    ⟨2, k.1, 1 / 2, 0, channelLength mass naps p k.1, scatteringLength p k.1⟩, ⟨3, 0, 0, 0, 0, 0⟩]
  numberResonances := (resonancesOf p k.1 k.2).length
  resonances := (resonancesOf p k.1 k.2).map fun r =>
    (r.energy, [r.gammaWidth, r.neutronWidth, r.firstFissionWidth])

/-- The evaluation in the R-matrix-limited format: there is a spin group for each l and J, whether it has
resonances or not. -/
noncomputable def asRMatrixLimited (neutronMass A : ℝ) (naps : ℤ) (x : Supplement) (p : ReichMoore) :
    RMatrixLimited where
  formalism := 3
  reducedWidths := 0
  pairs := rmlPairs A x
  spinGroups := (partialWaves p.nlsc).map (rmlGroup (A * neutronMass) naps p)

/-- An evaluation for a target without spin with one fission channel. The radius given for an l value is
only different from AP if there are resonances for all its J. -/
structure SimpleReichMoore (A : ℝ) (p : ReichMoore) : Prop where
  positive : 0 < A
  spin : p.spin = 0
  ratio : ∀ lv ∈ p.lValues, lv.awri = A
  distinct : (p.lValues.map ReichMooreLValue.l).Nodup
  some : ∀ lv ∈ p.lValues, lv.resonances ≠ []
  spins : ∀ lv ∈ p.lValues, ∀ r ∈ lv.resonances, r.spin ∈ spinsOf lv.l
  widths : ∀ lv ∈ p.lValues, ∀ r ∈ lv.resonances, 0 ≤ r.neutronWidth ∧ 0 ≤ r.gammaWidth
  fission : ∀ lv ∈ p.lValues, ∀ r ∈ lv.resonances, r.secondFissionWidth = 0
  radius : ∀ lv ∈ p.lValues, lv.apl = 0 ∨ lv.apl = p.ap ∨
    ∀ J ∈ spinsOf lv.l, ∃ r ∈ lv.resonances, r.spin = J
  energies : DistinctEnergies p

/-- The pairs that a library of reactions gives for capture and elastic scattering have different names. -/
def CaptureNamed (reactions : ReactionLibrary) (incident target : Str) : Prop :=
  ∃ a b, reactions incident target 102 = .ok (a, b) ∧ pairID a b ≠ pairID incident target

end Verif.Spec
