import Verif.Spec.OldReichMoore
import Verif.Spec.BreitWignerRange
import Verif.Spec.Endf

/-!
# Specification of the cross sections of a Reich-Moore range
-/

namespace Verif.Spec

open Endf Complex

/-- The parameters of a resonance of an l value, for the wave number `k` and a channel radius that depends
on the energy. -/
structure IsLevel (k : ℝ → ℝ) (channel : ℝ → Outcome ℝ) (l : ℕ) (r : ReichMooreResonance)
    (a : Coupled) : Prop where
  J : a.J = r.spin
  energy : a.energy = r.energy
  elastic : a.elastic = r.neutronWidth
  capture : a.capture = r.gammaWidth
  fissionA : a.fissionA = r.firstFissionWidth
  fissionB : a.fissionB = r.secondFissionWidth
  own : ∃ radius, channel r.energy = .ok radius ∧
    a.penetrability = (hardSphere (k r.energy * radius) l).1
  finite : a.penetrability ≠ 0

/-- The partial wave of an l value at the energy `E`, and the parameters of all its resonances. -/
structure IsLevelWave (k : ℝ → ℝ) (channel scattering : ℝ → Outcome ℝ) (E : ℝ) (lv : ReichMooreLValue)
    (w : CoupledWave) (as : List Coupled) : Prop where
  l : w.l = lv.l
  own : ∃ radius, channel E = .ok radius ∧ w.p = (hardSphere (k E * radius) lv.l).1
  phase : ∃ radius, scattering E = .ok radius ∧
    exp (2 * I * w.φ) = hardSpherePhase (k E * radius) lv.l
  resonances : List.Forall₂ (IsLevel k channel lv.l) lv.resonances as

/-- The statistical factors of the (signed) J of an l value. -/
noncomputable def givenFactor (spin : ℚ) (lv : ReichMooreLValue) : ℝ :=
  ∑ J ∈ (lv.resonances.map ReichMooreResonance.spin).toFinset, (neutronFactor spin |J| : ℝ)

/-- The statistical factors of an orbital angular momentum that belong to no resonance of the evaluation. -/
noncomputable def missingFactor (p : ReichMoore) (l : ℕ) : ℝ :=
  2 * l + 1 - ((p.lValues.filter fun lv => lv.l = l).map (givenFactor p.spin)).sum

/-- Elastic scattering of a partial wave in the J with resonances, in units of `π/k²`. -/
noncomputable def levelElastic (spin : ℚ) (E : ℝ) (w : CoupledWave) (as : List Coupled) : ℝ :=
  ∑ J ∈ (as.map Coupled.J).toFinset, (neutronFactor spin |J| : ℝ) * normSq (1 - collisionOf E w as J 0 0)

/-- The radius that is used for an l value. -/
noncomputable def lengthOf (p : ReichMoore) (lv : ReichMooreLValue) : ℝ := if lv.apl ≠ 0 then lv.apl else p.ap

/-- Resonances of the same J and parity have different energies. -/
def DistinctEnergies (p : ReichMoore) : Prop := ∀ (J : ℚ) (parity : ℤ),
  ((((p.lValues.filter fun lv => (-1) ^ lv.l = parity).flatMap ReichMooreLValue.resonances).filter
    fun r => |r.spin| = J).map ReichMooreResonance.energy).Nodup

/-- The partial waves `ws` of the l values of an evaluation, those without resonances excepted. -/
abbrev LevelWaves (K : Constants) (neutronMass A E : ℝ) (nro : Option (ℝ → Outcome ℝ)) (naps : ℤ)
    (p : ReichMoore) (ws : List (CoupledWave × List Coupled)) : Prop :=
  List.Forall₂ (fun lv w => if lv.resonances = [] then w.2 = [] else lv.l ≤ 4 ∧ lv.l < p.nlsc ∧
    ∃ channel scattering, IsRadii (lengthOf p lv) nro naps (A * neutronMass) channel scattering ∧
      IsLevelWave (neutronWaveNumber (waveConstant K.hbar neutronMass) A) channel scattering E
        lv w.1 w.2) p.lValues ws

/-- Elastic scattering as it is documented: that of the formula for each l value, and that of a hard sphere
for all other l below NLSC. -/
def ElasticFormula (K : Constants) (neutronMass A E : ℝ) (incident target : Str)
    (nro : Option (ℝ → Outcome ℝ)) (naps : ℤ) (p : ReichMoore)
    (ws : List (CoupledWave × List Coupled)) (m : ReactionID → Option ℝ) : Prop :=
  ∃ φ : ℕ → ℝ,
    (∀ l < p.nlsc, l ∉ p.lValues.map ReichMooreLValue.l → l ≤ 4 ∧ ∃ channel scattering radius,
      IsRadii p.ap nro naps (A * neutronMass) channel scattering ∧ scattering E = .ok radius ∧
      exp (2 * I * φ l) = hardSpherePhase
        (neutronWaveNumber (waveConstant K.hbar neutronMass) A E * radius) l) ∧
    m (.elastic (pairID incident target)) = some (Real.pi
      / neutronWaveNumber (waveConstant K.hbar neutronMass) A E ^ 2
      * ((ws.map fun w => coupledElastic p.spin E w.1 w.2).sum
        + ∑ l ∈ (Finset.range p.nlsc).filter (· ∉ p.lValues.map ReichMooreLValue.l),
          (2 * l + 1) * (4 * Real.sin (φ l) ^ 2)))

/-- What C69 says of the cross sections that are reported for a range: `m` are the cross sections, `nro` is
the table of radii, `A` the mass ratio. -/
structure IsReichMoore (K : Constants) (neutronMass A E : ℝ) (incident target : Str)
    (nro : Option (ℝ → Outcome ℝ)) (naps : ℤ) (p : ReichMoore)
    (ws : List (CoupledWave × List Coupled)) (m : ReactionID → Option ℝ) : Prop where
  /-- There are no cross sections at zero energy. -/
  finite : neutronWaveNumber (waveConstant K.hbar neutronMass) A E ≠ 0
  /-- Each l value with resonances has its partial wave. -/
  waves : LevelWaves K neutronMass A E nro naps p ws
  /-- Capture. -/
  capture : m (.transition (pairID incident target) "capture".toList) = some (Real.pi
    / neutronWaveNumber (waveConstant K.hbar neutronMass) A E ^ 2
    * (ws.map fun w => coupledCapture p.spin E w.1 w.2).sum)
  /-- Fission, which is not reported if there are no fission widths. -/
  fission : (m (.transition (pairID incident target) "fission".toList)).getD 0 = Real.pi
    / neutronWaveNumber (waveConstant K.hbar neutronMass) A E ^ 2
    * (ws.map fun w => coupledFission p.spin E w.1 w.2).sum
  /-- Elastic scattering. The channels that belong to no resonance scatter like a hard sphere with the
  radius AP of the range, for all l below NLSC. -/
  elastic : ∃ φ : ℕ → ℝ,
    (∀ l < p.nlsc, missingFactor p l ≠ 0 → l ≤ 4 ∧ ∃ channel scattering radius,
      IsRadii p.ap nro naps (A * neutronMass) channel scattering ∧ scattering E = .ok radius ∧
      exp (2 * I * φ l) = hardSpherePhase
        (neutronWaveNumber (waveConstant K.hbar neutronMass) A E * radius) l) ∧
    m (.elastic (pairID incident target)) = some (Real.pi
      / neutronWaveNumber (waveConstant K.hbar neutronMass) A E ^ 2
      * ((ws.map fun w => levelElastic p.spin E w.1 w.2).sum
        + ∑ l ∈ Finset.range p.nlsc, missingFactor p l * (4 * Real.sin (φ l) ^ 2)))
  /-- Nothing else. -/
  other : ∀ id, id ≠ .elastic (pairID incident target) →
    id ≠ .transition (pairID incident target) "capture".toList →
    id ≠ .transition (pairID incident target) "fission".toList → m id = none

/-- The radii that are used for a radius given in the evaluation are there at the energy `E`. -/
def RadiiAt (neutronMass A : ℝ) (nro : Option (ℝ → Outcome ℝ)) (naps : ℤ) (ap E : ℝ) : Prop :=
  ∃ channel scattering, IsRadii ap nro naps (A * neutronMass) channel scattering ∧
    (∃ a, 0 < a ∧ channel E = .ok a) ∧ ∃ a, scattering E = .ok a

/-- A Reich-Moore evaluation for a target of mass ratio `A` that makes sense physically. There are
restrictions that are due to the code: l may not exceed 4, and only one of the channel spins of an l and J
may have fission widths. -/
structure PhysicalReichMoore (neutronMass A : ℝ) (nro : Option (ℝ → Outcome ℝ)) (naps : ℤ)
    (p : ReichMoore) : Prop where
  mass : 0 < neutronMass
  positive : 0 < A
  ratio : ∀ lv ∈ p.lValues, lv.awri = A
  spin : HalfInt p.spin
  some : p.lValues ≠ []
  distinct : (p.lValues.map ReichMooreLValue.l).Nodup
  l : ∀ lv ∈ p.lValues, lv.l ≤ 4
  waves : 0 < p.nlsc ∧ p.nlsc ≤ 5
  coupled : CoupledSpins p
  fission : FissionOnce p
  energies : ∀ lv ∈ p.lValues, ∀ r ∈ lv.resonances, r.energy ≠ 0
  different : DistinctEnergies p
  radii : ∀ lv ∈ p.lValues, ∃ channel scattering,
    IsRadii (lengthOf p lv) nro naps (A * neutronMass) channel scattering ∧
    ∀ r ∈ lv.resonances, ∃ a, 0 < a ∧ channel r.energy = .ok a

end Verif.Spec
