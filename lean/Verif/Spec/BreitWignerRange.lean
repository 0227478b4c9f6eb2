import Verif.Spec.OldSystem
import Verif.Model.Legacy
import Verif.Spec.Endf

/-!
# Specification of the cross sections of a Breit-Wigner range
-/

namespace Verif.Spec

open Endf

/-- The parameters of a resonance of an l value, for the wave number `k` and a channel radius that depends
on the energy. The penetrability of the competitive channel is that of the elastic channel at the energy
lowered by QX. -/
structure IsResonance (k : ℝ → ℝ) (channel : ℝ → Outcome ℝ) (lv : BreitWignerLValue)
    (r : BreitWignerResonance) (a : Assigned) : Prop where
  J : a.J = |r.spin|
  energy : a.parameters.energy = r.energy
  elastic : a.parameters.elastic = r.neutronWidth
  capture : a.parameters.capture = r.gammaWidth
  fission : a.parameters.fission = r.fissionWidth
  competition : a.parameters.competition = if lv.lrx = 0 then 0 else r.competitiveWidth
  own : ∃ radius, channel r.energy = .ok radius ∧
    a.parameters.penetrability = (hardSphere (k r.energy * radius) lv.l).1 ∧
    a.parameters.shiftFactor = (hardSphere (k r.energy * radius) lv.l).2
  competitive : lv.lrx ≠ 0 → ∃ radius, channel (r.energy - lv.qx) = .ok radius ∧
    a.parameters.competitivePenetrability = (hardSphere (k (r.energy - lv.qx) * radius) lv.l).1
  finite : a.parameters.penetrability ≠ 0 ∧ (lv.lrx ≠ 0 → a.parameters.competitivePenetrability ≠ 0)

/-- The partial wave of an l value at the energy `E`, and the parameters of all its resonances. -/
structure IsPartialWave (k : ℝ → ℝ) (channel scattering : ℝ → Outcome ℝ) (E : ℝ) (lv : BreitWignerLValue)
    (w : Wave) (as : List Assigned) : Prop where
  l : w.l = lv.l
  own : ∃ radius, channel E = .ok radius ∧ w.p = (hardSphere (k E * radius) lv.l).1 ∧
    w.s = (hardSphere (k E * radius) lv.l).2
  phase : ∃ radius, scattering E = .ok radius ∧
    Complex.exp (2 * Complex.I * w.φ) = hardSpherePhase (k E * radius) lv.l
  competitive : ∃ radius, channel (E - lv.qx) = .ok radius ∧
    w.q = (hardSphere (k (E - lv.qx) * radius) lv.l).1
  resonances : List.Forall₂ (IsResonance k channel lv) lv.resonances as

/-- The radii of an l value: those that the flags NRO and NAPS prescribe. -/
def IsRadii (ap : ℝ) (table : Option (ℝ → Outcome ℝ)) (naps : ℤ) (mass : ℝ)
    (channel scattering : ℝ → Outcome ℝ) : Prop :=
  ∃ first second, prescribedRadii table.isSome naps = some (first, second) ∧
    ∀ energy, IsRadius ap table mass energy (channel energy) first ∧
      IsRadius ap table mass energy (scattering energy) second

/-- The elastic contribution of a partial wave without its potential scattering, in units of `π / k²`. -/
noncomputable def resonantElastic (multi : Bool) (I : ℚ) (E : ℝ) (w : Wave) (rs : List Assigned) : ℝ :=
  (if multi then multiElastic I E w rs else singleElastic I E w rs)
    - 4 * (2 * w.l + 1) * Real.sin w.φ ^ 2

/-- The wave number factor `√(2 m) / ħ`. -/
noncomputable def waveConstant (hbar neutronMass : ℝ) : ℝ := Real.sqrt (2 * neutronMass) / hbar

/-- What C65 says of the cross sections that are reported for a range: `m` are the cross sections, `multi`
tells the formalism, `nro` is the table of radii. -/
structure IsBreitWigner (K : Constants) (neutronMass E : ℝ) (incident target : Str)
    (nro : Option (ℝ → Outcome ℝ)) (naps : ℤ) (multi : Bool) (p : BreitWigner)
    (ws : List (Wave × List Assigned)) (m : LegacyID → Option ℝ) : Prop where
  /-- Each l value with resonances has its partial wave. -/
  waves : List.Forall₂ (fun lv w => if lv.resonances = [] then w.2 = [] else lv.l ≤ 4 ∧
    ∃ channel scattering, IsRadii p.ap nro naps (lv.awri * neutronMass) channel scattering ∧
      IsPartialWave (neutronWaveNumber (waveConstant K.hbar neutronMass) lv.awri) channel scattering E
        lv w.1 w.2) p.lValues ws
  /-- Capture. -/
  capture : m ⟨incident, target, .capture⟩ = some (List.zipWith (fun lv w =>
    Real.pi / neutronWaveNumber (waveConstant K.hbar neutronMass) lv.awri E ^ 2
      * captureSum p.spin E w.1 w.2) p.lValues ws).sum
  /-- Fission, which may not be reported if it vanishes. -/
  fission : (m ⟨incident, target, .fission⟩).getD 0 = (List.zipWith (fun lv w =>
    Real.pi / neutronWaveNumber (waveConstant K.hbar neutronMass) lv.awri E ^ 2
      * fissionSum p.spin E w.1 w.2) p.lValues ws).sum
  /-- Elastic scattering. The potential scattering is that of all l up to the greatest one with resonances,
  for the mass and the radius of the first l value with resonances. -/
  elastic : ∃ before lv after channel scattering radius lmax, ∃ φ : ℕ → ℝ,
    p.lValues = before ++ lv :: after ∧ (∀ x ∈ before, x.resonances = []) ∧ lv.resonances ≠ [] ∧
    IsRadii p.ap nro naps (lv.awri * neutronMass) channel scattering ∧ scattering E = .ok radius ∧
    (∀ x ∈ p.lValues, x.resonances ≠ [] → x.l ≤ lmax) ∧ (∃ x ∈ p.lValues, x.resonances ≠ [] ∧ x.l = lmax) ∧
    (∀ l ≤ lmax, Complex.exp (2 * Complex.I * φ l) = hardSpherePhase
      (neutronWaveNumber (waveConstant K.hbar neutronMass) lv.awri E * radius) l) ∧
    neutronWaveNumber (waveConstant K.hbar neutronMass) lv.awri E ≠ 0 ∧
    m ⟨incident, target, .elastic⟩ = some (4 * Real.pi
        / neutronWaveNumber (waveConstant K.hbar neutronMass) lv.awri E ^ 2
        * ∑ l ∈ Finset.range (lmax + 1), (2 * (l : ℝ) + 1) * Real.sin (φ l) ^ 2
      + (List.zipWith (fun lv w =>
        Real.pi / neutronWaveNumber (waveConstant K.hbar neutronMass) lv.awri E ^ 2
          * resonantElastic multi p.spin E w.1 w.2) p.lValues ws).sum)
  /-- Nothing else. -/
  other : ∀ id, (∀ kind, id ≠ ⟨incident, target, kind⟩) → m id = none

/-- A Breit-Wigner evaluation that makes sense physically, as far as its construction is concerned: the l
values are different, below their number and at most 4; the spins can be coupled, each l and J is given with
one sign only; masses are positive, widths are not negative, those for capture are positive; radii are
positive at the energies of the resonances, none of which is at a threshold. -/
structure PhysicalBreitWigner (neutronMass : ℝ) (nro : Option (ℝ → Outcome ℝ)) (naps : ℤ)
    (p : BreitWigner) : Prop where
  mass : 0 < neutronMass
  spin : HalfInt p.spin
  some : ∃ lv ∈ p.lValues, lv.resonances ≠ []
  distinct : (p.lValues.map BreitWignerLValue.l).Nodup
  awri : ∀ lv ∈ p.lValues, 0 < lv.awri
  l : ∀ lv ∈ p.lValues, lv.resonances ≠ [] → lv.l < p.lValues.length ∧ lv.l ≤ 4
  spins : ∀ lv ∈ p.lValues, ∀ r ∈ lv.resonances, AllowedJ p.spin lv.l |r.spin|
  signs : ∀ lv ∈ p.lValues, ∀ r ∈ lv.resonances, ∀ r' ∈ lv.resonances, |r.spin| = |r'.spin| →
    r.spin = r'.spin
  widths : ∀ lv ∈ p.lValues, ∀ r ∈ lv.resonances, 0 ≤ r.neutronWidth ∧ 0 < r.gammaWidth ∧
    0 ≤ r.fissionWidth ∧ 0 ≤ r.competitiveWidth
  radii : ∀ lv ∈ p.lValues, ∃ channel scattering,
    IsRadii p.ap nro naps (lv.awri * neutronMass) channel scattering ∧ ∀ r ∈ lv.resonances,
      r.energy ≠ 0 ∧ (∃ a, 0 < a ∧ channel r.energy = .ok a) ∧
      (lv.lrx ≠ 0 → r.energy - lv.qx ≠ 0 ∧ ∃ a, 0 < a ∧ channel (r.energy - lv.qx) = .ok a)

/-- It can be evaluated at an energy: there are radii. -/
def HasRadii (neutronMass : ℝ) (nro : Option (ℝ → Outcome ℝ)) (naps : ℤ) (p : BreitWigner) (E : ℝ) : Prop :=
  ∀ lv ∈ p.lValues, ∃ channel scattering,
    IsRadii p.ap nro naps (lv.awri * neutronMass) channel scattering ∧
      (∃ a, 0 < a ∧ channel E = .ok a) ∧ (∃ a, 0 < a ∧ channel (E - lv.qx) = .ok a) ∧
      ∃ a, scattering E = .ok a

end Verif.Spec
