import Verif.Spec.LowEnergy
import Verif.Spec.BreitWignerRange

/-!
# Breit-Wigner cross sections at very low energies
-/

namespace Verif.Spec

open Complex

/-- A resonance at the energy zero: its neutron width is given per unit of the penetrability, which vanishes
there. `q` is the penetrability of the competitive channel, `s` the shift factor. -/
noncomputable def slowLevel (q s : ℝ) (x : Parameters) : Level :=
  ⟨x.elastic / x.penetrability, x.totalWidth 0 q, x.position s⟩

/-- `Σ (Γn/P) Γγ / (E'² + Γ²/4)`. -/
noncomputable def slowCapture (q s : ℝ) (xs : List Parameters) : ℝ :=
  (xs.map fun x => x.elastic / x.penetrability * x.capture / x.denominator 0 0 q s).sum

/-- `Σ (Γn/P) Γf / (E'² + Γ²/4)`. -/
noncomputable def slowFission (q s : ℝ) (xs : List Parameters) : ℝ :=
  (xs.map fun x => x.elastic / x.penetrability * x.fission / x.denominator 0 0 q s).sum

/-- `|b - a/2 Λ|² - b²`, where `Λ = Σ (Γn/P) / (E' - iΓ/2)` and `a` and `b` are the channel radius and the
scattering radius: for all resonances together in the multi-level formalism, else for each of them. -/
noncomputable def slowElastic (multi : Bool) (q s a b : ℝ) (xs : List Parameters) : ℝ :=
  if multi then normSq ((b : ℂ) - a / 2 * levelSum 0 (xs.map (slowLevel q s))) - b ^ 2
  else (xs.map fun x => normSq ((b : ℂ) - a / 2 * levelSum 0 [slowLevel q s x]) - b ^ 2).sum

open Endf

/-- What is known of an l value at the energy zero: the radii, the penetrability of the competitive channel, and
the resonances. -/
structure SlowValue where
  channelRadius : ℝ
  scatteringRadius : ℝ
  competition : ℝ
  resonances : List Assigned

/-- These are those of the l value of an evaluation. -/
structure IsSlowValue (k : ℝ → ℝ) (channel scattering : ℝ → Outcome ℝ) (lv : BreitWignerLValue)
    (v : SlowValue) : Prop where
  channelRadius : channel 0 = .ok v.channelRadius
  scatteringRadius : scattering 0 = .ok v.scatteringRadius
  competition : ∃ radius, channel (-lv.qx) = .ok radius ∧
    v.competition = (hardSphere (k (-lv.qx) * radius) lv.l).1
  resonances : List.Forall₂ (IsResonance k channel lv) lv.resonances v.resonances

/-- The limits for an l value, for the target spin `I` and the wave number `k` at the unit of energy: capture and
fission times the square root of the energy, and the contribution of the resonances to elastic scattering. -/
noncomputable def valueCapture (I : ℚ) (k : ℝ) (l : ℕ) (v : SlowValue) : ℝ :=
  if l = 0 then Real.pi * v.channelRadius / k * (v.resonances.map fun r =>
    (neutronFactor I r.J : ℝ) * slowCapture v.competition 0 [r.parameters]).sum else 0

noncomputable def valueFission (I : ℚ) (k : ℝ) (l : ℕ) (v : SlowValue) : ℝ :=
  if l = 0 then Real.pi * v.channelRadius / k * (v.resonances.map fun r =>
    (neutronFactor I r.J : ℝ) * slowFission v.competition 0 [r.parameters]).sum else 0

noncomputable def valueElastic (multi : Bool) (I : ℚ) (l : ℕ) (v : SlowValue) : ℝ :=
  if l = 0 then 4 * Real.pi * ∑ J ∈ (v.resonances.map Assigned.J).toFinset, (neutronFactor I J : ℝ)
    * slowElastic multi v.competition 0 v.channelRadius v.scatteringRadius
      ((v.resonances.filter fun r => r.J = J).map Assigned.parameters) else 0

/-- What the limits of a range are made from: the l values, and the scattering radius of the first one with
resonances. -/
structure IsSlowRange (K : Constants) (neutronMass : ℝ) (nro : Option (ℝ → Outcome ℝ)) (naps : ℤ)
    (p : BreitWigner) (vs : List SlowValue) (b : ℝ) : Prop where
  values : List.Forall₂ (fun lv (v : SlowValue) => if lv.resonances = [] then v.resonances = [] else
    ∃ channel scattering, IsRadii p.ap nro naps (lv.awri * neutronMass) channel scattering ∧
      IsSlowValue (neutronWaveNumber (waveConstant K.hbar neutronMass) lv.awri) channel scattering lv v)
    p.lValues vs
  first : ∃ before lv after channel scattering, p.lValues = before ++ lv :: after ∧
    (∀ x ∈ before, x.resonances = []) ∧ lv.resonances ≠ [] ∧
    IsRadii p.ap nro naps (lv.awri * neutronMass) channel scattering ∧ scattering 0 = .ok b

end Verif.Spec
