import Verif.Spec.Old
import Verif.Model.Endf

/-!
# Specification of the cross sections of an ENDF range, for the older code
-/

namespace Verif.Spec

open Endf

/-- The wave number `k(E) = c A/(A+1) √|E|` of a neutron on a target of weight ratio `A`. -/
noncomputable def neutronWaveNumber (c A E : ℝ) : ℝ := c * (A / (A + 1)) * Real.sqrt |E|

/-- The energy offset of the competitive channel as the older code has it. -/
noncomputable def competitiveOffset (lv : BreitWignerLValue) : ℝ := lv.qx * (lv.awri / (lv.awri + 1))

/-- The parameters of a resonance of an l value, for the wave number `k` and a channel radius that depends
on the energy. -/
structure IsAssigned (k : ℝ → ℝ) (channel : ℝ → Outcome ℝ) (lv : BreitWignerLValue)
    (r : BreitWignerResonance) (a : Assigned) : Prop where
  J : a.J = |r.spin|
  energy : a.parameters.energy = r.energy
  elastic : a.parameters.elastic = r.neutronWidth
  capture : a.parameters.capture = r.gammaWidth
  fission : a.parameters.fission = r.fissionWidth
  competition : a.parameters.competition = if lv.lrx = 0 then 0 else r.competitiveWidth
  own : ∃ radius, channel (if lv.lrx = 0 then r.energy else |r.energy|) = .ok radius ∧
    a.parameters.penetrability = penetration lv.l (k r.energy * radius) ∧
    a.parameters.shiftFactor = (hardSphere (k r.energy * radius) lv.l).2
  competitive : lv.lrx ≠ 0 → ∃ radius, channel (r.energy + competitiveOffset lv) = .ok radius ∧
    a.parameters.competitivePenetrability
      = penetration lv.l (k (r.energy + competitiveOffset lv) * radius)

/-- The partial wave of an l value at the energy `E`, and the parameters of all its resonances. -/
structure IsWave (k : ℝ → ℝ) (channel scattering : ℝ → Outcome ℝ) (E : ℝ) (lv : BreitWignerLValue)
    (w : Wave) (as : List Assigned) : Prop where
  l : w.l = lv.l
  own : ∃ radius, channel E = .ok radius ∧ w.p = penetration lv.l (k E * radius) ∧
    w.s = (hardSphere (k E * radius) lv.l).2
  phase : ∃ radius, scattering E = .ok radius ∧
    Complex.exp (2 * Complex.I * w.φ) = hardSpherePhase (k E * radius) lv.l
  competitive : lv.lrx ≠ 0 → ∃ radius, channel (E + competitiveOffset lv) = .ok radius ∧
    w.q = penetration lv.l (k (E + competitiveOffset lv) * radius)
  resonances : List.Forall₂ (IsAssigned k channel lv) lv.resonances as

end Verif.Spec
