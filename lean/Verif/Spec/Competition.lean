import Verif.Spec.BreitWignerRange

/-!
# Specification of competitive widths
-/

namespace Verif.Spec

open Endf

/-- The energy of the competitive channel, as a laboratory energy of the incident neutron: QX is added to
the energy in the centre of mass, see the ENDF-6 manual, 2.2.1. -/
noncomputable def competitiveEnergy (lv : BreitWignerLValue) (E : ℝ) : ℝ :=
  E + lv.qx * ((lv.awri + 1) / lv.awri)

/-- The penetrability of the competitive channel: that of the elastic channel at the energy of the
competitive one, and zero below its threshold. -/
noncomputable def competitivePenetrability (k : ℝ → ℝ) (radius : ℝ) (lv : BreitWignerLValue) (E : ℝ) : ℝ :=
  if competitiveEnergy lv E < 0 then 0 else (hardSphere (k (competitiveEnergy lv E) * radius) lv.l).1

/-- The l value without competitive widths. -/
def noCompetition (lv : BreitWignerLValue) : BreitWignerLValue :=
  { lv with resonances := lv.resonances.map fun r => { r with competitiveWidth := 0 } }

/-- The evaluation without competitive widths. -/
def withoutCompetition (p : Endf.BreitWigner) : Endf.BreitWigner :=
  { p with lValues := p.lValues.map noCompetition }

end Verif.Spec
