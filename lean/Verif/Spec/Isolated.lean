import Verif.Spec.ReichMooreRange

/-!
# Specification: an evaluation of isolated s-wave resonances in two formats
-/

namespace Verif.Spec

open Endf

/-- There are only s-wave resonances, at most one for each J, without a competitive channel. -/
structure Isolated (p : BreitWigner) (lv : BreitWignerLValue) : Prop where
  lValues : p.lValues = [lv]
  l : lv.l = 0
  competition : lv.lrx = 0
  isolated : (lv.resonances.map fun r => |r.spin|).Nodup

/-- The same parameters in the Reich-Moore format: the fission width is that of the first fission channel,
the radius is AP for the only partial wave. -/
noncomputable def asReichMoore (p : BreitWigner) : ReichMoore :=
  ⟨p.spin, p.ap, 1, p.lValues.map fun lv => ⟨lv.l, lv.awri, 0, lv.resonances.map fun r =>
    ⟨r.energy, r.spin, r.neutronWidth, r.gammaWidth, r.fissionWidth, 0⟩⟩⟩

end Verif.Spec
