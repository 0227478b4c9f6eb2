import Verif.Spec.BreitWigner

/-!
# Parameters of Breit-Wigner resonances that differ by little
-/

namespace Verif.Spec

/-- Resonance `x'` has the parameters of `x` up to less than `δ`, and nearly the same penetrabilities and shift
factor at its energy. -/
structure NearParameters (δ : ℝ) (x x' : Parameters) : Prop where
  energy : |x'.energy - x.energy| < δ
  elastic : |x'.elastic - x.elastic| < δ
  capture : |x'.capture - x.capture| < δ
  fission : |x'.fission - x.fission| < δ
  competition : |x'.competition - x.competition| < δ
  penetrability : |x'.penetrability - x.penetrability| < δ
  competitivePenetrability : |x'.competitivePenetrability - x.competitivePenetrability| < δ
  shiftFactor : |x'.shiftFactor - x.shiftFactor| < δ

end Verif.Spec
