import Verif.Spec.Continuity

/-!
# Resonance parameters that differ by little
-/

namespace Verif.Spec

/-- Resonance `r'` has the parameters of `r` up to less than `δ`. -/
structure NearResonance (δ : ℝ) (r r' : Resonance) : Prop where
  energy : |r'.energy - r.energy| < δ
  eliminated : |r'.eliminated - r.eliminated| < δ
  widths : List.Forall₂ (fun x x' => |x' - x| < δ) r.widths r'.widths

/-- As many resonances, each with nearly the same parameters. -/
def NearResonances (δ : ℝ) : List Resonance → List Resonance → Prop :=
  List.Forall₂ (NearResonance δ)

end Verif.Spec
