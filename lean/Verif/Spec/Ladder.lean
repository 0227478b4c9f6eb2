import Verif.Spec.BreitWigner
import Verif.Model.Legacy

/-!
# A resonance at any position
-/

namespace Verif.Spec

/-- For each `x` a resonance whose position, after its shift, is `x`, and whose widths at the energy of the
neutron are given. There the penetrabilities are `p` and `q` and the shift factor is `s`. -/
def Ladder (w : Data ℝ) (p q s : ℝ) (r : ℝ → Parameters) : Prop := ∀ x,
  (r x).position s = x ∧ (r x).neutronWidth p = w.elastic ∧ (r x).capture = w.capture ∧
    (r x).fission = w.fission ∧ (r x).competition * q / (r x).competitivePenetrability = w.competition ∧
    (r x).penetrability ≠ 0 ∧ (r x).competitivePenetrability ≠ 0

end Verif.Spec
