import Verif.Spec.RMatrix

/-!
# The limits that unitarity sets to cross sections
-/

namespace Verif.Spec

/-- `Σ_c π/k² g` over the incident channels of a spin group. -/
noncomputable def unitarityLimit (K : Constants) (channels : List Channel) (energy : ℝ) : ℝ :=
  (channels.filter fun c => c.pair.id = c.incident.id).length * incidentFactor K channels energy

end Verif.Spec
