import Verif.Spec.UnresolvedRange

/-!
# Average parameters in different forms: the terms of property C96
-/

namespace Verif.Spec

/-- The values of `r` are interpolated linearly between the rows of a table. -/
structure IsInterpolated (rows : List Unresolved.Resonance) (r : Unresolved.Resonance) : Prop where
  spacing : Interpolates .linLin (rows.map (·.energy)) (rows.map (·.spacing)) r.energy r.spacing
  elastic : Interpolates .linLin (rows.map (·.energy)) (rows.map (·.elastic)) r.energy r.elastic
  capture : Interpolates .linLin (rows.map (·.energy)) (rows.map (·.capture)) r.energy r.capture
  fission : Interpolates .linLin (rows.map (·.energy)) (rows.map (·.fission)) r.energy r.fission
  competition : Interpolates .linLin (rows.map (·.energy)) (rows.map (·.competition)) r.energy r.competition

/-- The same average parameters, where the second table may have more rows, which are interpolated between
those of the first one. -/
structure RefinedGroup (g g' : AverageGroup) : Prop where
  l : g.l = g'.l
  J : g.J = g'.J
  degrees : g.degrees = g'.degrees
  kept : ∀ r ∈ g.rows, r ∈ g'.rows
  interpolated : ∀ r ∈ g'.rows, IsInterpolated g.rows r

/-- The same average parameters with more rows. -/
structure RefinedAverages (d d' : AverageParameters) : Prop where
  spin : d.spin = d'.spin
  ap : d.ap = d'.ap
  awri : d.awri = d'.awri
  groups : List.Forall₂ RefinedGroup d.groups d'.groups

end Verif.Spec
