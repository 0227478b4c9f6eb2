import Verif.Spec.Unresolved
import Verif.Spec.BreitWignerRange

/-!
# Specification of the cross sections of an unresolved range
-/

namespace Verif.Spec

open Endf

/-! ## Interpolation -/

/-- `y` is the value at `x` between two consecutive points of a table, by an interpolation law. -/
def Interpolates (law : Law) (xs ys : List ℝ) (x y : ℝ) : Prop :=
  ∃ (i : ℕ) (x0 y0 x1 y1 : ℝ), (xs.zip ys)[i]? = some (x0, y0) ∧ (xs.zip ys)[i + 1]? = some (x1, y1) ∧
    x0 ≤ x ∧ x ≤ x1 ∧ y = law.between x0 y0 x1 y1 x

/-- What is expected of an interpolation table of the external library: it interpolates between its points,
and it has no values elsewhere. -/
def Conforms (law : Law) (table : Unresolved.Interpolation) : Prop :=
  ∀ xs ys f, table xs ys = .ok f → ∀ x y, f x = .ok y → Interpolates law xs ys x y

/-- What is expected of the external library when tables are joined: a value is that of one of them. -/
def Joins (join : List (ℝ → Outcome ℝ) → Outcome (ℝ → Outcome ℝ)) : Prop :=
  ∀ fs f, join fs = .ok f → ∀ x y, f x = .ok y → ∃ g ∈ fs, g x = .ok y

/-- What is also expected of an interpolation table: it can be made for ascending abscissae, and then has a
value from the first to the last one. -/
def Makes (table : Unresolved.Interpolation) : Prop :=
  ∀ xs ys : List ℝ, xs.length = ys.length → 2 ≤ xs.length → xs.Pairwise (· < ·) → ∃ f, table xs ys = .ok f ∧
    ∀ x, (∃ a ∈ xs, a ≤ x) → (∃ b ∈ xs, x ≤ b) → ∃ y, f x = .ok y

/-! ## Average parameters -/

/-- The average parameters of one l and J: rows of energy, level spacing and widths, and the degrees of
freedom. -/
structure AverageGroup where
  l : ℕ
  J : ℚ
  rows : List Unresolved.Resonance
  degrees : Data ℕ

/-- All average parameters of a range, whatever the form in which they are given. -/
structure AverageParameters where
  spin : ℚ
  ap : ℝ
  awri : List ℝ
  groups : List AverageGroup

/-- The average parameters of a range from `lower` to `upper`. Constant parameters hold over the whole range;
if only the fission widths depend on the energy, the energies are the same for all l and J. -/
def averageParameters (lower upper : ℝ) : Endf.Parameters → Option AverageParameters
  | .unresolvedConstant p => some ⟨p.spin, p.ap, p.lValues.map UnresolvedLValue.awri,
      p.lValues.flatMap fun lv => lv.jValues.map fun j => ⟨lv.l, j.spin,
        [⟨lower, j.spacing, j.neutronWidth, j.gammaWidth, j.fissionWidth, j.competitiveWidth⟩,
          ⟨upper, j.spacing, j.neutronWidth, j.gammaWidth, j.fissionWidth, j.competitiveWidth⟩], j.degrees⟩⟩
  | .unresolvedFission p => some ⟨p.spin, p.ap, p.lValues.map UnresolvedLValue.awri,
      p.lValues.flatMap fun lv => lv.jValues.map fun j => ⟨lv.l, j.spin,
        (p.energies.zip j.fissionWidths).map fun row =>
          ⟨row.1, j.spacing, j.neutronWidth, j.gammaWidth, row.2, j.competitiveWidth⟩, j.degrees⟩⟩
  | .unresolvedDependent p => some ⟨p.spin, p.ap, p.lValues.map UnresolvedLValue.awri,
      p.lValues.flatMap fun lv => lv.jValues.map fun j => ⟨lv.l, j.spin, j.rows, j.degrees⟩⟩
  | _ => none

/-- `r` are the parameters at the energy `E`: each of them is interpolated linearly. -/
structure IsAverage (E : ℝ) (g : AverageGroup) (r : Unresolved.Resonance) : Prop where
  energy : r.energy = E
  spacing : Interpolates .linLin (g.rows.map (·.energy)) (g.rows.map (·.spacing)) E r.spacing
  elastic : Interpolates .linLin (g.rows.map (·.energy)) (g.rows.map (·.elastic)) E r.elastic
  capture : Interpolates .linLin (g.rows.map (·.energy)) (g.rows.map (·.capture)) E r.capture
  fission : Interpolates .linLin (g.rows.map (·.energy)) (g.rows.map (·.fission)) E r.fission
  competition : Interpolates .linLin (g.rows.map (·.energy)) (g.rows.map (·.competition)) E r.competition
  finite : r.spacing ≠ 0

namespace AverageGroup

/-- The average widths: the neutron width is the reduced one times `√E P / ρ` for each degree of freedom. -/
noncomputable def widths (g : AverageGroup) (ρ E : ℝ) (r : Unresolved.Resonance) : Data ℝ :=
  ⟨g.degrees.elastic * r.elastic * Real.sqrt E * ((hardSphere ρ g.l).1 / ρ), r.capture, r.fission,
    r.competition⟩

/-- The averages over the fluctuating widths. -/
noncomputable def integrals (g : AverageGroup) (w : Data ℝ) : Data ℝ :=
  Unresolved.averages w (Unresolved.column (g.degrees.elastic - 1))
    (Unresolved.fluctuations w.fission g.degrees.fission)
    (Unresolved.fluctuations w.competition g.degrees.competition)

/-- The average of `g_J Γn Γn / (D Γ)`, with the interference of potential scattering. -/
noncomputable def elasticTerm (g : AverageGroup) (I : ℚ) (ρ E φ : ℝ) (r : Unresolved.Resonance) : ℝ :=
  neutronFactor I g.J / r.spacing * ((g.widths ρ E r).elastic ^ 2 * (g.integrals (g.widths ρ E r)).elastic
    - 2 * (g.widths ρ E r).elastic * Real.sin φ ^ 2)

/-- The average of `g_J Γn Γγ / (D Γ)`. -/
noncomputable def captureTerm (g : AverageGroup) (I : ℚ) (ρ E : ℝ) (r : Unresolved.Resonance) : ℝ :=
  neutronFactor I g.J / r.spacing * ((g.widths ρ E r).elastic * r.capture
    * (g.integrals (g.widths ρ E r)).capture)

/-- The average of `g_J Γn Γf / (D Γ)`. -/
noncomputable def fissionTerm (g : AverageGroup) (I : ℚ) (ρ E : ℝ) (r : Unresolved.Resonance) : ℝ :=
  neutronFactor I g.J / r.spacing * ((g.widths ρ E r).elastic * r.fission
    * (g.integrals (g.widths ρ E r)).fission)

end AverageGroup

/-- What C67 says of the cross sections that are reported for an unresolved range: `k` is the wave number,
`a` the channel radius, `φ` the phase shifts, `rs` the parameters of the groups at the energy `E`, and `lmax`
the greatest l. -/
structure IsUnresolved (k a E : ℝ) (φ : ℕ → ℝ) (lmax : ℕ) (incident target : Str) (d : AverageParameters)
    (rs : List Unresolved.Resonance) (m : LegacyID → Option ℝ) : Prop where
  elastic : m ⟨incident, target, .elastic⟩ = some
    (4 * Real.pi / k ^ 2 * ∑ l ∈ Finset.range (lmax + 1), (2 * (l : ℝ) + 1) * Real.sin (φ l) ^ 2
      + 2 * Real.pi ^ 2 / k ^ 2
        * (List.zipWith (fun g r => g.elasticTerm d.spin (k * a) E (φ g.l) r) d.groups rs).sum)
  capture : m ⟨incident, target, .capture⟩ = some (2 * Real.pi ^ 2 / k ^ 2
    * (List.zipWith (fun g r => g.captureTerm d.spin (k * a) E r) d.groups rs).sum)
  fission : (m ⟨incident, target, .fission⟩).getD 0 = 2 * Real.pi ^ 2 / k ^ 2
    * (List.zipWith (fun g r => g.fissionTerm d.spin (k * a) E r) d.groups rs).sum
  other : ∀ id, (∀ kind, id ≠ ⟨incident, target, kind⟩) → m id = none

/-- Average parameters that make sense physically: masses are positive, l is at most 4, each l and J is given
once, the numbers of degrees of freedom are those that are tabulated, there are two or more rows with
ascending energies, level spacings and capture widths are positive, and no width is negative. -/
structure PhysicalAverages (neutronMass A : ℝ) (d : AverageParameters) : Prop where
  mass : 0 < neutronMass
  awri : 0 < A ∧ ∀ a ∈ d.awri, a = A
  some : d.groups ≠ []
  distinct : (d.groups.map fun g => (g.l, g.J)).Nodup
  l : ∀ g ∈ d.groups, g.l ≤ 4
  degrees : ∀ g ∈ d.groups, 1 ≤ g.degrees.elastic ∧ g.degrees.elastic ≤ 4 ∧ g.degrees.capture ≤ 4 ∧
    g.degrees.fission ≤ 4 ∧ g.degrees.competition ≤ 4
  rows : ∀ g ∈ d.groups, 2 ≤ g.rows.length ∧ (g.rows.map (·.energy)).Pairwise (· < ·)
  widths : ∀ g ∈ d.groups, ∀ r ∈ g.rows, 0 < r.spacing ∧ 0 ≤ r.elastic ∧ 0 < r.capture ∧ 0 ≤ r.fission ∧
    0 ≤ r.competition

end Verif.Spec
