import Verif.Lemmas.Averages
import Verif.Props.RangeBounds
import Verif.Props.OrderMore

/-!
# Property C95 for constant average parameters, and property C96: the form in which average parameters are
given does not matter
-/

namespace Verif.Endf

open Spec Averages

variable {K : Constants} {lib : CoulombLibrary} {tables : InterpolationLibrary} {reactions : ReactionLibrary}
  {initialBreitWigner : Channel → Verif.BreitWigner.Cache}
  {initial : (g : SpinGroup) → MatrixCache g.channels.length}
  {neutronMass elementaryCharge A E : ℝ} {incident target : Str} {range : Range} {R R' R₁ R₁' : Reconstructor}
  {m m' : ReactionMap} {nro : Option (ℝ → Outcome ℝ)}

/-! ## Bounds -/

/-- The average parameters of constant ones. -/
def constantAverages (p : UnresolvedParameters UnresolvedConstantJ) (lower upper : ℝ) : AverageParameters :=
  ⟨p.spin, p.ap, p.lValues.map UnresolvedLValue.awri,
      p.lValues.flatMap fun lv => lv.jValues.map fun j => ⟨lv.l, j.spin,
        [⟨lower, j.spacing, j.neutronWidth, j.gammaWidth, j.fissionWidth, j.competitiveWidth⟩,
          ⟨upper, j.spacing, j.neutronWidth, j.gammaWidth, j.fissionWidth, j.competitiveWidth⟩], j.degrees⟩⟩

theorem constantAverages_agree (p : UnresolvedParameters UnresolvedConstantJ) (lower upper l u : ℝ) :
    List.Forall₂ (AgreeAt E) (constantAverages p lower upper).groups (constantAverages p l u).groups := by
  unfold constantAverages
  dsimp only
  induction p.lValues with
  | nil => exact .nil
  | cons lv _ ih =>
    rw [List.flatMap_cons, List.flatMap_cons]
    refine List.rel_append ?_ ih
    rw [List.forall₂_map_left_iff, List.forall₂_map_right_iff]
    refine List.forall₂_same.mpr fun j _ => constant_agree rfl rfl rfl
      (v := ⟨0, j.spacing, j.neutronWidth, j.gammaWidth, j.fissionWidth, j.competitiveWidth⟩) ?_
    simp

/-- C95 for average parameters that do not depend on the energy: the cross sections within both bounds are
the same. -/
theorem C95_constant {p : UnresolvedParameters UnresolvedConstantJ} {l u : ℝ}
    (hp : range.parameters = .unresolvedConstant p)
    (hR : fromENDF K lib tables reactions initialBreitWigner initial neutronMass elementaryCharge incident
      target range = .ok R)
    (hR' : fromENDF K lib tables reactions initialBreitWigner initial neutronMass elementaryCharge incident
      target { range with lower := l, upper := u } = .ok R')
    (hA : ∀ lv ∈ p.lValues, lv.awri = A) (hc : Conforms .linLin tables.linLin)
    (hn : prescribedRadii range.scatteringRadius.isSome range.naps ≠ none)
    (hE : range.lower ≤ E ∧ E ≤ range.upper) (hE' : l ≤ E ∧ E ≤ u) (hm : R.call K lib E = .ok (m, R₁))
    (hm' : R'.call K lib E = .ok (m', R₁')) : SameCrossSections m m' := by
  have hA : ∀ awri ∈ p.lValues.map UnresolvedLValue.awri, awri = A := by
    intro a ha
    obtain ⟨lv, hlv, rfl⟩ := List.mem_map.mp ha
    exact hA lv hlv
  have hq : { range with lower := l, upper := u } =
      ({ range with lower := l, upper := u, parameters := .unresolvedConstant p } : Range) := by
    rw [← hp]
  rw [hq] at hR'
  exact unresolved_agree (d := constantAverages p range.lower range.upper) (d' := constantAverages p l u) hR
    hR' (by rw [hp]; rfl) rfl rfl rfl hA hA (constantAverages_agree p _ _ _ _) hc hn hE hE' hm hm'

theorem constantAverages_physical {p : UnresolvedParameters UnresolvedConstantJ} {lower upper l u : ℝ}
    (hlu : l < u) (h : PhysicalAverages neutronMass A (constantAverages p lower upper)) :
    PhysicalAverages neutronMass A (constantAverages p l u) := by
  have mem : ∀ g ∈ (constantAverages p l u).groups, ∃ lv ∈ p.lValues, ∃ j ∈ lv.jValues,
      g = ⟨lv.l, j.spin,
        [⟨l, j.spacing, j.neutronWidth, j.gammaWidth, j.fissionWidth, j.competitiveWidth⟩,
          ⟨u, j.spacing, j.neutronWidth, j.gammaWidth, j.fissionWidth, j.competitiveWidth⟩], j.degrees⟩ ∧
      (⟨lv.l, j.spin,
        [⟨lower, j.spacing, j.neutronWidth, j.gammaWidth, j.fissionWidth, j.competitiveWidth⟩,
          ⟨upper, j.spacing, j.neutronWidth, j.gammaWidth, j.fissionWidth, j.competitiveWidth⟩],
        j.degrees⟩ : AverageGroup) ∈ (constantAverages p lower upper).groups := by
    intro g hg
    obtain ⟨lv, hlv, hg⟩ := List.mem_flatMap.mp hg
    obtain ⟨j, hj, rfl⟩ := List.mem_map.mp hg
    exact ⟨lv, hlv, j, hj, rfl, List.mem_flatMap.mpr ⟨lv, hlv, List.mem_map.mpr ⟨j, hj, rfl⟩⟩⟩
  have hag := constantAverages_agree (E := 0) p lower upper l u
  refine ⟨h.mass, h.awri, ?_, ?_, fun g hg => ?_, fun g hg => ?_, fun g hg => ?_, fun g hg r hr => ?_⟩
  · intro h0
    have := hag.length_eq
    rw [h0] at this
    exact h.some (List.eq_nil_of_length_eq_zero this)
  · have := h.distinct
    have e : (constantAverages p lower upper).groups.map (fun g => (g.l, g.J)) =
        (constantAverages p l u).groups.map fun g => (g.l, g.J) := by
      clear * - hag
      generalize (constantAverages p lower upper).groups = gs at hag ⊢
      generalize (constantAverages p l u).groups = gs' at hag ⊢
      induction hag with
      | nil => rfl
      | cons h1 _ ih => rw [List.map_cons, List.map_cons, ih, h1.l, h1.J]
    rwa [← e]
  · obtain ⟨lv, hlv, j, hj, rfl, h'⟩ := mem g hg
    have := h.l _ h'
    exact this
  · obtain ⟨lv, hlv, j, hj, rfl, h'⟩ := mem g hg
    have := h.degrees _ h'
    exact this
  · obtain ⟨lv, hlv, j, hj, rfl, h'⟩ := mem g hg
    simpa using hlu
  · obtain ⟨lv, hlv, j, hj, rfl, h'⟩ := mem g hg
    have hw := h.widths _ h' _ List.mem_cons_self
    simp only [List.mem_cons, List.not_mem_nil, or_false] at hr
    rcases hr with rfl | rfl <;> exact hw

/-- C95 for average parameters that do not depend on the energy: if they make sense physically, then they are
accepted with all bounds, and the cross sections within both bounds are the same. -/
theorem C95_constant_accepted {p : UnresolvedParameters UnresolvedConstantJ} {d : AverageParameters} {l u : ℝ}
    (hmakes : Makes tables.linLin) (hc : Conforms .linLin tables.linLin) (htype : range.type = 2)
    (hp : range.parameters = .unresolvedConstant p) (hlu : l < u)
    (ht : Option.Rel (IsRadiusTable tables) range.scatteringRadius nro)
    (hd : averageParameters range.lower range.upper range.parameters = some d)
    (h : PhysicalAverages neutronMass A d) {channel scattering : ℝ → Outcome ℝ}
    (hr : IsRadii p.ap nro range.naps (A * neutronMass) channel scattering) :
    ∃ R R', fromENDF K lib tables reactions initialBreitWigner initial neutronMass elementaryCharge incident
        target range = .ok R ∧
      fromENDF K lib tables reactions initialBreitWigner initial neutronMass elementaryCharge incident
        target { range with lower := l, upper := u } = .ok R' ∧
      ∀ E, 0 < E → range.lower ≤ E ∧ E ≤ range.upper → l ≤ E ∧ E ≤ u → (∃ a, 0 < a ∧ channel E = .ok a) →
        (∃ b, scattering E = .ok b) →
        ∃ m m' R₁ R₁', R.call K lib E = .ok (m, R₁) ∧ R'.call K lib E = .ok (m', R₁') ∧
          SameCrossSections m m' := by
  obtain rfl : constantAverages p range.lower range.upper = d := by
    rw [hp] at hd
    exact Option.some.inj hd
  have h' := constantAverages_physical hlu h
  obtain ⟨R, h1, h2⟩ := C67_accepted (K := K) (lib := lib) (reactions := reactions)
    (initialBreitWigner := initialBreitWigner) (initial := initial) (elementaryCharge := elementaryCharge)
    (incident := incident) (target := target) hmakes hc htype
    (d := constantAverages p range.lower range.upper) (by rw [hp]; rfl) ht h hr
  obtain ⟨R', h3, h4⟩ := C67_accepted (K := K) (lib := lib) (reactions := reactions)
    (initialBreitWigner := initialBreitWigner) (initial := initial) (elementaryCharge := elementaryCharge)
    (incident := incident) (target := target) (range := { range with lower := l, upper := u }) hmakes hc htype
    (d := constantAverages p l u) (by dsimp only; rw [hp]; rfl) ht h' hr
  have cover : ∀ {lo up E : ℝ}, lo ≤ E ∧ E ≤ up → ∀ g ∈ (constantAverages p lo up).groups,
      (∃ r ∈ g.rows, r.energy ≤ E) ∧ ∃ r ∈ g.rows, E ≤ r.energy := by
    intro lo up E hE g hg
    obtain ⟨lv, hlv, hg⟩ := List.mem_flatMap.mp hg
    obtain ⟨j, hj, rfl⟩ := List.mem_map.mp hg
    exact ⟨⟨_, List.mem_cons_self, hE.1⟩, _, List.mem_cons_of_mem _ List.mem_cons_self, hE.2⟩
  refine ⟨R, R', h1, h3, fun E h0 hE hE' ha hb => ?_⟩
  obtain ⟨⟨m, R₁⟩, h5⟩ := h2 E h0 ha hb (cover hE)
  obtain ⟨⟨m', R₁'⟩, h6⟩ := h4 E h0 ha hb (cover hE')
  refine ⟨m, m', R₁, R₁', h5, h6, C95_constant hp h1 h3
    (fun lv hlv => h.awri.2 _ (List.mem_map.mpr ⟨lv, hlv, rfl⟩)) hc ?_ hE hE' h5 h6⟩
  obtain ⟨a, b, hab, -⟩ := hr
  rw [rel_isSome ht, hab]
  simp

/-! ## Forms -/

/-- C96: two forms of the same average parameters give the same cross sections. -/
theorem C96_forms {q : Endf.Parameters} {d : AverageParameters}
    (hR : fromENDF K lib tables reactions initialBreitWigner initial neutronMass elementaryCharge incident
      target range = .ok R)
    (hR' : fromENDF K lib tables reactions initialBreitWigner initial neutronMass elementaryCharge incident
      target { range with parameters := q } = .ok R')
    (hd : averageParameters range.lower range.upper range.parameters = some d)
    (hd' : averageParameters range.lower range.upper q = some d)
    (hA : ∀ awri ∈ d.awri, awri = A) (hc : Conforms .linLin tables.linLin)
    (hrows : ∀ g ∈ d.groups, (g.rows.map (·.energy)).Pairwise (· < ·))
    (hn : prescribedRadii range.scatteringRadius.isSome range.naps ≠ none)
    (hE : range.lower ≤ E ∧ E ≤ range.upper) (hm : R.call K lib E = .ok (m, R₁))
    (hm' : R'.call K lib E = .ok (m', R₁')) : SameCrossSections m m' :=
  unresolved_agree hR hR' hd hd' rfl rfl hA hA
    (List.forall₂_same.mpr fun g hg => ⟨rfl, rfl, rfl, fun _ _ => average_unique (hrows g hg)⟩) hc hn hE hE hm
    hm'

/-- Constant average parameters, written as parameters that depend on the energy. -/
def UnresolvedParameters.constantAsDependent (p : UnresolvedParameters UnresolvedConstantJ) (lower upper : ℝ) :
    UnresolvedParameters UnresolvedDependentJ :=
  ⟨p.spin, p.ap, p.energies, p.lValues.map fun lv => ⟨lv.l, lv.awri, lv.jValues.map fun j => ⟨j.spin,
    [⟨lower, j.spacing, j.neutronWidth, j.gammaWidth, j.fissionWidth, j.competitiveWidth⟩,
      ⟨upper, j.spacing, j.neutronWidth, j.gammaWidth, j.fissionWidth, j.competitiveWidth⟩], j.degrees⟩⟩⟩

/-- Constant average parameters, written as parameters of which the fission widths depend on the energy. -/
def UnresolvedParameters.constantAsFission (p : UnresolvedParameters UnresolvedConstantJ) (lower upper : ℝ) :
    UnresolvedParameters UnresolvedFissionJ :=
  ⟨p.spin, p.ap, [lower, upper], p.lValues.map fun lv => ⟨lv.l, lv.awri, lv.jValues.map fun j => ⟨j.spin,
    j.spacing, j.neutronWidth, j.gammaWidth, [j.fissionWidth, j.fissionWidth], j.competitiveWidth, j.degrees⟩⟩⟩

/-- Average parameters of which the fission widths depend on the energy, written as parameters that all may
depend on the energy. -/
def UnresolvedParameters.fissionAsDependent (p : UnresolvedParameters UnresolvedFissionJ) :
    UnresolvedParameters UnresolvedDependentJ :=
  ⟨p.spin, p.ap, p.energies, p.lValues.map fun lv => ⟨lv.l, lv.awri, lv.jValues.map fun j => ⟨j.spin,
    (p.energies.zip j.fissionWidths).map fun row =>
      ⟨row.1, j.spacing, j.neutronWidth, j.gammaWidth, row.2, j.competitiveWidth⟩, j.degrees⟩⟩⟩

/-- C96: the three forms can be converted into each other. -/
theorem C96_converted (lower upper : ℝ) :
    (∀ p, averageParameters lower upper (.unresolvedDependent (p.constantAsDependent lower upper)) =
      averageParameters lower upper (.unresolvedConstant p)) ∧
    (∀ p, averageParameters lower upper (.unresolvedFission (p.constantAsFission lower upper)) =
      averageParameters lower upper (.unresolvedConstant p)) ∧
    ∀ p, averageParameters lower upper (.unresolvedDependent p.fissionAsDependent) =
      averageParameters lower upper (.unresolvedFission p) := by
  refine ⟨fun p => ?_, fun p => ?_, fun p => ?_⟩ <;>
  · simp only [averageParameters, UnresolvedParameters.constantAsDependent,
      UnresolvedParameters.constantAsFission, UnresolvedParameters.fissionAsDependent, List.map_map,
      List.flatMap_map, Function.comp_def, List.zip_cons_cons, List.map_cons, List.zip_nil_right, List.map_nil]

/-- C96: rows that are interpolated between the others may be left out. -/
theorem C96_refined {q : Endf.Parameters} {d d' : AverageParameters}
    (hR : fromENDF K lib tables reactions initialBreitWigner initial neutronMass elementaryCharge incident
      target range = .ok R)
    (hR' : fromENDF K lib tables reactions initialBreitWigner initial neutronMass elementaryCharge incident
      target { range with parameters := q } = .ok R')
    (hd : averageParameters range.lower range.upper range.parameters = some d)
    (hd' : averageParameters range.lower range.upper q = some d') (hs : RefinedAverages d d')
    (hA : ∀ awri ∈ d.awri, awri = A) (hc : Conforms .linLin tables.linLin)
    (hrows : ∀ g ∈ d.groups, (g.rows.map (·.energy)).Pairwise (· < ·))
    (hrows' : ∀ g ∈ d'.groups, (g.rows.map (·.energy)).Pairwise (· < ·))
    (hn : prescribedRadii range.scatteringRadius.isSome range.naps ≠ none)
    (hE : range.lower ≤ E ∧ E ≤ range.upper) (hm : R.call K lib E = .ok (m, R₁))
    (hm' : R'.call K lib E = .ok (m', R₁')) : SameCrossSections m m' := by
  refine unresolved_agree hR hR' hd hd' hs.spin hs.ap hA (hs.awri ▸ hA) ?_ hc hn hE hE hm hm'
  have h := hs.groups
  clear hs hd hd' hA
  generalize d.groups = gs at h hrows
  generalize d'.groups = gs' at h hrows'
  induction h with
  | nil => exact .nil
  | cons h1 _ ih =>
    exact .cons (refined_agree h1 (hrows _ List.mem_cons_self) (hrows' _ List.mem_cons_self))
      (ih (fun g hg => hrows g (List.mem_cons_of_mem _ hg)) fun g hg => hrows' g (List.mem_cons_of_mem _ hg))

/-- C96: average parameters that make sense physically are accepted in every form, and give the same cross
sections. -/
theorem C96_accepted {q : Endf.Parameters} {d d' : AverageParameters}
    (hmakes : Makes tables.linLin) (hc : Conforms .linLin tables.linLin) (htype : range.type = 2)
    (hd : averageParameters range.lower range.upper range.parameters = some d)
    (hd' : averageParameters range.lower range.upper q = some d') (hs : d = d' ∨ RefinedAverages d d')
    (ht : Option.Rel (IsRadiusTable tables) range.scatteringRadius nro)
    (h : PhysicalAverages neutronMass A d) (h' : PhysicalAverages neutronMass A d')
    {channel scattering : ℝ → Outcome ℝ}
    (hr : IsRadii d.ap nro range.naps (A * neutronMass) channel scattering) :
    ∃ R R', fromENDF K lib tables reactions initialBreitWigner initial neutronMass elementaryCharge incident
        target range = .ok R ∧
      fromENDF K lib tables reactions initialBreitWigner initial neutronMass elementaryCharge incident
        target { range with parameters := q } = .ok R' ∧
      ∀ E, 0 < E → range.lower ≤ E ∧ E ≤ range.upper → (∃ a, 0 < a ∧ channel E = .ok a) →
        (∃ b, scattering E = .ok b) →
        (∀ g ∈ d.groups, (∃ r ∈ g.rows, r.energy ≤ E) ∧ ∃ r ∈ g.rows, E ≤ r.energy) →
        ∃ m m' R₁ R₁', R.call K lib E = .ok (m, R₁) ∧ R'.call K lib E = .ok (m', R₁') ∧
          SameCrossSections m m' := by
  have hap : d.ap = d'.ap := by
    rcases hs with rfl | hs
    · rfl
    · exact hs.ap
  obtain ⟨R, h1, h2⟩ := C67_accepted (K := K) (lib := lib) (reactions := reactions)
    (initialBreitWigner := initialBreitWigner) (initial := initial) (elementaryCharge := elementaryCharge)
    (incident := incident) (target := target) hmakes hc htype hd ht h hr
  obtain ⟨R', h3, h4⟩ := C67_accepted (K := K) (lib := lib) (reactions := reactions)
    (initialBreitWigner := initialBreitWigner) (initial := initial) (elementaryCharge := elementaryCharge)
    (incident := incident) (target := target) (range := { range with parameters := q }) hmakes hc htype hd'
    ht h' (hap ▸ hr)
  have hn : prescribedRadii range.scatteringRadius.isSome range.naps ≠ none := by
    obtain ⟨a, b, hab, -⟩ := hr
    rw [rel_isSome ht, hab]
    simp
  refine ⟨R, R', h1, h3, fun E h0 hE ha hb hrow => ?_⟩
  have hrow' : ∀ g ∈ d'.groups, (∃ r ∈ g.rows, r.energy ≤ E) ∧ ∃ r ∈ g.rows, E ≤ r.energy := by
    rcases hs with rfl | hs
    · exact hrow
    · intro g' hg'
      obtain ⟨g, hg, hgg⟩ := forall₂_mem_right hs.groups hg'
      obtain ⟨⟨r, hr, hr'⟩, s, hs, hs'⟩ := hrow g hg
      exact ⟨⟨r, hgg.kept r hr, hr'⟩, s, hgg.kept s hs, hs'⟩
  obtain ⟨⟨m, R₁⟩, h5⟩ := h2 E h0 ha hb hrow
  obtain ⟨⟨m', R₁'⟩, h6⟩ := h4 E h0 ha hb hrow'
  refine ⟨m, m', R₁, R₁', h5, h6, ?_⟩
  rcases hs with rfl | hs
  · exact C96_forms h1 h3 hd hd' h.awri.2 hc (fun g hg => (h.rows g hg).2) hn hE h5 h6
  · exact C96_refined h1 h3 hd hd' hs h.awri.2 hc (fun g hg => (h.rows g hg).2)
      (fun g hg => (h'.rows g hg).2) hn hE h5 h6

/-! ## Examples -/

namespace AveragesExample

open UnresolvedExample

/-- The example of C67 with a further row at 55 eV in the first table. -/
noncomputable def refined : UnresolvedParameters UnresolvedDependentJ :=
  ⟨0, 1 / 2, [], [⟨0, 10, [⟨1 / 2, [⟨1, 1, 1 / 1000, 1 / 20, 1 / 100, 1 / 10⟩,
    ⟨10, 2, 1 / 500, 1 / 20, 1 / 50, 1 / 5⟩, ⟨55, 5 / 2, 9 / 4000, 1 / 20, 1 / 50, 1 / 5⟩,
    ⟨100, 3, 1 / 400, 1 / 20, 1 / 50, 1 / 5⟩], ⟨1, 0, 2, 4⟩⟩]⟩,
    ⟨1, 10, [⟨3 / 2, [⟨1, 1, 1 / 1000, 1 / 20, 0, 0⟩, ⟨100, 2, 1 / 500, 1 / 20, 0, 0⟩], ⟨2, 0, 0, 0⟩⟩]⟩]⟩

noncomputable def refinedAverages : AverageParameters :=
  ⟨0, 1 / 2, [10, 10], [⟨0, 1 / 2, [⟨1, 1, 1 / 1000, 1 / 20, 1 / 100, 1 / 10⟩,
    ⟨10, 2, 1 / 500, 1 / 20, 1 / 50, 1 / 5⟩, ⟨55, 5 / 2, 9 / 4000, 1 / 20, 1 / 50, 1 / 5⟩,
    ⟨100, 3, 1 / 400, 1 / 20, 1 / 50, 1 / 5⟩], ⟨1, 0, 2, 4⟩⟩,
    ⟨1, 3 / 2, [⟨1, 1, 1 / 1000, 1 / 20, 0, 0⟩, ⟨100, 2, 1 / 500, 1 / 20, 0, 0⟩], ⟨2, 0, 0, 0⟩⟩]⟩

theorem refined_physical : PhysicalAverages 1 10 refinedAverages where
  mass := one_pos
  awri := by simp [refinedAverages]
  some := by simp [refinedAverages]
  distinct := by simp [refinedAverages]
  l := by simp [refinedAverages]
  degrees := by simp [refinedAverages]
  rows := by
    intro g hg
    simp only [refinedAverages, List.mem_cons, List.not_mem_nil, or_false] at hg
    rcases hg with rfl | rfl <;> norm_num
  widths := by
    intro g hg r hr
    simp only [refinedAverages, List.mem_cons, List.not_mem_nil, or_false] at hg
    rcases hg with rfl | rfl <;> simp only [List.mem_cons, List.not_mem_nil, or_false] at hr
    · rcases hr with rfl | rfl | rfl | rfl <;> norm_num
    · rcases hr with rfl | rfl <;> norm_num

/-- Interpolation between two rows that follow each other. -/
theorem interpolated_at {rows : List Unresolved.Resonance} (i : ℕ) {a b r : Unresolved.Resonance}
    (ha : rows[i]? = some a) (hb : rows[i + 1]? = some b) (h1 : a.energy ≤ r.energy) (h2 : r.energy ≤ b.energy)
    (hs : r.spacing = Law.between a.energy a.spacing b.energy b.spacing r.energy .linLin)
    (he : r.elastic = Law.between a.energy a.elastic b.energy b.elastic r.energy .linLin)
    (hc : r.capture = Law.between a.energy a.capture b.energy b.capture r.energy .linLin)
    (hf : r.fission = Law.between a.energy a.fission b.energy b.fission r.energy .linLin)
    (hx : r.competition = Law.between a.energy a.competition b.energy b.competition r.energy .linLin) :
    IsInterpolated rows r := by
  constructor <;>
  · refine ⟨i, a.energy, _, b.energy, _, ?_, ?_, h1, h2, ‹_›⟩ <;>
    · rw [List.zip_map', List.getElem?_map]
      simp only [ha, hb, Option.map_some]

theorem refines : RefinedAverages averages refinedAverages := by
  refine ⟨rfl, rfl, rfl, .cons ⟨rfl, rfl, rfl, ?_, ?_⟩ (.cons ⟨rfl, rfl, rfl, fun _ h => h, ?_⟩ .nil)⟩
  · intro r hr
    simp only [List.mem_cons, List.not_mem_nil, or_false] at hr ⊢
    tauto
  · intro r hr
    simp only [List.mem_cons, List.not_mem_nil, or_false] at hr
    rcases hr with rfl | rfl | rfl | rfl
    · exact interpolated_at 0 rfl rfl (by norm_num) (by norm_num) (by norm_num [Law.between])
        (by norm_num [Law.between]) (by norm_num [Law.between]) (by norm_num [Law.between])
        (by norm_num [Law.between])
    all_goals
      exact interpolated_at 1 rfl rfl (by norm_num) (by norm_num) (by norm_num [Law.between])
        (by norm_num [Law.between]) (by norm_num [Law.between]) (by norm_num [Law.between])
        (by norm_num [Law.between])
  · intro r hr
    simp only [List.mem_cons, List.not_mem_nil, or_false] at hr
    rcases hr with rfl | rfl <;>
      exact interpolated_at 0 rfl rfl (by norm_num) (by norm_num) (by norm_num [Law.between])
        (by norm_num [Law.between]) (by norm_num [Law.between]) (by norm_num [Law.between])
        (by norm_num [Law.between])

/-- The cross sections with and without the further row. -/
example :
    ∃ R R', fromENDF K lib library reactions initialBreitWigner initial 1 1 "n".toList "X".toList
        endfRange = .ok R ∧
      fromENDF K lib library reactions initialBreitWigner initial 1 1 "n".toList "X".toList
        { endfRange with parameters := .unresolvedDependent refined } = .ok R' ∧
      ∃ m m' R₁ R₁', R.call K lib 20 = .ok (m, R₁) ∧ R'.call K lib 20 = .ok (m', R₁') ∧
        SameCrossSections m m' := by
  obtain ⟨R, R', h1, h2, h3⟩ := C96_accepted (K := K) (lib := lib) (tables := library)
    (reactions := reactions) (initialBreitWigner := initialBreitWigner) (initial := initial)
    (elementaryCharge := 1) (incident := "n".toList) (target := "X".toList) (range := endfRange)
    (q := .unresolvedDependent refined) (d' := refinedAverages) linear_makes linear_conforms rfl averages_eq rfl
    (.inr refines) .none physical refined_physical (channel := fun _ => .ok (1 / 2))
    (scattering := fun _ => .ok (1 / 2)) (BreitWignerExample.radii _)
  refine ⟨R, R', h1, h2, h3 20 (by norm_num) ⟨by norm_num [endfRange], by norm_num [endfRange]⟩
    ⟨1 / 2, by norm_num, rfl⟩ ⟨1 / 2, rfl⟩ ?_⟩
  intro g hg
  simp only [averages, List.mem_cons, List.not_mem_nil, or_false] at hg
  rcases hg with rfl | rfl
  · exact ⟨⟨_, List.mem_cons_self, by norm_num⟩, ⟨100, 3, 1 / 400, 1 / 20, 1 / 50, 1 / 5⟩, by simp, by norm_num⟩
  · exact ⟨⟨_, List.mem_cons_self, by norm_num⟩, ⟨100, 2, 1 / 500, 1 / 20, 0, 0⟩, by simp, by norm_num⟩

/-- Constant average parameters for l = 0. -/
noncomputable def constant : UnresolvedParameters UnresolvedConstantJ :=
  ⟨0, 1 / 2, [], [⟨0, 10, [⟨1 / 2, 1, 1 / 1000, 1 / 20, 1 / 100, 1 / 10, ⟨1, 0, 2, 4⟩⟩]⟩]⟩

theorem constant_physical : PhysicalAverages 1 10 (constantAverages constant 1 100) := by
  refine ⟨one_pos, ?_, ?_, ?_, ?_, ?_, ?_, ?_⟩ <;> norm_num [constant, constantAverages]

/-- Constant parameters in two forms. -/
example :
    let range : Range := ⟨1, 100, 2, 1, 1, none, .unresolvedConstant constant⟩
    ∃ R R', fromENDF K lib library reactions initialBreitWigner initial 1 1 "n".toList "X".toList
        range = .ok R ∧
      fromENDF K lib library reactions initialBreitWigner initial 1 1 "n".toList "X".toList
        { range with parameters := .unresolvedDependent (constant.constantAsDependent 1 100) } = .ok R' ∧
      ∃ m m' R₁ R₁', R.call K lib 20 = .ok (m, R₁) ∧ R'.call K lib 20 = .ok (m', R₁') ∧
        SameCrossSections m m' := by
  intro range
  obtain ⟨R, R', h1, h2, h3⟩ := C96_accepted (K := K) (lib := lib) (tables := library)
    (reactions := reactions) (initialBreitWigner := initialBreitWigner) (initial := initial)
    (elementaryCharge := 1) (incident := "n".toList) (target := "X".toList) (range := range)
    (q := .unresolvedDependent (constant.constantAsDependent 1 100))
    (d := constantAverages constant 1 100) (d' := constantAverages constant 1 100) linear_makes
    linear_conforms rfl rfl ((C96_converted 1 100).1 constant) (.inl rfl) .none constant_physical
    constant_physical (channel := fun _ => .ok (1 / 2)) (scattering := fun _ => .ok (1 / 2))
    (BreitWignerExample.radii _)
  refine ⟨R, R', h1, h2, h3 20 (by norm_num) ⟨by norm_num [range], by norm_num [range]⟩
    ⟨1 / 2, by norm_num, rfl⟩ ⟨1 / 2, rfl⟩ ?_⟩
  norm_num [constant, constantAverages]

/-- Constant parameters with other bounds. -/
example :
    let range : Range := ⟨1, 100, 2, 1, 1, none, .unresolvedConstant constant⟩
    ∃ R R', fromENDF K lib library reactions initialBreitWigner initial 1 1 "n".toList "X".toList
        range = .ok R ∧
      fromENDF K lib library reactions initialBreitWigner initial 1 1 "n".toList "X".toList
        { range with lower := 10, upper := 1000 } = .ok R' ∧
      ∃ m m' R₁ R₁', R.call K lib 20 = .ok (m, R₁) ∧ R'.call K lib 20 = .ok (m', R₁') ∧
        SameCrossSections m m' := by
  intro range
  obtain ⟨R, R', h1, h2, h3⟩ := C95_constant_accepted (K := K) (lib := lib) (tables := library)
    (reactions := reactions) (initialBreitWigner := initialBreitWigner) (initial := initial)
    (elementaryCharge := 1) (incident := "n".toList) (target := "X".toList) (range := range)
    (l := 10) (u := 1000) linear_makes linear_conforms rfl rfl (by norm_num) .none rfl constant_physical
    (channel := fun _ => .ok (1 / 2)) (scattering := fun _ => .ok (1 / 2)) (BreitWignerExample.radii _)
  exact ⟨R, R', h1, h2, h3 20 (by norm_num) ⟨by norm_num [range], by norm_num [range]⟩
    ⟨by norm_num, by norm_num⟩ ⟨1 / 2, by norm_num, rfl⟩ ⟨1 / 2, rfl⟩⟩

/-- The Breit-Wigner range of the example of C65, split at 3 eV. -/
example (multi : Bool) (tables : InterpolationLibrary) :
    ∃ R below above, fromENDF K lib tables reactions initialBreitWigner initial 1 1 "n".toList "X".toList
        (BreitWignerExample.endfRange multi) = .ok R ∧
      fromENDF K lib tables reactions initialBreitWigner initial 1 1 "n".toList "X".toList
        { BreitWignerExample.endfRange multi with upper := 3 } = .ok below ∧
      fromENDF K lib tables reactions initialBreitWigner initial 1 1 "n".toList "X".toList
        { BreitWignerExample.endfRange multi with lower := 3 } = .ok above ∧
      ∃ m, reported K lib R 2 = .ok m ∧ reported K lib below 2 = .ok m := by
  obtain ⟨R, R', h1, _, h3⟩ := C93_breit_wigner_accepted (K := K) (lib := lib) (tables := tables)
    (reactions := reactions) (initialBreitWigner := initialBreitWigner) (initial := initial)
    (elementaryCharge := 1) (incident := "n".toList) (target := "X".toList)
    (range := BreitWignerExample.endfRange multi) (multi := multi) ⟨rfl, rfl⟩ rfl .none
    BreitWignerExample.physical (BreitWigner.reversed_same _) (by simp [BreitWignerExample.evaluation])
  obtain ⟨m, m', R₁, R₁', h4, -⟩ := h3 2 (by norm_num) (by norm_num [BreitWignerExample.endfRange])
    (BreitWignerExample.hasRadii 2)
  obtain ⟨below, above, k1, k2, k3, -⟩ := C95_split (c := 3)
    (by cases multi <;> simp [BreitWignerExample.endfRange]) (by norm_num [BreitWignerExample.endfRange])
    (by norm_num [BreitWignerExample.endfRange]) h1
  have hm : reported K lib R 2 = .ok m := by
    unfold reported
    rw [h4]
    rfl
  exact ⟨R, below, above, h1, k1, k2, m, hm,
    (k3 2 (by norm_num [BreitWignerExample.endfRange]) (by norm_num)).trans hm⟩

end AveragesExample

end Verif.Endf
