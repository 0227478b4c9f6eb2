import Verif.Lemmas.Competition

/-!
# Property C71: competitive widths

Below the threshold of the competitive reaction there is no competition. Neither generation of the code
looks at the sign of the energy of the competitive channel.
-/

namespace Verif.Endf

open Spec

variable {K : Constants} {lib : CoulombLibrary} {tables : InterpolationLibrary}
  {initialBreitWigner : Channel → Verif.BreitWigner.Cache} {neutronMass E : ℝ} {incident target : Str}
  {reactions : ReactionLibrary} {initial : (g : SpinGroup) → MatrixCache g.channels.length}
  {elementaryCharge : ℝ} {range range' : Range} {R R' R₁ R₁' : Reconstructor} {m m' : ReactionMap}
  {nro : Option (ℝ → Outcome ℝ)} {multi : Bool} {p : BreitWigner}

theorem rel_unique {radius : Option ScatteringRadius} {nro nro' : Option (ℝ → Outcome ℝ)}
    (h : Option.Rel (IsRadiusTable tables) radius nro) (h' : Option.Rel (IsRadiusTable tables) radius nro') :
    nro = nro' :=
  Except.ok.inj ((radiusTable_of h).symm.trans (radiusTable_of h'))

theorem waveConstant_pos (K : Constants) (h : 0 < neutronMass) : 0 < waveConstant K.hbar neutronMass := by
  have := K.hbar_pos
  unfold waveConstant
  positivity

/-- The resonances of an l value of the newer code. -/
theorem eased_waves {naps : ℤ} (h : PhysicalBreitWigner neutronMass nro naps p)
    (hr : HasRadii neutronMass nro naps p E) (hE : E ≠ 0) {c : ℝ} (hc : 0 < c) {lv : BreitWignerLValue}
    (hlv : lv ∈ p.lValues) {channel scattering channel' scattering' : ℝ → Outcome ℝ}
    {w w' : Wave} {as bs : List Assigned}
    (hi : IsRadii p.ap nro naps (lv.awri * neutronMass) channel scattering)
    (hi' : IsRadii p.ap nro naps (lv.awri * neutronMass) channel' scattering')
    (hw : IsPartialWave (neutronWaveNumber c lv.awri) channel scattering E lv w as)
    (hw' : IsPartialWave (neutronWaveNumber c lv.awri) channel' scattering' E (noCompetition lv) w' bs) :
    List.Forall₂ (Eased w.q) as bs ∧ 0 < w.p ∧ w.p = w'.p ∧ w.s = w'.s ∧
      (lv.lrx ≠ 0 → E ≠ lv.qx → ∀ r ∈ lv.resonances, 0 < r.neutronWidth → 0 < r.competitiveWidth →
        ∃ a ∈ as, 0 < a.parameters.elastic ∧
          0 < a.parameters.competition * w.q / a.parameters.competitivePenetrability) := by
  have hA := h.awri lv hlv
  obtain ⟨c1, s1, i1, hres⟩ := h.radii lv hlv
  obtain ⟨c2, s2, i2, ⟨x, hx0, hx⟩, ⟨y, hy0, hy⟩, -⟩ := hr lv hlv
  have hch : ∀ e, channel e = channel' e := fun e => (isRadii_unique (e := e) hi hi').1
  have hc1 : ∀ e, c1 e = channel e := fun e => (isRadii_unique (e := e) i1 hi).1
  have hc2 : ∀ e, c2 e = channel e := fun e => (isRadii_unique (e := e) i2 hi).1
  have hq0 : 0 ≤ w.q := by
    obtain ⟨z, hz, hq⟩ := hw.competitive
    rw [← hc2, hy] at hz
    obtain rfl := Except.ok.inj hz
    rw [hq, ← penetration_eq (mul_nonneg (neutronWaveNumber_nonneg hc hA _) hy0.le)]
    exact Old.penetration_nonneg _ _
  have hcp : ∀ r ∈ lv.resonances, ∀ a, IsResonance (neutronWaveNumber c lv.awri) channel lv r a →
      lv.lrx ≠ 0 → 0 < a.parameters.competitivePenetrability := by
    intro r hr a ha hx
    obtain ⟨z, hz, e⟩ := ha.competitive hx
    obtain ⟨-, -, hz'⟩ := hres r hr
    obtain ⟨hne, b, hb0, hb⟩ := hz' hx
    rw [← hc1, hb] at hz
    obtain rfl := Except.ok.inj hz
    rw [e]
    exact Old.hardSphere_pos (mul_pos (positiveWaveNumber hc hA hne) hb0) _
  have hload : ∀ r ∈ lv.resonances, ∀ a, IsResonance (neutronWaveNumber c lv.awri) channel lv r a →
      0 ≤ a.parameters.competition * w.q / a.parameters.competitivePenetrability := by
    intro r hr a ha
    by_cases hx : lv.lrx = 0
    · rw [ha.competition, if_pos hx]
      simp
    · have h1 := hcp r hr a ha hx
      have h2 := (h.widths lv hlv r hr).2.2.2
      rw [ha.competition, if_neg hx]
      positivity
  obtain ⟨x1, e1, e2, e3⟩ := hw.own
  obtain ⟨x2, e4, e5, e6⟩ := hw'.own
  rw [← hch, e1] at e4
  obtain rfl := Except.ok.inj e4
  refine ⟨?_, ?_, e2.trans e5.symm, e3.trans e6.symm, ?_⟩
  · refine eased_list lv.resonances hw.resonances hw'.resonances fun r hr a b ha hb => ?_
    obtain ⟨y1, f1, f2, f3⟩ := ha.own
    obtain ⟨y2, f4, f5, f6⟩ := hb.own
    rw [← hch] at f4
    have f4 : channel r.energy = .ok y2 := f4
    rw [f1] at f4
    obtain rfl := Except.ok.inj f4
    obtain ⟨w1, w2, w3, w4⟩ := h.widths lv hlv r hr
    refine ⟨ha.J.trans hb.J.symm, ha.energy.trans hb.energy.symm, ha.elastic.trans hb.elastic.symm,
      ha.capture.trans hb.capture.symm, ha.fission.trans hb.fission.symm, f2.trans f5.symm,
      f3.trans f6.symm, ?_, ?_, ⟨?_, ?_, ?_, ?_⟩, hload r hr a ha⟩
    · rw [hb.competition]
      split <;> rfl
    · rw [ha.J]
      exact abs_nonneg _
    · rw [ha.elastic]
      exact w1
    · rw [ha.capture]
      exact w2
    · rw [ha.fission]
      exact w3
    · obtain ⟨hne, ⟨b', hb0, hb'⟩, -⟩ := hres r hr
      rw [← hc1, hb'] at f1
      obtain rfl := Except.ok.inj f1
      rw [f2]
      exact Old.hardSphere_pos (mul_pos (positiveWaveNumber hc hA hne) hb0) _
  · rw [← hc2, hx] at e1
    obtain rfl := Except.ok.inj e1
    rw [e2]
    exact Old.hardSphere_pos (mul_pos (positiveWaveNumber hc hA hE) hx0) _
  · intro hlrx hqx r hr hn hcw
    obtain ⟨a, ha, har⟩ := forall₂_left hw.resonances hr
    refine ⟨a, ha, by rw [har.elastic]; exact hn, ?_⟩
    have h1 := hcp r hr a har hlrx
    rw [har.competition, if_neg hlrx]
    have hq : 0 < w.q := by
      obtain ⟨z, hz, hq⟩ := hw.competitive
      rw [← hc2, hy] at hz
      obtain rfl := Except.ok.inj hz
      rw [hq]
      exact Old.hardSphere_pos (mul_pos (positiveWaveNumber hc hA (sub_ne_zero.mpr hqx)) hy0) _
    positivity

theorem capture_le {naps : ℤ} (h : PhysicalBreitWigner neutronMass nro naps p)
    (hr : HasRadii neutronMass nro naps p E) (hE : E ≠ 0) {ws ws' : List (Wave × List Assigned)}
    {m m' : LegacyID → Option ℝ}
    (hm : IsBreitWigner K neutronMass E incident target nro naps multi p ws m)
    (hm' : IsBreitWigner K neutronMass E incident target nro naps multi (withoutCompetition p) ws' m') :
    ∃ v v', m ⟨incident, target, .capture⟩ = some v ∧ m' ⟨incident, target, .capture⟩ = some v' ∧
      v ≤ v' ∧ ((∃ lv ∈ p.lValues, lv.lrx ≠ 0 ∧ E ≠ lv.qx ∧
        ∃ r ∈ lv.resonances, 0 < r.neutronWidth ∧ 0 < r.competitiveWidth) → v < v') := by
  have hc := waveConstant_pos K h.mass
  have hI : 0 ≤ p.spin := by
    obtain ⟨n, hn⟩ := h.spin
    rw [hn]
    positivity
  refine ⟨_, _, hm.capture, hm'.capture, ?_⟩
  have key : ∀ lv ∈ p.lValues, lv.resonances ≠ [] → ∀ w w' : Wave × List Assigned,
      (if lv.resonances = [] then w.2 = [] else lv.l ≤ 4 ∧
        ∃ channel scattering, IsRadii p.ap nro naps (lv.awri * neutronMass) channel scattering ∧
          IsPartialWave (neutronWaveNumber (waveConstant K.hbar neutronMass) lv.awri) channel scattering E
            lv w.1 w.2) →
      (if (noCompetition lv).resonances = [] then w'.2 = [] else lv.l ≤ 4 ∧
        ∃ channel scattering, IsRadii p.ap nro naps (lv.awri * neutronMass) channel scattering ∧
          IsPartialWave (neutronWaveNumber (waveConstant K.hbar neutronMass) lv.awri) channel scattering E
            (noCompetition lv) w'.1 w'.2) →
      captureSum p.spin E w.1 w.2 ≤ captureSum p.spin E w'.1 w'.2 ∧
      ((lv.lrx ≠ 0 ∧ E ≠ lv.qx ∧ ∃ r ∈ lv.resonances, 0 < r.neutronWidth ∧ 0 < r.competitiveWidth) →
        captureSum p.spin E w.1 w.2 < captureSum p.spin E w'.1 w'.2) := by
    intro lv hlv hne w w' hw hw'
    rw [if_neg hne] at hw
    rw [if_neg (by simpa [noCompetition] using hne)] at hw'
    obtain ⟨-, channel, scattering, g1, g2⟩ := hw
    obtain ⟨-, channel', scattering', g3, g4⟩ := hw'
    obtain ⟨k1, k2, k3, k4, k5⟩ := eased_waves h hr hE hc hlv g1 g3 g2 g4
    obtain ⟨l1, l2⟩ := captureSum_le k1 hI E k2 k3 k4
    exact ⟨l1, fun ⟨q1, q2, r, q3, q4, q5⟩ => l2 (k5 q1 q2 r q3 q4 q5)⟩
  have hpos : ∀ lv ∈ p.lValues,
      0 < Real.pi / neutronWaveNumber (waveConstant K.hbar neutronMass) lv.awri E ^ 2 := by
    intro lv hlv
    have := positiveWaveNumber hc (h.awri lv hlv) hE
    have := Real.pi_pos
    positivity
  obtain ⟨z1, z2⟩ := zip_sum (f := fun lv w =>
      Real.pi / neutronWaveNumber (waveConstant K.hbar neutronMass) lv.awri E ^ 2
        * captureSum p.spin E w.1 w.2)
    (g := fun lv w => Real.pi / neutronWaveNumber (waveConstant K.hbar neutronMass) lv.awri E ^ 2
        * captureSum p.spin E w.1 w.2) hm.waves hm'.waves (by
      intro lv hlv w w' hw hw'
      by_cases hne : lv.resonances = []
      · rw [if_pos hne] at hw
        rw [if_pos (by simpa [noCompetition] using hne)] at hw'
        rw [hw, hw']
        simp [captureSum]
      · exact mul_le_mul_of_nonneg_left (key lv hlv hne w w' hw hw').1 (hpos lv hlv).le)
  refine ⟨z1, fun ⟨lv, hlv, g1, g2, r, g3, g4⟩ => z2 ⟨lv, hlv, fun w w' hw hw' => ?_⟩⟩
  exact mul_lt_mul_of_pos_left
    ((key lv hlv (List.ne_nil_of_mem g3) w w' hw hw').2 ⟨g1, g2, r, g3, g4⟩) (hpos lv hlv)

/-- C71: in the newer code a competitive width never increases the capture cross section, and it reduces it
at every energy except zero and QX, be it above or below the threshold. -/
theorem C71_reduces
    (hR : fromENDF K lib tables reactions initialBreitWigner initial neutronMass elementaryCharge incident
      target range = .ok R)
    (hR' : fromENDF K lib tables reactions initialBreitWigner initial neutronMass elementaryCharge incident
      target { range with parameters :=
        if multi then .multiLevel (withoutCompetition p) else .singleLevel (withoutCompetition p) } = .ok R')
    (hp : range.parameters = if multi then .multiLevel p else .singleLevel p)
    (hn : prescribedRadii range.scatteringRadius.isSome range.naps ≠ none)
    (hE : range.lower ≤ E ∧ E ≤ range.upper) (hm : R.call K lib E = .ok (m, R₁))
    (hm' : R'.call K lib E = .ok (m', R₁'))
    (ht : Option.Rel (IsRadiusTable tables) range.scatteringRadius nro)
    (h : PhysicalBreitWigner neutronMass nro range.naps p)
    (hr : HasRadii neutronMass nro range.naps p E) (hE0 : E ≠ 0) :
    ∃ v v', m (.inr ⟨incident, target, .capture⟩) = some v ∧
      m' (.inr ⟨incident, target, .capture⟩) = some v' ∧ v ≤ v' ∧
      ((∃ lv ∈ p.lValues, lv.lrx ≠ 0 ∧ E ≠ lv.qx ∧
        ∃ r ∈ lv.resonances, 0 < r.neutronWidth ∧ 0 < r.competitiveWidth) → v < v') := by
  obtain ⟨n1, ws, t1, g1, -⟩ := C65_cross_sections hR hp hn hE hm
  obtain ⟨n2, ws', t2, g2, -⟩ := C65_cross_sections (multi := multi) hR' rfl hn hE hm'
  obtain rfl := rel_unique ht t1
  obtain rfl := rel_unique ht t2
  exact capture_le h hr hE0 g1 g2

/-- C71, the claim: below the threshold of the competitive reaction the competitive widths have no
effect. -/
def C71_claim : Prop :=
  ∀ (K : Constants) (lib : CoulombLibrary) (tables : InterpolationLibrary) (reactions : ReactionLibrary)
    (initialBreitWigner : Channel → Verif.BreitWigner.Cache)
    (initial : (g : SpinGroup) → MatrixCache g.channels.length) (neutronMass elementaryCharge E : ℝ)
    (incident target : Str) (range : Range) (nro : Option (ℝ → Outcome ℝ)) (multi : Bool) (p : BreitWigner)
    (R R' R₁ R₁' : Reconstructor) (m m' : ReactionMap),
    range.parameters = (if multi then .multiLevel p else .singleLevel p) →
    Option.Rel (IsRadiusTable tables) range.scatteringRadius nro →
    PhysicalBreitWigner neutronMass nro range.naps p → HasRadii neutronMass nro range.naps p E →
    fromENDF K lib tables reactions initialBreitWigner initial neutronMass elementaryCharge incident
      target range = .ok R →
    fromENDF K lib tables reactions initialBreitWigner initial neutronMass elementaryCharge incident
      target { range with parameters :=
        if multi then .multiLevel (withoutCompetition p) else .singleLevel (withoutCompetition p) } = .ok R' →
    range.lower ≤ E ∧ E ≤ range.upper → 0 < E → R.call K lib E = .ok (m, R₁) →
    R'.call K lib E = .ok (m', R₁') →
    (∀ lv ∈ p.lValues, lv.lrx ≠ 0 → competitiveEnergy lv E < 0) →
    m (.inr ⟨incident, target, .capture⟩) = m' (.inr ⟨incident, target, .capture⟩)

theorem _root_.Verif.Spec.PhysicalBreitWigner.closed {naps : ℤ}
    (h : PhysicalBreitWigner neutronMass nro naps p) :
    PhysicalBreitWigner neutronMass nro naps (withoutCompetition p) where
  mass := h.mass
  spin := h.spin
  some := by
    obtain ⟨lv, h1, h2⟩ := h.some
    exact ⟨_, List.mem_map_of_mem h1, by simpa [noCompetition] using h2⟩
  distinct := by
    have := h.distinct
    unfold withoutCompetition
    rw [List.map_map]
    exact this
  awri := by
    intro lv hlv
    obtain ⟨lv, hlv', rfl⟩ := List.mem_map.mp hlv
    replace hlv := hlv'
    exact h.awri lv hlv
  l := by
    intro lv hlv hne
    obtain ⟨lv, hlv', rfl⟩ := List.mem_map.mp hlv
    replace hlv := hlv'
    have := h.l lv hlv (by simpa [noCompetition] using hne)
    simpa [withoutCompetition, noCompetition] using this
  spins := by
    intro lv hlv r hr
    obtain ⟨lv, hlv', rfl⟩ := List.mem_map.mp hlv
    replace hlv := hlv'
    obtain ⟨r, hr₀, rfl⟩ := List.mem_map.mp hr
    replace hr := hr₀
    exact h.spins lv hlv r hr
  signs := by
    intro lv hlv r hr r' hr'
    obtain ⟨lv, hlv', rfl⟩ := List.mem_map.mp hlv
    replace hlv := hlv'
    obtain ⟨r, hr₀, rfl⟩ := List.mem_map.mp hr
    replace hr := hr₀
    obtain ⟨r', hr₁, rfl⟩ := List.mem_map.mp hr'
    replace hr' := hr₁
    exact h.signs lv hlv r hr r' hr'
  widths := by
    intro lv hlv r hr
    obtain ⟨lv, hlv', rfl⟩ := List.mem_map.mp hlv
    replace hlv := hlv'
    obtain ⟨r, hr₀, rfl⟩ := List.mem_map.mp hr
    replace hr := hr₀
    obtain ⟨h1, h2, h3, -⟩ := h.widths lv hlv r hr
    exact ⟨h1, h2, h3, le_refl _⟩
  radii := by
    intro lv hlv
    obtain ⟨lv, hlv', rfl⟩ := List.mem_map.mp hlv
    replace hlv := hlv'
    obtain ⟨channel, scattering, h1, h2⟩ := h.radii lv hlv
    refine ⟨channel, scattering, h1, fun r hr => ?_⟩
    obtain ⟨r, hr₀, rfl⟩ := List.mem_map.mp hr
    replace hr := hr₀
    exact h2 r hr

theorem hasRadii_closed {naps : ℤ} (h : HasRadii neutronMass nro naps p E) :
    HasRadii neutronMass nro naps (withoutCompetition p) E := by
  intro lv hlv
  obtain ⟨lv, hlv', rfl⟩ := List.mem_map.mp hlv
  exact h lv hlv'

/-- Both evaluations are accepted and can be evaluated. -/
theorem C71_accepted (hm : range.type = 1 ∧ range.representation = if multi then 2 else 1)
    (hp : range.parameters = if multi then .multiLevel p else .singleLevel p)
    (ht : Option.Rel (IsRadiusTable tables) range.scatteringRadius nro)
    (h : PhysicalBreitWigner neutronMass nro range.naps p) (hE : E ≠ 0)
    (hr : HasRadii neutronMass nro range.naps p E) :
    ∃ R R' v v', fromENDF K lib tables reactions initialBreitWigner initial neutronMass elementaryCharge
        incident target range = .ok R ∧
      fromENDF K lib tables reactions initialBreitWigner initial neutronMass elementaryCharge incident
        target { range with parameters :=
          if multi then .multiLevel (withoutCompetition p) else .singleLevel (withoutCompetition p) }
          = .ok R' ∧
      R.call K lib E = .ok v ∧ R'.call K lib E = .ok v' := by
  obtain ⟨R, h1, h2⟩ := C65_accepted (K := K) (lib := lib) (reactions := reactions)
    (initialBreitWigner := initialBreitWigner) (initial := initial) (elementaryCharge := elementaryCharge)
    (incident := incident) (target := target) hm hp ht h
  obtain ⟨R', h3, h4⟩ := C65_accepted (K := K) (lib := lib) (reactions := reactions)
    (initialBreitWigner := initialBreitWigner) (initial := initial) (elementaryCharge := elementaryCharge)
    (incident := incident) (target := target) (range := { range with
      parameters := if multi then .multiLevel (withoutCompetition p) else .singleLevel (withoutCompetition p) })
    (multi := multi) hm rfl ht h.closed
  obtain ⟨v, hv⟩ := h2 E hE hr
  obtain ⟨v', hv'⟩ := h4 E hE (hasRadii_closed hr)
  exact ⟨R, R', v, v', h1, h3, hv, hv'⟩

/-! An l value with an s-wave and a p-wave resonance. The competitive reaction has its threshold at 110 eV,
the range goes from 1 to 20 eV. -/

namespace CompetitionExample

/-- The evaluation, with the flag of the s-wave resonance. -/
noncomputable def evaluation (lrx : ℤ) : BreitWigner :=
  ⟨0, 1 / 2, [⟨0, 10, -100, lrx, [⟨5, 1 / 2, 2, 1 / 5, 1 / 4, 1 / 10⟩]⟩,
    ⟨1, 10, 0, 0, [⟨7, 3 / 2, 1, 1 / 10, 0, 0⟩]⟩]⟩

theorem physical (lrx : ℤ) : Spec.PhysicalBreitWigner 1 none 1 (evaluation lrx) where
  mass := one_pos
  spin := ⟨0, by norm_num [evaluation]⟩
  some := ⟨_, List.mem_cons_self, by simp⟩
  distinct := by simp [evaluation]
  awri := by simp [evaluation]
  l := by simp [evaluation]
  spins := by
    intro lv hlv r hr
    simp only [evaluation, List.mem_cons, List.not_mem_nil, or_false] at hlv
    rcases hlv with rfl | rfl <;> simp only [List.mem_cons, List.not_mem_nil, or_false] at hr <;> subst hr
    · rw [abs_of_pos (by norm_num)]
      exact ⟨1 / 2, ⟨by norm_num [evaluation, abs_of_pos], by norm_num [evaluation],
        1, by norm_num [evaluation]⟩, by norm_num, by norm_num, 1, by norm_num⟩
    · rw [abs_of_pos (by norm_num)]
      exact ⟨1 / 2, ⟨by norm_num [evaluation, abs_of_pos], by norm_num [evaluation],
        1, by norm_num [evaluation]⟩, by norm_num [abs_of_pos], by norm_num, 3, by norm_num⟩
  signs := by
    intro lv hlv r hr r' hr' h
    simp only [evaluation, List.mem_cons, List.not_mem_nil, or_false] at hlv
    rcases hlv with rfl | rfl <;> simp only [List.mem_cons, List.not_mem_nil, or_false] at hr hr' <;>
      subst hr <;> subst hr' <;> rfl
  widths := by
    intro lv hlv r hr
    simp only [evaluation, List.mem_cons, List.not_mem_nil, or_false] at hlv
    rcases hlv with rfl | rfl <;> simp only [List.mem_cons, List.not_mem_nil, or_false] at hr <;>
      subst hr <;> norm_num
  radii := by
    intro lv hlv
    refine ⟨fun _ => .ok (1 / 2), fun _ => .ok (1 / 2), BreitWignerExample.radii _, fun r hr =>
      ⟨?_, ⟨1 / 2, by norm_num, rfl⟩, fun _ => ⟨?_, 1 / 2, by norm_num, rfl⟩⟩⟩
    all_goals
      simp only [evaluation, List.mem_cons, List.not_mem_nil, or_false] at hlv
      rcases hlv with rfl | rfl <;> simp only [List.mem_cons, List.not_mem_nil, or_false] at hr <;>
        subst hr <;> norm_num

theorem hasRadii (lrx : ℤ) (E : ℝ) : Spec.HasRadii 1 none 1 (evaluation lrx) E := fun _ _ =>
  ⟨fun _ => .ok (1 / 2), fun _ => .ok (1 / 2), BreitWignerExample.radii _, ⟨1 / 2, by norm_num, rfl⟩,
    ⟨1 / 2, by norm_num, rfl⟩, 1 / 2, rfl⟩

/-- The range, for either formalism. -/
noncomputable def endfRange (lrx : ℤ) (multi : Bool) : Range :=
  ⟨1, 20, 1, if multi then 2 else 1, 1, none,
    if multi then .multiLevel (evaluation lrx) else .singleLevel (evaluation lrx)⟩

theorem belowThreshold (lrx : ℤ) {E : ℝ} (h : E ≤ 20) :
    ∀ lv ∈ (evaluation lrx).lValues, lv.lrx ≠ 0 → competitiveEnergy lv E < 0 := by
  simp only [evaluation, List.mem_cons, List.not_mem_nil, or_false]
  rintro lv (rfl | rfl) hx
  · norm_num [competitiveEnergy]
    linarith
  · exact absurd rfl hx

/-- Capture is reduced in the whole range, which is below the threshold. -/
theorem reduced (K : Constants) (lib : CoulombLibrary) (tables : InterpolationLibrary)
    (reactions : ReactionLibrary) (initialBreitWigner : Channel → Verif.BreitWigner.Cache)
    (initial : (g : SpinGroup) → MatrixCache g.channels.length) (multi : Bool) {E : ℝ}
    {lrx : ℤ} (hx : lrx ≠ 0) (hE : 1 ≤ E ∧ E ≤ 20) :
    ∃ R R' m m' R₁ R₁' v v', fromENDF K lib tables reactions initialBreitWigner initial 1 1 ("n".toList)
        ("X".toList) (endfRange lrx multi) = .ok R ∧
      fromENDF K lib tables reactions initialBreitWigner initial 1 1 ("n".toList) ("X".toList)
        { endfRange lrx multi with
          parameters := if multi then .multiLevel (withoutCompetition (evaluation lrx))
            else .singleLevel (withoutCompetition (evaluation lrx)) } = .ok R' ∧
      R.call K lib E = .ok (m, R₁) ∧ R'.call K lib E = .ok (m', R₁') ∧
      m (.inr ⟨"n".toList, "X".toList, .capture⟩) = some v ∧
      m' (.inr ⟨"n".toList, "X".toList, .capture⟩) = some v' ∧ v < v' := by
  have h0 : E ≠ 0 := by linarith [hE.1]
  obtain ⟨R, R', ⟨m, R₁⟩, ⟨m', R₁'⟩, h1, h2, h3, h4⟩ := C71_accepted (K := K) (lib := lib) (tables := tables)
    (reactions := reactions) (initialBreitWigner := initialBreitWigner) (initial := initial)
    (elementaryCharge := 1) (incident := "n".toList) (target := "X".toList) (range := endfRange lrx multi)
    (multi := multi) ⟨rfl, rfl⟩ rfl .none (physical lrx) h0 (hasRadii lrx E)
  obtain ⟨v, v', k1, k2, -, k3⟩ := C71_reduces h1 h2 rfl (by unfold endfRange; simp [prescribedRadii])
    hE h3 h4 .none (physical lrx) (hasRadii lrx E) h0
  refine ⟨R, R', m, m', R₁, R₁', v, v', h1, h2, h3, h4, k1, k2, k3 ⟨_, List.mem_cons_self, hx, ?_,
    _, List.mem_cons_self, by norm_num, by norm_num⟩⟩
  dsimp only
  linarith [hE.1]

end CompetitionExample

/-- C71 does not hold for the newer code. -/
theorem C71_disproved : ¬ C71_claim := by
  intro h
  let K : Constants := ⟨1, 1, one_pos, one_pos⟩
  let lib : CoulombLibrary := fun _ _ _ => .error .throws
  let none : Unresolved.Interpolation := fun _ _ => .error .throws
  let tables : InterpolationLibrary := ⟨none, none, none, none, none, fun _ => .error .throws⟩
  let initial : (g : SpinGroup) → MatrixCache g.channels.length := fun _ => ⟨0, 0, 0⟩
  let initialBreitWigner : Channel → Verif.BreitWigner.Cache := fun _ => ⟨[], [], [], [], [], []⟩
  have hE : (1 : ℝ) ≤ 3 ∧ (3 : ℝ) ≤ 20 := by norm_num
  obtain ⟨R, R', m, m', R₁, R₁', v, v', h1, h2, h3, h4, h5, h6, h7⟩ := CompetitionExample.reduced K lib tables
    (fun _ _ _ => .error .throws) initialBreitWigner initial true (lrx := 1) one_ne_zero hE
  have := h K lib tables _ initialBreitWigner initial 1 1 3 _ _ (CompetitionExample.endfRange 1 true) .none true
    (CompetitionExample.evaluation 1) R R' R₁ R₁' m m' rfl .none (CompetitionExample.physical 1)
    (CompetitionExample.hasRadii 1 3) h1 h2 hE (by norm_num) h3 h4
    (CompetitionExample.belowThreshold 1 hE.2)
  rw [h5, h6] at this
  exact h7.ne (Option.some.inj this)

/-! ## Where the code agrees with the manual -/

theorem hardSphere_strictMono {l : ℕ} (hl : l ≤ 4) {a b : ℝ} (ha : 0 ≤ a) (hab : a < b) :
    (hardSphere a l).1 < (hardSphere b l).1 := by
  rcases ha.eq_or_lt with rfl | ha
  · have : (hardSphere 0 l).1 = 0 := by
      cases l with
      | zero => rfl
      | succ l => simp [hardSphere]
    rw [this]
    exact Old.hardSphere_pos hab l
  · refine C09_monotone (fun _ _ _ => .error .throws) l hl a b 0 _ _ ha hab ?_ ?_
    · rw [calculatePenetrability_eq _ hl, hardSphere_eq hl]
    · rw [calculatePenetrability_eq _ hl, hardSphere_eq hl]

/-- With a constant radius, the penetrability of the competitive channel at a positive energy is the one of
the manual exactly if QX is zero. -/
theorem competitive_iff {c a : ℝ} (hc : 0 < c) (ha : 0 < a) (hE : 0 < E) {lv : BreitWignerLValue}
    (hA : 0 < lv.awri) (hl : lv.l ≤ 4) :
    (hardSphere (neutronWaveNumber c lv.awri (E - lv.qx) * a) lv.l).1
      = competitivePenetrability (neutronWaveNumber c lv.awri) a lv E ↔ lv.qx = 0 := by
  have hk : 0 < c * (lv.awri / (lv.awri + 1)) := by positivity
  constructor
  · intro h
    unfold competitivePenetrability at h
    have h1 : (lv.awri + 1) / lv.awri = 1 + 1 / lv.awri := by field_simp
    have hA' : 0 < 1 / lv.awri := by positivity
    split at h
    · rename_i hneg
      unfold competitiveEnergy at hneg
      rw [h1] at hneg
      have hne : E - lv.qx ≠ 0 := by
        intro h0
        have h2 : lv.qx = E := by linarith
        rw [h2] at hneg
        nlinarith [mul_pos hE hA']
      have := Old.hardSphere_pos (mul_pos (positiveWaveNumber hc hA hne) ha) lv.l
      linarith
    · rename_i hnn
      have hnn := not_lt.mp hnn
      have e : neutronWaveNumber c lv.awri (E - lv.qx) * a
          = neutronWaveNumber c lv.awri (competitiveEnergy lv E) * a := by
        rcases lt_trichotomy (neutronWaveNumber c lv.awri (E - lv.qx) * a)
          (neutronWaveNumber c lv.awri (competitiveEnergy lv E) * a) with h2 | h2 | h2
        · exact absurd h (hardSphere_strictMono hl
            (mul_nonneg (neutronWaveNumber_nonneg hc hA _) ha.le) h2).ne
        · exact h2
        · exact absurd h (hardSphere_strictMono hl
            (mul_nonneg (neutronWaveNumber_nonneg hc hA _) ha.le) h2).ne'
      have e := mul_right_cancel₀ ha.ne' e
      unfold neutronWaveNumber at e
      have e := mul_left_cancel₀ hk.ne' e
      have e := (Real.sqrt_inj (abs_nonneg _) (abs_nonneg _)).mp e
      rw [abs_of_nonneg hnn] at e
      unfold competitiveEnergy at e
      rw [h1] at e
      rcases le_total 0 (E - lv.qx) with h3 | h3
      · rw [abs_of_nonneg h3] at e
        have : lv.qx * (2 + 1 / lv.awri) = 0 := by linarith
        rcases mul_eq_zero.mp this with h4 | h4
        · exact h4
        · linarith
      · rw [abs_of_nonpos h3] at e
        have : lv.qx * (1 / lv.awri) = -2 * E := by linarith
        have : 0 ≤ lv.qx * (1 / lv.awri) := mul_nonneg (by linarith) hA'.le
        linarith
  · intro h
    unfold competitivePenetrability competitiveEnergy
    rw [h]
    simp [hE.le]

/-- C71, the part that holds: the cross sections are those of the formula with the competitive
penetrability of the manual for the l values with QX = 0, and with another one for all others (constant
radius). -/
theorem C71_exact_partial
    (hR : fromENDF K lib tables reactions initialBreitWigner initial neutronMass elementaryCharge incident
      target range = .ok R)
    (hp : range.parameters = if multi then .multiLevel p else .singleLevel p)
    (hnro : range.scatteringRadius = none) (hnaps : range.naps = 1)
    (hE : range.lower ≤ E ∧ E ≤ range.upper) (hm : R.call K lib E = .ok (m, R₁))
    (hmass : 0 < neutronMass) (hA : ∀ lv ∈ p.lValues, 0 < lv.awri) (ha : 0 < p.ap) (hE0 : 0 < E) :
    ∃ ws, IsBreitWigner K neutronMass E incident target none range.naps multi p ws (fun id => m (.inr id)) ∧
      List.Forall₂ (fun lv w => lv.resonances ≠ [] → (w.1.q = competitivePenetrability
        (neutronWaveNumber (waveConstant K.hbar neutronMass) lv.awri) p.ap lv E ↔ lv.qx = 0)) p.lValues ws := by
  obtain ⟨n, ws, t, g, -⟩ := C65_cross_sections hR hp (by rw [hnro, hnaps]; simp [prescribedRadii]) hE hm
  have : n = none := by
    rw [hnro] at t
    cases t
    rfl
  subst this
  refine ⟨ws, g, ?_⟩
  have hw := g.waves
  clear g
  generalize p.lValues = lvs at hw hA
  induction hw with
  | nil => exact .nil
  | cons h1 _ ih =>
    refine .cons (fun hne => ?_) (ih fun lv hlv => hA lv (List.mem_cons_of_mem _ hlv))
    rw [if_neg hne] at h1
    obtain ⟨hl, channel, scattering, ⟨first, second, r1, r2⟩, r3⟩ := h1
    rw [hnaps] at r1
    cases r1
    obtain ⟨radius, c1, c2⟩ := r3.competitive
    have : radius = p.ap := Except.ok.inj (c1.symm.trans (r2 _).1)
    rw [c2, this]
    exact competitive_iff (waveConstant_pos K hmass) ha hE0 (hA _ List.mem_cons_self) hl

/-- The s wave of the example is not one with the penetrability of the manual. -/
example (K : Constants) (lib : CoulombLibrary) (tables : InterpolationLibrary)
    (reactions : ReactionLibrary) (initialBreitWigner : Channel → Verif.BreitWigner.Cache)
    (initial : (g : SpinGroup) → MatrixCache g.channels.length) (multi : Bool) :
    ∃ ws, List.Forall₂ (fun lv (w : Wave × List Assigned) => lv.resonances ≠ [] →
      (w.1.q = competitivePenetrability (neutronWaveNumber (waveConstant K.hbar 1) lv.awri) (1 / 2) lv 3
        ↔ lv.qx = 0)) (CompetitionExample.evaluation 1).lValues ws := by
  obtain ⟨R, -, m, -, R₁, -, -, -, h1, -, h2, -⟩ := CompetitionExample.reduced K lib tables reactions
    initialBreitWigner initial multi (lrx := 1) one_ne_zero (E := 3) (by norm_num)
  obtain ⟨ws, -, h⟩ := C71_exact_partial h1 (multi := multi) rfl rfl rfl
    ⟨by norm_num [CompetitionExample.endfRange], by norm_num [CompetitionExample.endfRange]⟩ h2 one_pos
    (by simp [CompetitionExample.evaluation]) (by norm_num [CompetitionExample.evaluation]) (by norm_num)
  exact ⟨ws, h⟩

end Verif.Endf
