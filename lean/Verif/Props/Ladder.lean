import Verif.Lemmas.Ladder
import Verif.Props.UnresolvedGrid

/-!
# Property C107: average cross sections are averages of Breit-Wigner cross sections
-/

namespace Verif

open MeasureTheory Filter Topology

namespace BreitWigner

variable {K : Constants} {lib : CoulombLibrary} {E : ℝ}

/-- **C107, the area of a resonance.** Move a single resonance through all positions, with the same widths at
the energy of the neutron. It can be evaluated everywhere under both formalisms. The integral of the capture
cross section over the position is `2π²/k² g Γn Γγ/Γ`, and similarly for fission. That of the elastic cross
section over a large interval around the energy of the neutron approaches `2π²/k² g Γn (Γn/Γ - 2 sin² φ)`. -/
theorem C107_area {channel : Channel} {qx p q s φ : ℝ} (hp : channel.penetrability K lib E = .ok p)
    (hq : if qx = 0 then q = p else channel.penetrability K lib (E - qx) = .ok q)
    (hs : channel.shiftFactor K lib E = .ok s) (hφ : channel.phaseShift K lib E = .ok φ)
    (hk : channel.waveNumber K E ≠ 0) {w : Data ℝ} {r : ℝ → Spec.Parameters} (hr : Spec.Ladder w p q s r)
    (hw : 0 < w.elastic + w.capture + w.fission + w.competition) (formalism : Formalism)
    (cache : ℝ → Cache) :
    ∃ σ : ℝ → LegacyMap,
      (∀ x, ∃ resonance g', Made (r x) resonance ∧
        evaluate K lib E formalism ⟨channel, [resonance], qx, cache x⟩ (fun _ => none) = .ok (σ x, g')) ∧
      let Γ := w.elastic + w.capture + w.fission + w.competition
      let F := 2 * Real.pi ^ 2 / channel.waveNumber K E ^ 2 * channel.spinFactor * w.elastic
      Integrable (fun x => (σ x (legacyID channel .capture)).getD 0) ∧
      ∫ x, (σ x (legacyID channel .capture)).getD 0 = F * (w.capture / Γ) ∧
      Integrable (fun x => (σ x (legacyID channel .fission)).getD 0) ∧
      ∫ x, (σ x (legacyID channel .fission)).getD 0 = F * (w.fission / Γ) ∧
      Tendsto (fun R => ∫ x in (E - R)..(E + R), (σ x (legacyID channel .elastic)).getD 0) atTop
        (𝓝 (F * (w.elastic / Γ - 2 * Real.sin φ ^ 2))) := by
  have hmade : ∀ x, ∃ resonance, Made (r x) resonance := by
    intro x
    obtain ⟨-, -, -, -, -, h1, h2⟩ := hr x
    exact ⟨_, if_neg (not_or.mpr ⟨h1, h2⟩)⟩
  choose R hR using hmade
  have htotal : ∀ x, (r x).totalWidth p q = w.elastic + w.capture + w.fission + w.competition := by
    intro x
    obtain ⟨-, h1, h2, h3, h4, -⟩ := hr x
    rw [Spec.Parameters.totalWidth, h1, h2, h3, h4]
  have hden : ∀ x, (r x).denominator E p q s
      = (E - x) ^ 2 + (w.elastic + w.capture + w.fission + w.competition) ^ 2 / 4 := by
    intro x
    rw [Spec.Parameters.denominator, htotal, (hr x).1]
  generalize hΓ : w.elastic + w.capture + w.fission + w.competition = Γ at htotal hden hw
  have hev : ∀ x, ∃ m g', evaluate K lib E .singleLevel ⟨channel, [R x], qx, cache x⟩ (fun _ => none)
      = .ok (m, g') := by
    intro x
    have hV : Values K lib (⟨channel, [R x], qx, cache x⟩ : SpinGroup) E p q s φ := by
      refine ⟨hp, ?_, hs, hφ, hk, ?_⟩
      · unfold SpinGroup.competitionPenetrability
        by_cases h : qx = 0
        · rw [if_pos h] at hq
          simp only [h, ne_eq, not_true_eq_false, if_false, hq]
        · rw [if_neg h] at hq
          simp only [ne_eq, h, not_false_eq_true, if_true, hq]
      · intro y hy
        obtain rfl := List.mem_singleton.mp hy
        rw [(made_values (hR x) E p q s).2.2.2.2.2, hden]
        positivity
    exact ⟨_, _, evaluateSLBW_of hV _⟩
  choose σ g' hσ using hev
  have hval : ∀ x, (σ x (legacyID channel .elastic)).getD 0
        = Real.pi / channel.waveNumber K E ^ 2 * channel.spinFactor * (r x).elasticTerm E p q s φ ∧
      (σ x (legacyID channel .capture)).getD 0
        = Real.pi / channel.waveNumber K E ^ 2 * channel.spinFactor * (r x).captureTerm E p q s ∧
      (σ x (legacyID channel .fission)).getD 0
        = Real.pi / channel.waveNumber K E ^ 2 * channel.spinFactor * (r x).fissionTerm E p q s := by
    intro x
    obtain ⟨p', q', s', φ', h1, h2, h3, h4, h5, h6, h7, -⟩ :=
      C57_single_level (xs := [r x]) (.cons (hR x) .nil) (hσ x)
    obtain rfl := Except.ok.inj (h1.symm.trans hp)
    obtain rfl := Except.ok.inj (h3.symm.trans hs)
    obtain rfl := Except.ok.inj (h4.symm.trans hφ)
    have hqq : q' = q := by
      by_cases h : qx = 0
      · rw [if_pos h] at hq
        simp only [h, if_true] at h2
        rw [h2, hq]
      · rw [if_neg h] at hq
        simp only [h, if_false] at h2
        exact Except.ok.inj (h2.symm.trans hq)
    subst hqq
    simp only [List.map_cons, List.map_nil, List.sum_cons, List.sum_nil, add_zero, Option.getD_none,
      zero_add] at h5 h6 h7
    refine ⟨by rw [h5, Option.getD_some], by rw [h6, Option.getD_some], ?_⟩
    rw [h7]
    split
    · rename_i h
      rw [h, mul_zero, Option.getD_none]
    · rw [Option.getD_some]
  have hcap : ∀ x, (σ x (legacyID channel .capture)).getD 0 = Real.pi / channel.waveNumber K E ^ 2
      * channel.spinFactor * (w.elastic * w.capture) * (1 / ((E - x) ^ 2 + Γ ^ 2 / 4)) := by
    intro x
    obtain ⟨-, h1, h2, h3, h4, -⟩ := hr x
    rw [(hval x).2.1, Spec.Parameters.captureTerm, hden, h1, h2]
    ring
  have hfis : ∀ x, (σ x (legacyID channel .fission)).getD 0 = Real.pi / channel.waveNumber K E ^ 2
      * channel.spinFactor * (w.elastic * w.fission) * (1 / ((E - x) ^ 2 + Γ ^ 2 / 4)) := by
    intro x
    obtain ⟨-, h1, h2, h3, h4, -⟩ := hr x
    rw [(hval x).2.2, Spec.Parameters.fissionTerm, hden, h1, h3]
    ring
  have hela : ∀ x, (σ x (legacyID channel .elastic)).getD 0
      = (Real.pi / channel.waveNumber K E ^ 2 * channel.spinFactor
          * (w.elastic ^ 2 - 2 * w.elastic * Γ * Real.sin φ ^ 2)
        + Real.pi / channel.waveNumber K E ^ 2 * channel.spinFactor
          * (2 * w.elastic * Real.sin (2 * φ)) * (E - x)) / ((E - x) ^ 2 + Γ ^ 2 / 4) := by
    intro x
    obtain ⟨h0, h1, h2, h3, h4, -⟩ := hr x
    rw [(hval x).1, Spec.Parameters.elasticTerm, hden, h1, htotal, h0]
    ring
  refine ⟨σ, fun x => ⟨R x, g' x, hR x, ?_⟩, ?_⟩
  · cases formalism with
    | singleLevel => exact hσ x
    | multiLevel =>
      rw [C34_one_resonance _ (by simp)]
      exact hσ x
  · simp only [hcap, hfis, hela]
    refine ⟨(integrable_lorentzian hw E).const_mul _, ?_, (integrable_lorentzian hw E).const_mul _, ?_, ?_⟩
    · rw [integral_const_mul, integral_lorentzian hw]
      ring
    · rw [integral_const_mul, integral_lorentzian hw]
      ring
    · convert tendsto_area hw E _ _ using 2
      field_simp

end BreitWigner

namespace Unresolved

open Spec

/-- **C107.** The contributions of an unresolved spin group are the averages of Breit-Wigner cross sections
over the positions and widths of a resonance: the integral over the position, divided by the mean spacing
of the levels, averaged over the fluctuations of the widths. For capture and fission this is exact; for elastic
scattering up to the accuracy of the quadrature in the interference with the potential scattering. -/
theorem C107_average {K : Constants} {lib : CoulombLibrary} {E : ℝ} {g g' : SpinGroup}
    {m m' : LegacyMap} (hu : Unsigned g.table.degrees) (htype : g.channel.type = .neutron)
    (hR : ∀ R, g.channel.radii.penetrability E = .ok R → 0 ≤ R)
    (hpar : ∀ t, g.table.call E = .ok t →
      0 ≤ t.elastic ∧ 0 ≤ t.capture ∧ 0 ≤ t.fission ∧ 0 ≤ t.competition)
    (h : g.evaluate K lib E m = .ok (m', g'))
    {qx q s : ℝ} (hs : g.channel.shiftFactor K lib E = .ok s) :
    ∃ P φ R t, g.channel.penetrability K lib E = .ok P ∧ g.channel.phaseShift K lib E = .ok φ ∧
      g.channel.radii.penetrability E = .ok R ∧ g.table.call E = .ok t ∧
      let Γn := g.table.degrees.elastic * t.elastic * Real.sqrt E
        * (P / (g.channel.waveNumber K E * R))
      let A := column (g.table.degrees.elastic - 1)
      let B := fluctuations t.fission g.table.degrees.fission
      let C := fluctuations t.competition g.table.degrees.competition
      let change := fun kind => (m' (legacyID g.channel kind)).getD 0
        - (m (legacyID g.channel kind)).getD 0
      ∀ (r : ℝ → ℝ → ℝ → ℝ → Parameters),
        (if qx = 0 then q = P else g.channel.penetrability K lib (E - qx) = .ok q) →
        (∀ a ∈ A, ∀ b ∈ B, ∀ c ∈ C, Ladder ⟨a.1 * Γn, t.capture, b.1 * t.fission, c.1 * t.competition⟩
          P q s (r a.1 b.1 c.1)) →
        ∀ (formalism : BreitWigner.Formalism) (cache : BreitWigner.Cache),
        ∃ (σ : ℝ → ℝ → ℝ → ℝ → LegacyMap) (elastic : ℝ → ℝ → ℝ → ℝ),
          (∀ a ∈ A, ∀ b ∈ B, ∀ c ∈ C,
            (∀ x, ∃ resonance g₁, BreitWigner.Made (r a.1 b.1 c.1 x) resonance ∧
              BreitWigner.evaluate K lib E formalism ⟨g.channel, [resonance], qx, cache⟩ (fun _ => none)
                = .ok (σ a.1 b.1 c.1 x, g₁)) ∧
            Integrable (fun x => (σ a.1 b.1 c.1 x (legacyID g.channel .capture)).getD 0) ∧
            Integrable (fun x => (σ a.1 b.1 c.1 x (legacyID g.channel .fission)).getD 0) ∧
            Tendsto (fun R => ∫ x in (E - R)..(E + R),
              (σ a.1 b.1 c.1 x (legacyID g.channel .elastic)).getD 0) atTop
              (𝓝 (elastic a.1 b.1 c.1))) ∧
          change .capture = average₃ A B C
            (fun a b c => ∫ x, (σ a b c x (legacyID g.channel .capture)).getD 0) / t.spacing ∧
          change .fission = average₃ A B C
            (fun a b c => ∫ x, (σ a b c x (legacyID g.channel .fission)).getD 0) / t.spacing ∧
          |change .elastic - average₃ A B C elastic / t.spacing|
            ≤ 1 / 500 * |2 * Real.pi ^ 2 / g.channel.waveNumber K E ^ 2
              * (g.channel.spinFactor / t.spacing) * Γn * (2 * Real.sin φ ^ 2)| := by
  obtain ⟨P, φ, R, t, v, hP, hφ, hr, ht, -, hk, hR0, hE, hD, hint, hm⟩ := evaluate_ok h
  obtain ⟨p2, p3, p4, p5⟩ := hpar t ht
  have hP0 : 0 ≤ P := BreitWigner.penetrability_nonneg htype hR hP
  have hR1 := hR R hr
  have hk0 : 0 ≤ g.channel.waveNumber K E := div_nonneg (Real.sqrt_nonneg _) K.hbar_pos.le
  have hn : 0 ≤ t.elastic * Real.sqrt E * (g.table.degrees.elastic * P
      / (g.channel.waveNumber K E * R)) := by positivity
  refine ⟨P, φ, R, t, hP, hφ, hr, ht, ?_⟩
  intro Γn A B C change r hq hladder formalism cache
  have eΓ : t.elastic * Real.sqrt E * (g.table.degrees.elastic * P / (g.channel.waveNumber K E * R))
      = Γn := by
    simp only [Γn]
    ring
  rw [eΓ] at hint hn
  simp only [eΓ] at hm
  obtain ⟨hin, hreg, hv⟩ := integrals_ok hu hint
  obtain ⟨-, hc⟩ := C37_constant hin
  have hA : ∀ p ∈ A, 0 < p.1 ∧ 0 ≤ p.2 := fun p hp => column_pos (by have := hin.1; have := hin.2.1; omega) hp
  have hfl : ∀ (width : ℝ) (n : ℕ), (width ≠ 0 → n ≤ 4) → ∀ p ∈ fluctuations width n, 0 ≤ p.1 := by
    intro width n hn p hp
    unfold fluctuations at hp
    split at hp
    · obtain rfl := List.mem_singleton.mp hp
      exact le_rfl
    · rename_i h0
      exact (column_pos (by have := hn h0; omega) hp).1.le
  have hB := hfl t.fission g.table.degrees.fission hin.2.2.1
  have hC := hfl t.competition g.table.degrees.competition hin.2.2.2
  have htot : ∀ a ∈ A, ∀ b ∈ B, ∀ c ∈ C,
      0 < a.1 * Γn + t.capture + b.1 * t.fission + c.1 * t.competition := by
    intro a ha b hb c hc
    have h1 := hreg a ha b hb c hc
    have h2 := (hA a ha).1.le
    have h3 := hB b hb
    have h4 := hC c hc
    refine lt_of_le_of_ne ?_ (Ne.symm h1)
    positivity
  have harea := fun a ha b hb c hc => BreitWigner.C107_area hP hq hs hφ hk (hladder a ha b hb c hc)
    (htot a ha b hb c hc) formalism fun _ => cache
  classical
  have hσ : ∃ σ : ℝ → ℝ → ℝ → ℝ → LegacyMap, ∀ a ∈ A, ∀ b ∈ B, ∀ c ∈ C,
      (∀ x, ∃ resonance g₁, BreitWigner.Made (r a.1 b.1 c.1 x) resonance ∧
        BreitWigner.evaluate K lib E formalism ⟨g.channel, [resonance], qx, cache⟩ (fun _ => none)
          = .ok (σ a.1 b.1 c.1 x, g₁)) ∧
      let Γ := a.1 * Γn + t.capture + b.1 * t.fission + c.1 * t.competition
      let F := 2 * Real.pi ^ 2 / g.channel.waveNumber K E ^ 2 * g.channel.spinFactor * (a.1 * Γn)
      Integrable (fun x => (σ a.1 b.1 c.1 x (legacyID g.channel .capture)).getD 0) ∧
      ∫ x, (σ a.1 b.1 c.1 x (legacyID g.channel .capture)).getD 0 = F * (t.capture / Γ) ∧
      Integrable (fun x => (σ a.1 b.1 c.1 x (legacyID g.channel .fission)).getD 0) ∧
      ∫ x, (σ a.1 b.1 c.1 x (legacyID g.channel .fission)).getD 0 = F * (b.1 * t.fission / Γ) ∧
      Tendsto (fun R => ∫ x in (E - R)..(E + R), (σ a.1 b.1 c.1 x (legacyID g.channel .elastic)).getD 0) atTop
        (𝓝 (F * (a.1 * Γn / Γ - 2 * Real.sin φ ^ 2))) := by
    refine ⟨fun a b c => if hh : (∃ α ∈ A, α.1 = a) ∧ (∃ β ∈ B, β.1 = b) ∧ ∃ γ ∈ C, γ.1 = c then
      (harea hh.1.choose hh.1.choose_spec.1 hh.2.1.choose hh.2.1.choose_spec.1 hh.2.2.choose
        hh.2.2.choose_spec.1).choose else fun _ _ => none, ?_⟩
    intro a ha b hb c hc
    have hh : (∃ α ∈ A, α.1 = a.1) ∧ (∃ β ∈ B, β.1 = b.1) ∧ ∃ γ ∈ C, γ.1 = c.1 :=
      ⟨⟨a, ha, rfl⟩, ⟨b, hb, rfl⟩, ⟨c, hc, rfl⟩⟩
    simp only [dif_pos hh]
    have hspec := (harea hh.1.choose hh.1.choose_spec.1 hh.2.1.choose hh.2.1.choose_spec.1
      hh.2.2.choose hh.2.2.choose_spec.1).choose_spec
    have e1 := hh.1.choose_spec.2
    have e2 := hh.2.1.choose_spec.2
    have e3 := hh.2.2.choose_spec.2
    simp only [e1, e2, e3] at hspec
    exact hspec
  obtain ⟨σ, hσ⟩ := hσ
  refine ⟨σ, fun a b c => 2 * Real.pi ^ 2 / g.channel.waveNumber K E ^ 2 * g.channel.spinFactor * (a * Γn)
      * (a * Γn / (a * Γn + t.capture + b * t.fission + c * t.competition) - 2 * Real.sin φ ^ 2),
    fun a ha b hb c hc => ?_, ?_, ?_, ?_⟩
  · obtain ⟨h1, h2, -, h4, -, h6⟩ := hσ a ha b hb c hc
    exact ⟨h1, h2, h4, h6⟩
  all_goals
    have n1 : ∀ k k' : LegacyKind, k ≠ k' → legacyID g.channel k ≠ legacyID g.channel k' := fun k k' hk h =>
      hk (legacyID_inj h)
  · have e : average₃ A B C (fun a b c => ∫ x, (σ a b c x (legacyID g.channel .capture)).getD 0)
        = 2 * Real.pi ^ 2 / g.channel.waveNumber K E ^ 2 * g.channel.spinFactor * Γn * t.capture * v.capture := by
      rw [hv]
      simp only [averages, ← average₃_mul]
      refine average₃_congr fun a ha b hb c hc => ?_
      rw [(hσ a ha b hb c hc).2.2.1]
      simp only [totalWidth]
      ring
    rw [e]
    simp only [change, hm, n1 .capture .elastic (by decide), n1 .capture .fission (by decide), if_true, if_false]
    field_simp
    ring
  · have e : average₃ A B C (fun a b c => ∫ x, (σ a b c x (legacyID g.channel .fission)).getD 0)
        = 2 * Real.pi ^ 2 / g.channel.waveNumber K E ^ 2 * g.channel.spinFactor * Γn * t.fission * v.fission := by
      rw [hv]
      simp only [averages, ← average₃_mul]
      refine average₃_congr fun a ha b hb c hc => ?_
      rw [(hσ a ha b hb c hc).2.2.2.2.1]
      simp only [totalWidth]
      ring
    rw [e]
    simp only [change, hm, n1 .fission .elastic (by decide), n1 .fission .capture (by decide), if_true, if_false]
    field_simp
    ring
  · have e : average₃ A B C (fun a b c => 2 * Real.pi ^ 2 / g.channel.waveNumber K E ^ 2
          * g.channel.spinFactor * (a * Γn)
          * (a * Γn / (a * Γn + t.capture + b * t.fission + c * t.competition) - 2 * Real.sin φ ^ 2))
        = 2 * Real.pi ^ 2 / g.channel.waveNumber K E ^ 2 * g.channel.spinFactor * Γn * Γn * v.elastic
          + -(2 * Real.pi ^ 2 / g.channel.waveNumber K E ^ 2 * g.channel.spinFactor * Γn
            * (2 * Real.sin φ ^ 2)) * ruleConstant ⟨Γn, t.capture, t.fission, t.competition⟩ g.table.degrees := by
      rw [hv]
      unfold ruleConstant
      rw [← average₃_first]
      simp only [averages, ← average₃_mul, ← average₃_add]
      refine average₃_congr fun a ha b hb c hc => ?_
      simp only [totalWidth]
      ring
    rw [e]
    generalize ruleConstant _ _ = c at hc
    have e2 : change .elastic - (2 * Real.pi ^ 2 / g.channel.waveNumber K E ^ 2 * g.channel.spinFactor
          * Γn * Γn * v.elastic + -(2 * Real.pi ^ 2 / g.channel.waveNumber K E ^ 2 * g.channel.spinFactor * Γn
            * (2 * Real.sin φ ^ 2)) * c) / t.spacing
        = (c - 1) * (2 * Real.pi ^ 2 / g.channel.waveNumber K E ^ 2
              * (g.channel.spinFactor / t.spacing) * Γn * (2 * Real.sin φ ^ 2)) := by
      simp only [change, hm, n1 .elastic .capture (by decide), n1 .elastic .fission (by decide), if_true,
        if_false]
      field_simp
      ring
    rw [e2, abs_mul]
    exact mul_le_mul_of_nonneg_right hc (abs_nonneg _)

/-- Resonances with the average parameters of the example: the widths and the shift factor at the resonance are
those at the energy of the neutron. -/
theorem ladder_of {w : Data ℝ} {p q s : ℝ} (hp : p ≠ 0) (hq : q ≠ 0) :
    Ladder w p q s fun x => ⟨x, w.elastic, w.capture, w.fission, w.competition, p, q, s⟩ := by
  intro x
  refine ⟨?_, ?_, rfl, rfl, ?_, hp, hq⟩
  · simp [Parameters.position]
  · simp [Parameters.neutronWidth, hp]
  · simp [hq]

/-- A group with fission and competition is a case of C107, for resonances of all positions and both
formalisms. -/
example (lib : CoulombLibrary) (m : LegacyMap) (formalism : BreitWigner.Formalism)
    (cache : BreitWigner.Cache) : ∃ m', Example.group.evaluate Verif.Example.constants lib 2 m
        = .ok (m', Example.group) ∧ ∃ (Γn : ℝ) (σ : ℝ → ℝ → ℝ → ℝ → LegacyMap),
      (∀ a ∈ column 0, ∀ b ∈ column 1, ∀ c ∈ column 3, ∀ x, ∃ resonance g₁,
        BreitWigner.makeResonance x (a.1 * Γn) (1 / 20) (b.1 * (100 / 9900)) (c.1 * (100 / 990)) 1 1 0
          = .ok resonance ∧
        BreitWigner.evaluate Verif.Example.constants lib 2 formalism
          ⟨Example.group.channel, [resonance], 0, cache⟩ (fun _ => none) = .ok (σ a.1 b.1 c.1 x, g₁)) ∧
      (m' (legacyID Example.group.channel .capture)).getD 0
          - (m (legacyID Example.group.channel .capture)).getD 0
        = average₃ (column 0) (column 1) (column 3) (fun a b c =>
          ∫ x, (σ a b c x (legacyID Example.group.channel .capture)).getD 0) / (100 / 99) := by
  obtain ⟨m', hm'⟩ := Example.evaluates lib m
  have hP : Example.group.channel.penetrability Verif.Example.constants lib 2 = .ok 1 :=
    BreitWigner.Example.penetrability lib 0 (1 / 2) 1
  obtain ⟨P, φ, R, t, h1, h2, h3, h4, h5⟩ := C107_average (qx := 0) (q := 1) (s := 0)
    (⟨by decide, by decide, by decide, by decide⟩ : Unsigned Example.group.table.degrees) rfl (by
      intro R hR
      have : (1 : ℝ) = R := Except.ok.inj hR
      rw [← this]
      norm_num) (by
      intro t ht
      rw [show Example.group.table.call 2 = .ok Example.parameters from Example.table_call] at ht
      rw [← Except.ok.inj ht]
      norm_num [Example.parameters]) hm' rfl
  obtain rfl := Except.ok.inj (h1.symm.trans hP)
  rw [show Example.group.table.call 2 = .ok Example.parameters from Example.table_call] at h4
  obtain rfl := Except.ok.inj h4
  have hB : fluctuations Example.parameters.fission Example.group.table.degrees.fission = column 1 :=
    if_neg (by norm_num [Example.parameters])
  have hC : fluctuations Example.parameters.competition Example.group.table.degrees.competition = column 3 :=
    if_neg (by norm_num [Example.parameters])
  simp only [hB, hC] at h5
  obtain ⟨σ, _, h6, h7, -⟩ := h5 (fun a b c x => ⟨x, a * (Example.group.table.degrees.elastic
    * Example.parameters.elastic * Real.sqrt 2 * (1 / (Example.group.channel.waveNumber
      Verif.Example.constants 2 * R))), Example.parameters.capture, b * Example.parameters.fission,
      c * Example.parameters.competition, 1, 1, 0⟩) (by simp)
    (fun a _ b _ c _ => ladder_of one_ne_zero one_ne_zero) formalism cache
  exact ⟨m', hm', _, σ, fun a ha b hb c hc => (h6 a ha b hb c hc).1, h7⟩

end Unresolved

end Verif
