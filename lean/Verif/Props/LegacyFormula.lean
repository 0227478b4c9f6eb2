import Verif.Props.LegacyResolvedExamples
import Verif.Lemmas.Endf

/-!
# Property C57: the values of the Breit-Wigner cross sections
-/

namespace Verif.BreitWigner

/-- The resonance is made from these parameters. -/
def Made (x : Spec.Parameters) (r : Resonance) : Prop :=
  makeResonance x.energy x.elastic x.capture x.fission x.competition x.penetrability
    x.competitivePenetrability x.shiftFactor = .ok r

theorem made_values {x : Spec.Parameters} {r : Resonance} (h : Made x r) (E p q s : ℝ) :
    r.elasticAt p = x.neutronWidth p ∧ r.capture = x.capture ∧ r.fission = x.fission ∧
      r.totalAt p q = x.totalWidth p q ∧ r.energyPrime s = x.position s ∧
      (E - r.energyPrime s) * (E - r.energyPrime s) + 0.25 * r.totalAt p q * r.totalAt p q
        = x.denominator E p q s := by
  unfold Made makeResonance at h
  split at h
  · cases h
  rename_i hne
  rw [not_or] at hne
  obtain rfl := Except.ok.inj h
  have h1 : ∀ p, p * (x.elastic / x.penetrability) = x.elastic * p / x.penetrability := by
    intro p
    ring
  have h2 : q * (x.competition / x.competitivePenetrability)
      = x.competition * q / x.competitivePenetrability := by
    ring
  have h3 : x.energy + (x.shiftFactor - s) / 2 * (x.elastic / x.penetrability)
      = x.energy + (x.shiftFactor - s) / (2 * x.penetrability) * x.elastic := by
    have := hne.1
    field_simp
  refine ⟨h1 p, rfl, rfl, ?_, h3, ?_⟩
  · simp only [Resonance.totalAt, Resonance.elasticAt, Resonance.competitionAt, Spec.Parameters.totalWidth,
      Spec.Parameters.neutronWidth, h1, h2]
  · simp only [Resonance.totalAt, Resonance.elasticAt, Resonance.competitionAt, Resonance.energyPrime,
      Spec.Parameters.denominator, Spec.Parameters.position, Spec.Parameters.totalWidth,
      Spec.Parameters.neutronWidth, h1, h2]
    ring

theorem map_made {g : List Resonance} {xs : List Spec.Parameters} {a : Resonance → ℝ}
    {b : Spec.Parameters → ℝ} (h : List.Forall₂ Made xs g) (hab : ∀ x r, Made x r → a r = b x) :
    (g.map a).sum = (xs.map b).sum := by
  induction h with
  | nil => rfl
  | cons h1 _ ih => rw [List.map_cons, List.map_cons, List.sum_cons, List.sum_cons, ih, hab _ _ h1]

/-- C57: the values of the single-level cross sections are those of the formula. Elastic scattering and
capture are always reported, fission unless it vanishes, and nothing else is. -/
theorem C57_single_level {K : Constants} {lib : CoulombLibrary} {E : ℝ} {g g' : SpinGroup}
    {xs : List Spec.Parameters} {m m' : LegacyMap} (hmade : List.Forall₂ Made xs g.resonances)
    (h : evaluate K lib E .singleLevel g m = .ok (m', g')) :
    ∃ p q s φ, g.channel.penetrability K lib E = .ok p ∧
      (if g.qx = 0 then q = p else g.channel.penetrability K lib (E - g.qx) = .ok q) ∧
      g.channel.shiftFactor K lib E = .ok s ∧ g.channel.phaseShift K lib E = .ok φ ∧
      let factor := Real.pi / g.channel.waveNumber K E ^ 2 * g.channel.spinFactor
      m' (legacyID g.channel .elastic) = some ((m (legacyID g.channel .elastic)).getD 0
        + factor * (xs.map fun x => x.elasticTerm E p q s φ).sum) ∧
      m' (legacyID g.channel .capture) = some ((m (legacyID g.channel .capture)).getD 0
        + factor * (xs.map fun x => x.captureTerm E p q s).sum) ∧
      m' (legacyID g.channel .fission) = (if (xs.map fun x => x.fissionTerm E p q s).sum = 0
        then m (legacyID g.channel .fission)
        else some ((m (legacyID g.channel .fission)).getD 0
          + factor * (xs.map fun x => x.fissionTerm E p q s).sum)) ∧
      ∀ id, id ≠ legacyID g.channel .elastic → id ≠ legacyID g.channel .capture →
        id ≠ legacyID g.channel .fission → m' id = m id := by
  obtain ⟨p, q, s, φ, hV, rfl, -⟩ := evaluateSLBW_ok h
  obtain ⟨p', q', s', φ', e1, e2, e3, e4, -⟩ := hV.isCollision
  obtain rfl := Except.ok.inj (e1.symm.trans hV.penetrability)
  obtain rfl := Except.ok.inj (e3.symm.trans hV.shiftFactor)
  obtain rfl := Except.ok.inj (e4.symm.trans hV.phaseShift)
  have hq : q = q' := by
    have := hV.competition
    unfold SpinGroup.competitionPenetrability at this
    by_cases hq : g.qx = 0
    · rw [if_neg (by simpa using hq)] at this
      rw [if_pos hq] at e2
      rw [e2]
      exact (Except.ok.inj this).symm
    · rw [if_pos hq] at this
      rw [if_neg hq] at e2
      exact Except.ok.inj (this.symm.trans e2)
  subst hq
  refine ⟨p', q, s', φ', e1, e2, e3, e4, ?_⟩
  rw [components_eq]
  have hel := map_made (b := fun x => x.elasticTerm E p' q s' φ') hmade (a := fun r => r.elasticAt p' *
      (r.elasticAt p' - 2 * r.totalAt p' q * (Real.sin φ' * Real.sin φ')
        + 2 * (E - r.energyPrime s') * Real.sin (2 * φ'))
        / ((E - r.energyPrime s') * (E - r.energyPrime s') + 0.25 * r.totalAt p' q * r.totalAt p' q))
    (by
      intro x r hr
      obtain ⟨k1, k2, k3, k4, k5, k6⟩ := made_values hr E p' q s'
      rw [k6, k1, k4, k5]
      unfold Spec.Parameters.elasticTerm
      congr 1
      ring)
  have hca := map_made (b := fun x => x.captureTerm E p' q s') hmade (a := fun r => r.capture *
      r.elasticAt p' / ((E - r.energyPrime s') * (E - r.energyPrime s')
        + 0.25 * r.totalAt p' q * r.totalAt p' q))
    (by
      intro x r hr
      obtain ⟨k1, k2, k3, k4, k5, k6⟩ := made_values hr E p' q s'
      rw [k6, k1, k2]
      unfold Spec.Parameters.captureTerm
      rw [mul_comm])
  have hfi := map_made (b := fun x => x.fissionTerm E p' q s') hmade (a := fun r => r.fission *
      r.elasticAt p' / ((E - r.energyPrime s') * (E - r.energyPrime s')
        + 0.25 * r.totalAt p' q * r.totalAt p' q))
    (by
      intro x r hr
      obtain ⟨k1, k2, k3, k4, k5, k6⟩ := made_values hr E p' q s'
      rw [k6, k1, k3]
      unfold Spec.Parameters.fissionTerm
      rw [mul_comm])
  rw [hel, hca, hfi]
  have d1 : legacyID g.channel .elastic ≠ legacyID g.channel .capture := fun h =>
    absurd (legacyID_inj h) (by decide)
  have d2 : legacyID g.channel .elastic ≠ legacyID g.channel .fission := fun h =>
    absurd (legacyID_inj h) (by decide)
  have d3 : legacyID g.channel .capture ≠ legacyID g.channel .fission := fun h =>
    absurd (legacyID_inj h) (by decide)
  unfold slbwMap factor
  rw [← pow_two]
  by_cases h0 : (xs.map fun x => x.fissionTerm E p' q s').sum = 0
  · simp only [h0, ne_eq, not_true_eq_false, if_false, if_true]
    refine ⟨?_, ?_, ?_, ?_⟩
    · rw [LegacyMap.add_other _ _ d1, LegacyMap.add_self]
    · rw [LegacyMap.add_self, LegacyMap.add_other _ _ d1.symm]
    · rw [LegacyMap.add_other _ _ d3.symm, LegacyMap.add_other _ _ d2.symm]
    · intro id k1 k2 k3
      rw [LegacyMap.add_other _ _ k2, LegacyMap.add_other _ _ k1]
  · simp only [h0, ne_eq, not_false_eq_true, if_true, if_false]
    refine ⟨?_, ?_, ?_, ?_⟩
    · rw [LegacyMap.add_other _ _ d2, LegacyMap.add_other _ _ d1, LegacyMap.add_self]
    · rw [LegacyMap.add_other _ _ d3, LegacyMap.add_self, LegacyMap.add_other _ _ d1.symm]
    · rw [LegacyMap.add_self, LegacyMap.add_other _ _ d3.symm, LegacyMap.add_other _ _ d2.symm]
    · intro id k1 k2 k3
      rw [LegacyMap.add_other _ _ k3, LegacyMap.add_other _ _ k2, LegacyMap.add_other _ _ k1]

/-- C57: under the multi-level formalism everything except elastic scattering is the same. -/
theorem C57_multi_level {K : Constants} {lib : CoulombLibrary} {E : ℝ} {g g' : SpinGroup}
    {m m' : LegacyMap} (h : evaluate K lib E .multiLevel g m = .ok (m', g')) :
    ∃ m1, evaluate K lib E .singleLevel g m = .ok (m1, g') ∧
      ∀ id, id ≠ legacyID g.channel .elastic → m' id = m1 id := by
  obtain ⟨p, q, s, φ, hV, rfl, rfl⟩ := evaluateMLBW_ok h
  refine ⟨_, evaluateSLBW_of hV m, fun id hid => ?_⟩
  rw [LegacyMap.add_other _ _ hid]

/-- C57: under the multi-level formalism elastic scattering is, together with the hard-sphere term of the
group, `π/k² g |1 - U|²` for the collision function of all resonances of the group. -/
theorem C57_multi_level_elastic {K : Constants} {lib : CoulombLibrary} {E : ℝ} {g g' : SpinGroup}
    {xs : List Spec.Parameters} {m m' : LegacyMap} (hmade : List.Forall₂ Made xs g.resonances)
    (h : evaluate K lib E .multiLevel g m = .ok (m', g')) :
    ∃ p q s φ, g.channel.penetrability K lib E = .ok p ∧
      (if g.qx = 0 then q = p else g.channel.penetrability K lib (E - g.qx) = .ok q) ∧
      g.channel.shiftFactor K lib E = .ok s ∧ g.channel.phaseShift K lib E = .ok φ ∧
      m' (legacyID g.channel .elastic) = some ((m (legacyID g.channel .elastic)).getD 0
        + Real.pi / g.channel.waveNumber K E ^ 2 * g.channel.spinFactor
          * (Complex.normSq (1 - Spec.levelCollision φ E (xs.map fun x =>
              ⟨x.neutronWidth p, x.totalWidth p q, x.position s⟩)) - 4 * Real.sin φ ^ 2)) := by
  obtain ⟨p, q, s, φ, hV, rfl, -⟩ := evaluateMLBW_ok h
  obtain ⟨p', q', s', φ', e1, e2, e3, e4, -⟩ := hV.isCollision
  obtain rfl := Except.ok.inj (e1.symm.trans hV.penetrability)
  obtain rfl := Except.ok.inj (e3.symm.trans hV.shiftFactor)
  obtain rfl := Except.ok.inj (e4.symm.trans hV.phaseShift)
  have hq : q = q' := by
    have := hV.competition
    unfold SpinGroup.competitionPenetrability at this
    by_cases hq : g.qx = 0
    · rw [if_neg (by simpa using hq)] at this
      rw [if_pos hq] at e2
      rw [e2]
      exact (Except.ok.inj this).symm
    · rw [if_pos hq] at this
      rw [if_neg hq] at e2
      exact Except.ok.inj (this.symm.trans e2)
  subst hq
  refine ⟨p', q, s', φ', e1, e2, e3, e4, ?_⟩
  have hl : (xs.map fun x => (⟨x.neutronWidth p', x.totalWidth p' q, x.position s'⟩ : Spec.Level))
      = g.resonances.map fun r => ⟨r.elasticAt p', r.totalAt p' q, r.energyPrime s'⟩ := by
    clear h hV
    generalize g.resonances = rs at hmade
    induction hmade with
    | nil => rfl
    | cons h1 _ ih =>
      obtain ⟨k1, -, -, k4, k5, -⟩ := made_values h1 E p' q s'
      rw [List.map_cons, List.map_cons, ih, k1, k4, k5]
  rw [hl, ← mlbw_components g E p' q s' φ' hV.denominator, LegacyMap.add_self, slbwMap_getD]
  have h1 : legacyID g.channel .elastic ≠ legacyID g.channel .capture := fun h =>
    absurd (legacyID_inj h) (by decide)
  have h2 : legacyID g.channel .elastic ≠ legacyID g.channel .fission := fun h =>
    absurd (legacyID_inj h) (by decide)
  simp only [if_true, h1, h2, if_false, factor]
  congr 1
  ring

/-- Resonances are made from parameters with penetrabilities that do not vanish, and a group of two can be
evaluated; see the examples for C33. -/
example : Made ⟨10, 2, 1, 3, 4, 0.5, 0.25, -1⟩ ⟨10, 2, 1, 3, 4, 4, 16, none, -1⟩ := by
  unfold Made makeResonance
  norm_num

example (lib : CoulombLibrary) (m : LegacyMap) : ∃ xs v, List.Forall₂ Made xs
      (Example.sGroup 1 [Example.resonance, Example.broad]).resonances ∧
    evaluate Verif.Example.constants lib 2 .singleLevel
      (Example.sGroup 1 [Example.resonance, Example.broad]) m = .ok v ∧
    ∃ v, evaluate Verif.Example.constants lib 2 .multiLevel
      (Example.sGroup 1 [Example.resonance, Example.broad]) m = .ok v := by
  have hV := Example.sValues lib 1 [Example.resonance, Example.broad] (by
    intro r hr
    simp only [List.mem_cons, List.not_mem_nil, or_false] at hr
    rcases hr with rfl | rfl <;> norm_num [Example.resonance, Example.broad])
  have made : ∀ r : Resonance, r.elasticToPenetrability = r.elastic → r.competitionToPenetrability =
      r.competition → r.penetrabilityField = none → Made ⟨r.energy, r.elastic, r.capture, r.fission,
        r.competition, 1, 1, r.shiftfactor⟩ r := by
    rintro ⟨⟩ h1 h2 h3
    simp only at h1 h2 h3
    subst h1 h2 h3
    simp [Made, makeResonance]
  exact ⟨_, _, .cons (made Example.resonance (by norm_num [Example.resonance])
    (by norm_num [Example.resonance]) rfl) (.cons (made Example.broad (by norm_num [Example.broad])
    (by norm_num [Example.broad]) rfl) .nil), evaluateSLBW_of hV m, _, evaluateMLBW_of hV m⟩

end Verif.BreitWigner
