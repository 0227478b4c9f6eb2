import Verif.Props.OldBreitWigner

/-!
# Property C58: the older Breit-Wigner code gives cross sections for every physical evaluation
-/

namespace Verif.Old

open Spec (Assigned Wave neutronFactor IsWave IsAssigned neutronWaveNumber competitiveOffset penetration)

theorem ok_bind {α β : Type} (a : α) (f : α → Outcome β) : ((.ok a : Outcome α) >>= f) = f a := rfl

/-- An evaluation that makes sense physically, for a given channel radius: masses and capture widths are
positive, the other widths not negative, there are no resonances at the thresholds, and the radii exist at
all energies. -/
structure Physical (bw : Endf.BreitWigner) (channel scattering : ℝ → Outcome ℝ) : Prop where
  spin : Spec.HalfInt bw.spin
  nonempty : bw.lValues ≠ []
  awri : ∀ lv ∈ bw.lValues, 0 < lv.awri
  l : ∀ lv ∈ bw.lValues, lv.l ≤ 4
  channel : ∀ e, ∃ a, 0 < a ∧ channel e = .ok a
  scattering : ∀ e, ∃ a, scattering e = .ok a
  energies : ∀ lv ∈ bw.lValues, ∀ r ∈ lv.resonances, r.energy ≠ 0 ∧
    (lv.lrx ≠ 0 → r.energy + competitiveOffset lv ≠ 0)
  widths : ∀ lv ∈ bw.lValues, ∀ r ∈ lv.resonances, 0 ≤ r.neutronWidth ∧ 0 < r.gammaWidth ∧
    0 ≤ r.fissionWidth ∧ 0 ≤ r.competitiveWidth

/-- A resonance that can be evaluated at all energies. -/
structure Good (r : Resonance) : Prop where
  neutron : 0 ≤ r.neutronWidth
  capture : 0 < r.captureWidth
  fission : 0 ≤ r.fissionWidth
  competitive : 0 ≤ r.weightedCompetitiveWidth
  inverse : 0 ≤ r.inversePenetrationFactor

variable {c : WaveConstant} {channel : ℝ → Outcome ℝ} {I : ℚ} {lv : Endf.BreitWignerLValue}

theorem neutronWaveNumber_pos (c : WaveConstant) {A e : ℝ} (hA : 0 < A) (he : e ≠ 0) :
    0 < neutronWaveNumber c.value A e := by
  have := c.pos
  have : 0 < Real.sqrt |e| := Real.sqrt_pos.mpr (abs_pos.mpr he)
  unfold neutronWaveNumber
  positivity

theorem penetration_pos (l : ℕ) {ρ : ℝ} (h : 0 < ρ) : 0 < penetration l ρ := by
  unfold Spec.penetration
  rw [if_pos h]
  exact hardSphere_pos h l

theorem competitivePenetrability_eq {l : ℕ} (hl : l ≤ 4) {rho : ℝ → Outcome ℝ} {e q ρ : ℝ}
    (h : rho (e + q) = .ok ρ) : competitivePenetrability l rho e q = .ok (penetration l ρ) := by
  unfold competitivePenetrability
  rw [h, ok_bind, oldPenetrationShift_eq hl, ok_bind]
  rfl

theorem channelRatioAt_eq {A e a : ℝ} (h : channel e = .ok a) :
    channelRatioAt c (A / (A + 1)) channel e = .ok (neutronWaveNumber c.value A e * a) := by
  unfold channelRatioAt
  rw [h, ok_bind]
  rfl

theorem makeResonance_eq {e n g f x P S s : ℝ} (h : P ≠ 0) :
    makeResonance e n g f x P S s = .ok ⟨e, n, g, f, x, 1 / P, S, s⟩ := by
  unfold makeResonance
  rw [if_neg h]

theorem convertResonance_exists {A : ℝ} {l : ℕ} (hA : 0 < A) (hl : l ≤ 4)
    (hc : ∀ e, ∃ a, 0 < a ∧ channel e = .ok a) {x : Endf.BreitWignerResonance} (he : x.energy ≠ 0)
    (hw : 0 ≤ x.neutronWidth ∧ 0 < x.gammaWidth ∧ 0 ≤ x.fissionWidth ∧ 0 ≤ x.competitiveWidth) :
    ∃ r, convertResonance (channelRatioAt c (A / (A + 1)) channel) I l x = .ok r ∧ Good r := by
  obtain ⟨a, ha, hca⟩ := hc x.energy
  have hP := penetration_pos l (mul_pos (neutronWaveNumber_pos c hA he) ha)
  unfold convertResonance
  rw [channelRatioAt_eq hca, ok_bind, oldPenetrationShift_eq hl, ok_bind, makeResonance_eq hP.ne']
  exact ⟨_, rfl, hw.1, hw.2.1, hw.2.2.1, le_refl _, by positivity⟩

theorem convertCompetitive_exists {A : ℝ} {l : ℕ} {offset : ℝ} (hA : 0 < A) (hl : l ≤ 4)
    (hc : ∀ e, ∃ a, 0 < a ∧ channel e = .ok a) {x : Endf.BreitWignerResonance} (he : x.energy ≠ 0)
    (ho : x.energy + offset ≠ 0)
    (hw : 0 ≤ x.neutronWidth ∧ 0 < x.gammaWidth ∧ 0 ≤ x.fissionWidth ∧ 0 ≤ x.competitiveWidth) :
    ∃ r, convertCompetitive (channelRatioAt c (A / (A + 1)) channel) I l offset x = .ok r ∧ Good r := by
  obtain ⟨a, ha, hca⟩ := hc |x.energy|
  obtain ⟨b, hb, hcb⟩ := hc (x.energy + offset)
  have hP := penetration_pos l (mul_pos (neutronWaveNumber_pos c hA (abs_ne_zero.mpr he)) ha)
  have hQ := penetration_pos l (mul_pos (neutronWaveNumber_pos c hA ho) hb)
  unfold convertCompetitive
  rw [competitivePenetrability_eq hl (channelRatioAt_eq hcb), ok_bind, if_neg hQ.ne']
  dsimp only
  rw [channelRatioAt_eq hca, ok_bind, oldPenetrationShift_eq hl, ok_bind, makeResonance_eq hP.ne']
  exact ⟨_, rfl, hw.1, hw.2.1, hw.2.2.1, div_nonneg hw.2.2.2 hQ.le, by positivity⟩

theorem mapM_good {α β : Type} {f : α → Outcome β} {P : β → Prop} {l : List α}
    (h : ∀ a ∈ l, ∃ b, f a = .ok b ∧ P b) : ∃ r, l.mapM f = .ok r ∧ ∀ b ∈ r, P b := by
  obtain ⟨r, hr⟩ := mapM_exists.mpr fun a ha => (h a ha).imp fun b hb => hb.1
  refine ⟨r, hr, fun b hb => ?_⟩
  obtain ⟨a, ha, hab⟩ := forall₂_mem (mapM_ok.mp hr).flip hb
  have hab : f a = .ok b := hab
  obtain ⟨b', h1, h2⟩ := h a ha
  rw [hab] at h1
  exact (Except.ok.inj h1) ▸ h2

theorem makeLValue_eq (hI : 4 * I + 2 ≠ 0) (rs : List Resonance) (q : Option ℝ) (l : ℕ) :
    ∃ v, makeLValue rs q l I = .ok v ∧ v.resonances = rs ∧ v.l = l ∧ v.weightedQValue = q := by
  unfold makeLValue statisticalFactorSummation
  dsimp only
  rw [if_neg hI, ok_bind]
  exact ⟨_, rfl, rfl, rfl, rfl⟩

theorem convertLValue_exists {A : ℝ} (hA : 0 < A) (hI : 4 * I + 2 ≠ 0) (hawri : 0 < lv.awri)
    (hl : lv.l ≤ 4) (hc : ∀ e, ∃ a, 0 < a ∧ channel e = .ok a)
    (he : ∀ r ∈ lv.resonances, r.energy ≠ 0 ∧ (lv.lrx ≠ 0 → r.energy + competitiveOffset lv ≠ 0))
    (hw : ∀ r ∈ lv.resonances, 0 ≤ r.neutronWidth ∧ 0 < r.gammaWidth ∧ 0 ≤ r.fissionWidth ∧
      0 ≤ r.competitiveWidth) :
    ∃ v, convertLValue (channelRatioAt c (A / (A + 1)) channel) I lv = .ok v ∧ v.l ≤ 4 ∧
      ∀ r ∈ v.resonances, Good r := by
  unfold convertLValue
  rw [if_neg (by omega)]
  by_cases hlrx : lv.lrx = 0
  · rw [if_neg (by simpa using hlrx)]
    obtain ⟨rs, h1, h2⟩ := mapM_good fun x hx => convertResonance_exists (c := c) (I := I) hA hl hc
      (he x hx).1 (hw x hx)
    obtain ⟨v, h3, rfl, h4, -⟩ := makeLValue_eq hI rs none lv.l
    rw [h1, ok_bind, h3]
    exact ⟨v, rfl, h4 ▸ hl, h2⟩
  · rw [if_pos hlrx, if_neg (by positivity)]
    obtain ⟨rs, h1, h2⟩ := mapM_good fun x hx => convertCompetitive_exists (c := c) (I := I) hA hl hc
      (he x hx).1 ((he x hx).2 hlrx) (hw x hx)
    obtain ⟨v, h3, rfl, h4, -⟩ := makeLValue_eq hI rs (some (competitiveOffset lv)) lv.l
    dsimp only
    rw [show lv.qx * (lv.awri / (lv.awri + 1)) = competitiveOffset lv from rfl, h1, ok_bind, h3]
    exact ⟨v, rfl, h4 ▸ hl, h2⟩

theorem total_ne_zero {r : Resonance} (h : Good r) {p q : ℝ} (hp : 0 ≤ p) (hq : 0 ≤ q) :
    r.neutronWidth * r.inversePenetrationFactor * p + r.captureWidth + r.fissionWidth
      + r.weightedCompetitiveWidth * q ≠ 0 := by
  have h1 := mul_nonneg (mul_nonneg h.neutron h.inverse) hp
  have h2 := mul_nonneg h.competitive hq
  have := h.capture
  have := h.fission
  linarith

theorem competitiveWidth_exists {v : LValue} (hl : v.l ≤ 4) {rho : ℝ → Outcome ℝ}
    (hrho : ∀ e, ∃ ρ, rho e = .ok ρ) (E : ℝ) :
    ∃ q, 0 ≤ q ∧ competitiveWidth v rho E = .ok fun r => r.weightedCompetitiveWidth * q := by
  unfold competitiveWidth
  cases v.weightedQValue with
  | none => exact ⟨0, le_refl _, by simp⟩
  | some q =>
    obtain ⟨ρ, hρ⟩ := hrho (E + q)
    dsimp only
    rw [competitivePenetrability_eq hl hρ, ok_bind]
    exact ⟨_, penetration_nonneg _ _, rfl⟩

theorem call_exists {level : Level} {v : LValue} (hI : Spec.HalfInt I) (hl : v.l ≤ 4)
    (hg : ∀ r ∈ v.resonances, Good r) {rho : ℝ → Outcome ℝ} (hrho : ∀ e, ∃ ρ, rho e = .ok ρ)
    (E a b : ℝ) : ∃ out, v.call level E a b I rho = .ok out := by
  obtain ⟨q, hq, hcw⟩ := competitiveWidth_exists hl hrho E
  obtain ⟨_, _, φ, -, -, -, -, hφ⟩ := C13_old_equals_new (fun _ _ _ => .ok ⟨0, 0, 0, 0⟩) v.l hl b 0
  have hP := penetration_nonneg v.l a
  unfold LValue.call
  rw [hcw, ok_bind]
  cases level with
  | single =>
    dsimp only
    unfold LValue.evaluateSingle
    rw [oldPenetrationShift_eq hl, ok_bind, hφ, ok_bind]
    dsimp only
    obtain ⟨vs, hvs⟩ := mapM_exists.mpr fun r (hr : r ∈ v.resonances) =>
      show ∃ out, r.single E (penetration v.l a) (Spec.hardSphere a v.l).2 (Real.sin φ * Real.sin φ)
        (Real.sin (2 * φ)) (r.weightedCompetitiveWidth * q) = .ok out by
      unfold Resonance.single
      dsimp only
      rw [if_neg (total_ne_zero (hg r hr) hP hq)]
      exact ⟨_, rfl⟩
    rw [hvs, ok_bind]
    exact ⟨_, rfl⟩
  | multi =>
    dsimp only
    unfold LValue.evaluateMulti
    rw [oldPenetrationShift_eq hl, ok_bind, hφ, ok_bind]
    dsimp only
    obtain ⟨vs, hvs⟩ := mapM_exists.mpr fun g
        (hmem : g ∈ groupBy Resonance.statisticalFactor v.resonances) =>
      show ∃ out, groupMulti E (penetration v.l a) (Spec.hardSphere a v.l).2 (Real.sin φ * Real.sin φ)
        (Real.sin (2 * φ)) (fun r => r.weightedCompetitiveWidth * q) g = .ok out by
      unfold groupMulti
      obtain ⟨ws, hws⟩ := mapM_exists.mpr fun r (hr : r ∈ g) =>
        show ∃ out, r.multi E (penetration v.l a) (Spec.hardSphere a v.l).2
          (r.weightedCompetitiveWidth * q) = .ok out by
        unfold Resonance.multi
        dsimp only
        rw [if_neg (total_ne_zero (hg r (groupBy_mem _ hmem hr)) hP hq)]
        exact ⟨_, rfl⟩
      rw [hws, ok_bind]
      cases g with
      | nil => exact absurd rfl (groupBy_ne_nil _ hmem)
      | cons r rs => exact ⟨_, rfl⟩
    obtain ⟨d, hd, -⟩ := C43_repeated I hI v.l hl
    rw [hvs, ok_bind, hd, ok_bind]
    exact ⟨_, rfl⟩

/-- C58: every physical evaluation gives a system, and cross sections at every energy except zero. -/
theorem C58_exists {sort : Sorting Resonance.statisticalFactor} {level : Level} {bw : Endf.BreitWigner}
    {scattering : ℝ → Outcome ℝ} (h : Physical bw channel scattering) :
    ∃ S, build c sort level bw channel scattering = .ok S ∧
      ∀ E, E ≠ 0 → ∃ x, S.evaluate c level E = .ok x := by
  have hI0 : 4 * bw.spin + 2 ≠ 0 := by
    obtain ⟨n, hn⟩ := h.spin
    rw [hn]
    positivity
  cases hlv : bw.lValues with
  | nil => exact absurd hlv h.nonempty
  | cons first rest =>
    have hA : 0 < first.awri := h.awri first (hlv ▸ List.mem_cons_self)
    obtain ⟨vs, h1, h2⟩ := mapM_good fun lv hmem => convertLValue_exists (c := c) hA hI0
      (h.awri lv hmem) (h.l lv hmem) h.channel (h.energies lv hmem) (h.widths lv hmem)
    have hS : ∃ S, build c sort level bw channel scattering = .ok S ∧
        S.weightRatio = first.awri / (first.awri + 1) ∧ S.channelRadius = channel ∧
        S.scatteringRadius = scattering ∧ S.targetSpin = bw.spin ∧
        ∀ v ∈ S.lvalues, v.l ≤ 4 ∧ ∀ r ∈ v.resonances, Good r := by
      unfold build
      rw [hlv]
      dsimp only
      rw [hlv] at h1
      rw [if_neg (by rw [not_or]; exact ⟨by positivity, hI0⟩), h1, ok_bind]
      refine ⟨_, rfl, rfl, rfl, rfl, rfl, ?_⟩
      cases level with
      | single => exact h2
      | multi =>
        intro v hv
        obtain ⟨u, hu, rfl⟩ := List.mem_map.mp hv
        exact ⟨(h2 u hu).1, fun r hr => (h2 u hu).2 r ((sort.perm _).mem_iff.mp hr)⟩
    obtain ⟨S, hS, s1, s2, s3, s4, s5⟩ := hS
    refine ⟨S, hS, fun E hE => ?_⟩
    obtain ⟨a, -, ha⟩ := h.channel E
    obtain ⟨b, hb⟩ := h.scattering E
    unfold System.evaluate
    rw [s2, s3, ha, ok_bind, hb, ok_bind]
    dsimp only
    obtain ⟨outs, houts⟩ := mapM_exists.mpr fun v (hv : v ∈ S.lvalues) => call_exists (level := level)
      (I := S.targetSpin) (s4 ▸ h.spin) (s5 v hv).1 (s5 v hv).2
      (rho := fun e => do
        let radius ← channel e
        pure (waveNumber c S.weightRatio e * radius))
      (fun e => by
        obtain ⟨r, -, hr⟩ := h.channel e
        simp only [hr, ok_bind]
        exact ⟨_, rfl⟩) E (a * waveNumber c S.weightRatio E) (b * waveNumber c S.weightRatio E)
    rw [houts, ok_bind, s1, waveNumber_eq, if_neg (neutronWaveNumber_pos c hA hE).ne']
    exact ⟨_, rfl⟩

/-- A target of spin 1/2 with two s-wave resonances, one of them a bound level, and a p-wave resonance with a
competitive width. -/
noncomputable def exampleEvaluation : Endf.BreitWigner :=
  ⟨1 / 2, 0.6,
    [⟨0, 100, 0, 0, [⟨-5, 1, 0.2, 0.1, 0, 0⟩, ⟨10, 1, 0.01, 0.1, 0.3, 0⟩]⟩,
      ⟨1, 100, -1000, 1, [⟨2000, 2, 0.01, 0.1, 0, 0.5⟩]⟩]⟩

theorem example_physical : Physical exampleEvaluation (constantRadius 0.6) (constantRadius 0.6) where
  spin := ⟨1, by norm_num [exampleEvaluation]⟩
  nonempty := by simp [exampleEvaluation]
  awri := by simp [exampleEvaluation]
  l := by simp [exampleEvaluation]
  channel := fun _ => ⟨0.6, by norm_num, rfl⟩
  scattering := fun _ => ⟨0.6, rfl⟩
  energies := by
    simp only [exampleEvaluation, List.mem_cons, List.not_mem_nil, or_false]
    rintro lv (rfl | rfl) r hr
    · simp only [List.mem_cons, List.not_mem_nil, or_false] at hr
      rcases hr with rfl | rfl <;> norm_num
    · simp only [List.mem_cons, List.not_mem_nil, or_false] at hr
      subst hr
      norm_num [Spec.competitiveOffset]
  widths := by
    simp only [exampleEvaluation, List.mem_cons, List.not_mem_nil, or_false]
    rintro lv (rfl | rfl) r hr
    · simp only [List.mem_cons, List.not_mem_nil, or_false] at hr
      rcases hr with rfl | rfl <;> norm_num
    · simp only [List.mem_cons, List.not_mem_nil, or_false] at hr
      subst hr
      norm_num

/-- The J values are allowed ones. -/
theorem example_allowed : ∀ lv ∈ exampleEvaluation.lValues, ∀ r ∈ lv.resonances,
    Spec.AllowedJ exampleEvaluation.spin lv.l |r.spin| := by
  simp only [exampleEvaluation, List.mem_cons, List.not_mem_nil, or_false]
  rintro lv (rfl | rfl) r hr
  · simp only [List.mem_cons, List.not_mem_nil, or_false] at hr
    rcases hr with rfl | rfl
    all_goals
      refine ⟨1, ⟨by norm_num [abs_le], by norm_num, 2, by norm_num⟩,
        ⟨by norm_num [abs_le], by norm_num, 2, by norm_num⟩⟩
  · simp only [List.mem_cons, List.not_mem_nil, or_false] at hr
    subst hr
    exact ⟨1, ⟨by norm_num [abs_le], by norm_num, 2, by norm_num⟩,
      ⟨by norm_num [abs_le], by norm_num, 4, by norm_num⟩⟩

/-- At 20 eV it has a multi-level elastic cross section, which is not negative. -/
example (c : WaveConstant) (sort : Sorting Resonance.statisticalFactor) : ∃ S x,
    build c sort .multi exampleEvaluation (constantRadius 0.6) (constantRadius 0.6) = .ok S ∧
    S.evaluate c .multi 20 = .ok x ∧ 0 ≤ x.elastic ∧ 0 ≤ x.capture := by
  obtain ⟨S, h1, h2⟩ := C58_exists (c := c) (sort := sort) (level := .multi) example_physical
  obtain ⟨x, hx⟩ := h2 20 (by norm_num)
  have hw := example_physical.widths
  exact ⟨S, x, h1, hx, C44_nonneg example_physical.spin example_allowed h1 hx,
    (C44_capture_fission example_physical.spin (fun lv hlv r hr => ⟨(hw lv hlv r hr).1,
      (hw lv hlv r hr).2.1.le, (hw lv hlv r hr).2.2.1⟩) h1 hx).1⟩

end Verif.Old
