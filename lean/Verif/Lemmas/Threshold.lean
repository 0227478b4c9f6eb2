import Verif.Spec.Threshold
import Verif.Lemmas.LowEnergy

/-!
# The channel functions and the R-matrix formulas just above a threshold
-/

namespace Verif

open Filter Topology Complex Nat

/-- The penetrability at small channel ratios. -/
theorem hsP_power {l : ℕ} (hl : l ≤ 4) : ∃ d : ℝ → ℝ, Continuous d ∧
    (∀ ρ, hsP l ρ = ρ ^ (2 * l + 1) * d ρ) ∧ d 0 = (((2 * l - 1)‼ : ℝ) ^ 2)⁻¹ := by
  interval_cases l
  · exact ⟨fun _ => 1, continuous_const, fun ρ => by simp [hsP], by simp⟩
  · refine ⟨fun ρ => (1 + ρ ^ 2)⁻¹, Continuous.inv₀ (by fun_prop) fun ρ => (d1_pos ρ).ne',
      fun ρ => div_eq_mul_inv _ _, by simp [doubleFactorial]⟩
  · refine ⟨fun ρ => (9 + 3 * ρ ^ 2 + ρ ^ 4)⁻¹, Continuous.inv₀ (by fun_prop) fun ρ => (d2_pos ρ).ne',
      fun ρ => div_eq_mul_inv _ _, by norm_num [doubleFactorial]⟩
  · refine ⟨fun ρ => (225 + 45 * ρ ^ 2 + 6 * ρ ^ 4 + ρ ^ 6)⁻¹,
      Continuous.inv₀ (by fun_prop) fun ρ => (d3_pos ρ).ne', fun ρ => div_eq_mul_inv _ _,
      by norm_num [doubleFactorial]⟩
  · refine ⟨fun ρ => (11025 + 1575 * ρ ^ 2 + 135 * ρ ^ 4 + 10 * ρ ^ 6 + ρ ^ 8)⁻¹,
      Continuous.inv₀ (by fun_prop) fun ρ => (d4_pos ρ).ne', fun ρ => div_eq_mul_inv _ _,
      by norm_num [doubleFactorial]⟩

section Channels

variable {K : Constants} {lib : CoulombLibrary} {c : Channel} {E₀ : ℝ}

theorem waveNumber_above (ht : Spec.AtThreshold c E₀) (hm : 0 ≤ c.incident.massRatio) {E : ℝ} (hE : E₀ ≤ E)
    (hμ : 0 ≤ c.pair.reducedMass) :
    c.waveNumber K E = c.waveNumber K (E₀ + 1) * Real.sqrt (E - E₀) := by
  unfold Spec.AtThreshold at ht
  unfold Channel.waveNumber
  have h1 : E * c.incident.massRatio + c.q = (E - E₀) * c.incident.massRatio := by
    linear_combination ht
  have h2 : (E₀ + 1) * c.incident.massRatio + c.q = c.incident.massRatio := by
    linear_combination ht
  rw [h1, h2, abs_of_nonneg (mul_nonneg (sub_nonneg.mpr hE) hm), abs_of_nonneg hm, div_mul_eq_mul_div]
  congr 1
  rw [← Real.sqrt_mul (by positivity)]
  congr 1
  ring

/-- The functions of a channel around an energy. -/
structure SmoothFunctions (K : Constants) (lib : CoulombLibrary) (c : Channel) (E₀ : ℝ) (P S phi : ℝ → ℝ) :
    Prop where
  values : ∀ᶠ E in 𝓝 E₀, c.penetrability K lib E = .ok (P E) ∧ c.shiftFactor K lib E = .ok (S E) ∧
    c.coulombPhaseShift K E = .ok 0 ∧ c.phaseShift K lib E = .ok (phi E) ∧ 0 ≤ P E
  penetrability : ContinuousAt P E₀
  shiftFactor : ContinuousAt S E₀
  opening : Spec.AtThreshold c E₀ → c.type = .neutron → 0 < c.pair.reducedMass →
    ∀ a, c.radii.penetrability E₀ = .ok a → P E₀ = 0 ∧
    Tendsto (fun E => P E / Real.sqrt (E - E₀) ^ (2 * c.numbers.l + 1)) (𝓝[>] E₀)
      (𝓝 (Spec.thresholdPenetrability K c E₀ a))

theorem Spec.SmoothChannel.functions (h : Spec.SmoothChannel c E₀) {p : ℝ}
    (hp : c.penetrability K lib E₀ = .ok p) : ∃ P S phi, SmoothFunctions K lib c E₀ P S phi := by
  obtain ⟨hn, ⟨a, ha, hav⟩, hnn, ⟨b, hb, hbv⟩, ⟨d, hd, hdv⟩, hm⟩ := h
  have heta : ∀ E, c.eta K E = .ok 0 := fun E => if_neg hn
  have hk := (waveNumber_continuous K c).continuousAt (x := E₀)
  have ha0 := hav.self_of_nhds
  cases ht : c.type with
  | charged => exact absurd ht hn
  | photon =>
    refine ⟨fun _ => 1, fun _ => 0, fun _ => 0, ?_, continuousAt_const, continuousAt_const,
      fun _ hi => ?_⟩
    · filter_upwards [hav, hbv, hdv] with E h1 h2 h3
      simp only [Channel.penetrability, Channel.shiftFactor, Channel.phaseShift,
        Channel.coulombPhaseShift, heta, h1, h2, h3, ht]
      exact ⟨rfl, rfl, rfl, rfl, zero_le_one⟩
    · rw [ht] at hi; cases hi
  | fission =>
    refine ⟨fun _ => 1, fun _ => 0, fun _ => 0, ?_, continuousAt_const, continuousAt_const,
      fun _ hi => ?_⟩
    · filter_upwards [hav, hbv, hdv] with E h1 h2 h3
      simp only [Channel.penetrability, Channel.shiftFactor, Channel.phaseShift,
        Channel.coulombPhaseShift, heta, h1, h2, h3, ht]
      exact ⟨rfl, rfl, rfl, rfl, zero_le_one⟩
    · rw [ht] at hi; cases hi
  | neutron =>
    have hl : c.numbers.l ≤ 4 := by
      by_contra hl
      simp only [Channel.penetrability, heta, ha0, ht] at hp
      have : calculatePenetrability lib .neutron c.numbers.l (c.waveNumber K E₀ * a E₀) 0
          = .error .throws := by
        unfold calculatePenetrability
        match hm : c.numbers.l, hl with
        | 0, h | 1, h | 2, h | 3, h | 4, h => omega
        | _ + 5, _ => rfl
      change calculatePenetrability lib .neutron c.numbers.l (c.waveNumber K E₀ * a E₀) 0
        = .ok p at hp
      rw [this] at hp
      cases hp
    refine ⟨fun E => hsP c.numbers.l (c.waveNumber K E * a E),
      fun E => hsS c.numbers.l (c.waveNumber K E * b E),
      fun E => c.waveNumber K E * d E - atanQuotient (hsX c.numbers.l (c.waveNumber K E * d E))
        (hsY c.numbers.l (c.waveNumber K E * d E)), ?_, ?_, ?_, fun hthr _ hμ a₀ ha₀ => ⟨?_, ?_⟩⟩
    · filter_upwards [hav, hbv, hdv, hnn ht] with E h1 h2 h3 h4
      simp only [Channel.penetrability, Channel.shiftFactor, Channel.phaseShift,
        Channel.coulombPhaseShift, heta, h1, h2, h3, ht]
      exact ⟨calculatePenetrability_eq lib hl _ 0, calculateShiftFactor_eq lib hl _ 0, rfl,
        calculatePhaseShift_eq lib hl _ 0,
        hsP_nonneg hl (mul_nonneg (waveNumber_nonneg K c E) (h4 _ h1))⟩
    · exact (hsP_continuous hl).continuousAt.comp (f := fun E => c.waveNumber K E * a E) (hk.mul ha)
    · exact (hsS_continuous hl).continuousAt.comp (f := fun E => c.waveNumber K E * b E) (hk.mul hb)
    · simp only [waveNumber_threshold K hthr, zero_mul, hsP_at_zero hl]
    · obtain rfl : a E₀ = a₀ := Except.ok.inj (ha0.symm.trans ha₀)
      obtain ⟨q, hq, hqv, hq0⟩ := hsP_power hl
      have hρ : ContinuousAt (fun E => c.waveNumber K E * a E) E₀ := hk.mul ha
      have hρ0 : c.waveNumber K E₀ * a E₀ = 0 := by rw [waveNumber_threshold K hthr, zero_mul]
      have h1 : Tendsto (fun E => q (c.waveNumber K E * a E)) (𝓝[>] E₀) (𝓝 (q 0)) := by
        have h2 := (hq.tendsto (c.waveNumber K E₀ * a E₀)).comp hρ
        rw [hρ0] at h2
        exact h2.mono_left nhdsWithin_le_nhds
      have h2 : Tendsto (fun E => (c.waveNumber K (E₀ + 1) * a E) ^ (2 * c.numbers.l + 1)) (𝓝[>] E₀)
          (𝓝 ((c.waveNumber K (E₀ + 1) * a E₀) ^ (2 * c.numbers.l + 1))) :=
        ((ha.tendsto.const_mul _).pow _).mono_left nhdsWithin_le_nhds
      have h3 := h2.mul h1
      rw [hq0, ← div_eq_mul_inv] at h3
      refine h3.congr' ?_
      filter_upwards [self_mem_nhdsWithin] with E hE
      have hs : Real.sqrt (E - E₀) ≠ 0 := (Real.sqrt_pos.mpr (sub_pos.mpr hE)).ne'
      rw [hqv, eq_div_iff (pow_ne_zero _ hs), mul_right_comm, ← mul_pow,
        waveNumber_above hthr hm.le (Set.mem_Ioi.mp hE).le hμ.le, mul_right_comm (c.waveNumber K (E₀ + 1))]

end Channels

section Level

variable {option : BoundaryOption} {K : Constants} {lib : CoulombLibrary} {channels : List Channel}
  {rs : List Resonance} {P S phi : Fin channels.length → ℝ → ℝ} {E₀ : ℝ}

theorem rMatrix_above (hm : ∀ c ∈ channels, 0 < c.incident.massRatio) :
    ∀ᶠ E in 𝓝[>] E₀, Spec.rMatrix channels rs E = frozenR channels rs E₀ E := by
  have h : ∀ᶠ E in 𝓝[>] E₀, ∀ c : Fin channels.length, ∀ r,
      Spec.amplitude channels E r c = Spec.amplitude channels E₀ r c := by
    rw [eventually_all]
    intro c
    have hv := (threshold_continuous channels[c]).continuousAt (x := E₀)
    by_cases h : channels[c].belowThreshold E₀
    · filter_upwards [nhdsWithin_le_nhds (hv.eventually_lt continuousAt_const h)] with E hE r
      have h1 : Spec.amplitude channels E r c = 0 := if_pos hE
      have h2 : Spec.amplitude channels E₀ r c = 0 := if_pos h
      rw [h1, h2]
    · filter_upwards [self_mem_nhdsWithin] with E hE r
      have h3 : ¬ channels[c].belowThreshold E := by
        unfold Channel.belowThreshold at h ⊢
        have := mul_lt_mul_of_pos_left (Set.mem_Ioi.mp hE) (hm channels[c] (List.getElem_mem _))
        linarith
      have h1 : Spec.amplitude channels E r c = r.width c := if_neg h3
      have h2 : Spec.amplitude channels E₀ r c = r.width c := if_neg h
      rw [h1, h2]
  filter_upwards [h] with E hE
  ext c c'
  simp only [Spec.rMatrix, frozenR, Matrix.of_apply, hE]

theorem resonanceMatrix_tendsto (hm : ∀ c ∈ channels, 0 < c.incident.massRatio)
    (hch : ∀ c : Fin channels.length, SmoothFunctions K lib channels[c] E₀ (P c) (S c) (phi c))
    (hpole : ∀ r ∈ rs, ¬ (r.energy = E₀ ∧ r.eliminated = 0))
    (hdet : (Spec.levelDenominator option channels rs E₀ (fun c => P c E₀) (fun c => S c E₀)).det ≠ 0) :
    (∀ᶠ E in 𝓝[>] E₀,
      (Spec.levelDenominator option channels rs E (fun c => P c E) (fun c => S c E)).det ≠ 0) ∧
    ∀ c c', Tendsto (fun E => innerAt option channels rs E (fun c => P c E) (fun c => S c E) c c') (𝓝[>] E₀)
      (𝓝 (Spec.resonanceMatrix option channels rs E₀ (fun c => P c E₀) (fun c => S c E₀) c c')) := by
  have hR : Tendsto (fun E => Spec.rMatrix channels rs E) (𝓝[>] E₀) (𝓝 (Spec.rMatrix channels rs E₀)) := by
    have h := (frozenR_continuous (channels := channels) hpole).tendsto.mono_left
      (nhdsWithin_le_nhds (s := Set.Ioi E₀))
    exact h.congr' ((rMatrix_above hm).mono fun E hE => hE.symm)
  have hL : ∀ c, Tendsto (fun E => Spec.logDerivative option channels (fun c => P c E) (fun c => S c E) c)
      (𝓝[>] E₀) (𝓝 (Spec.logDerivative option channels (fun c => P c E₀) (fun c => S c E₀) c)) := by
    intro c
    have hP : ContinuousAt (fun E => (P c E : ℂ)) E₀ :=
      continuous_ofReal.continuousAt.comp (f := P c) (hch c).penetrability
    have hS : ContinuousAt (fun E => (S c E : ℂ)) E₀ :=
      continuous_ofReal.continuousAt.comp (f := S c) (hch c).shiftFactor
    refine Tendsto.mono_left ?_ (nhdsWithin_le_nhds (s := Set.Ioi E₀))
    simp only [Spec.logDerivative]
    cases option with
    | shiftFactor => exact (continuousAt_const.mul hP).tendsto
    | constant => exact ((hS.sub continuousAt_const).add (continuousAt_const.mul hP)).tendsto
  have hD : Tendsto (fun E => Spec.levelDenominator option channels rs E (fun c => P c E) (fun c => S c E))
      (𝓝[>] E₀) (𝓝 (Spec.levelDenominator option channels rs E₀ (fun c => P c E₀) (fun c => S c E₀))) := by
    refine tendsto_const_nhds.sub ?_
    rw [tendsto_matrix]
    intro c c'
    simp only [Matrix.mul_diagonal]
    exact (tendsto_matrix.mp hR c c').mul (hL c')
  obtain ⟨h1, h2⟩ := inverse_tendsto hD hdet
  exact ⟨h1, fun c c' => tendsto_matrix.mp (h2.mul hR) c c'⟩

theorem root_tendsto : Tendsto (fun E => Real.sqrt (E - E₀)) (𝓝[>] E₀) (𝓝 0) := by
  have h : Continuous fun E => Real.sqrt (E - E₀) := by fun_prop
  have := (h.tendsto E₀).mono_left (nhdsWithin_le_nhds (s := Set.Ioi E₀))
  rwa [sub_self, Real.sqrt_zero] at this

/-- The limit of the contribution to a reaction that opens at the energy. -/
theorem threshold_limit (hs : ∀ c ∈ channels, Spec.SmoothChannel c E₀)
    (hch : ∀ c : Fin channels.length, SmoothFunctions K lib channels[c] E₀ (P c) (S c) (phi c))
    (hpole : ∀ r ∈ rs, ¬ (r.energy = E₀ ∧ r.eliminated = 0))
    (hdet : (Spec.levelDenominator option channels rs E₀ (fun c => P c E₀) (fun c => S c E₀)).det ≠ 0)
    (hk : ∃ c, channels.find? Channel.isIncident = some c ∧ c.waveNumber K E₀ ≠ 0)
    {a : Fin channels.length → ℝ}
    (ha : ∀ i : Fin channels.length, channels[i].radii.penetrability E₀ = .ok (a i)) {id : ReactionID}
    {l : ℕ} (hid : Spec.OpensAt channels E₀ id l) :
    Tendsto (fun E => Spec.contribution option K channels rs E (fun c => P c E)
      (fun c => S c E) (fun _ => 0) (fun c => phi c E) id / Real.sqrt (E - E₀) ^ (2 * l + 1)) (𝓝[>] E₀)
      (𝓝 (Spec.thresholdReaction K channels
        (Spec.resonanceMatrix option channels rs E₀ (fun c => P c E₀) fun c => S c E₀) E₀
        (fun c => P c E₀) a id l)) := by
  obtain ⟨-, hM⟩ := resonanceMatrix_tendsto (fun c hc => (hs c hc).massRatio) hch hpole hdet
  set M₀ := Spec.resonanceMatrix option channels rs E₀ (fun c => P c E₀) (fun c => S c E₀) with hM₀
  have hP : ∀ c, Tendsto (P c) (𝓝[>] E₀) (𝓝 (P c E₀)) := fun c =>
    (hch c).penetrability.tendsto.mono_left nhdsWithin_le_nhds
  have hnn : ∀ᶠ E in 𝓝[>] E₀, ∀ c, 0 ≤ P c E :=
    eventually_all.mpr fun c => nhdsWithin_le_nhds ((hch c).values.mono fun E h => h.2.2.2.2)
  have hnorm : ∀ c c', Tendsto (fun E => normSq (innerAt option channels rs E (fun c => P c E)
      (fun c => S c E) c c')) (𝓝[>] E₀) (𝓝 (normSq (M₀ c c'))) := fun c c' =>
    (continuous_normSq.tendsto _).comp (hM c c')
  have hfac : Tendsto (Spec.incidentFactor K channels) (𝓝[>] E₀) (𝓝 (Spec.incidentFactor K channels E₀)) :=
    (incidentFactor_continuous hk).tendsto.mono_left nhdsWithin_le_nhds
  unfold Spec.thresholdReaction Spec.contribution
  simp only [Finset.sum_div]
  refine tendsto_finsetSum _ fun c _ => ?_
  by_cases hc : channels[c].isIncident
  swap
  · simp only [if_neg hc, zero_div]
    exact tendsto_const_nhds
  simp only [if_pos hc, if_neg hid.notCapture, add_zero, Finset.sum_div]
  refine tendsto_finsetSum _ fun c' _ => ?_
  by_cases hr : channels[c'].reaction = id
  swap
  · simp only [if_neg hr, if_neg (fun h : _ ∧ _ => hr h.1), zero_div]
    exact tendsto_const_nhds
  have hmem : channels[c'] ∈ channels := List.getElem_mem _
  have hcc : c ≠ c' := by
    rintro rfl
    exact hid.notIncident _ hmem hr hc
  obtain ⟨-, h1⟩ := (hch c').opening (hid.threshold _ hmem hr) (hid.neutron _ hmem hr)
    (hid.reducedMass _ hmem hr) _ (ha c')
  obtain ⟨k, hk⟩ := Nat.exists_eq_add_of_le (hid.momentum _ hmem hr)
  have h2 := hfac.mul (((hP c).const_mul 4).mul ((h1.mul (hnorm c c')).mul
    (root_tendsto.pow (2 * k))))
  have e : Spec.incidentFactor K channels E₀ * (4 * P c E₀ *
      (Spec.thresholdPenetrability K channels[c'] E₀ (a c') * normSq (M₀ c c') * 0 ^ (2 * k)))
      = if channels[c'].reaction = id ∧ channels[c'].numbers.l = l then Spec.incidentFactor K channels E₀ *
        (4 * P c E₀ * (Spec.thresholdPenetrability K channels[c'] E₀ (a c') * normSq (M₀ c c'))) else 0 := by
    rcases Nat.eq_zero_or_pos k with rfl | h0
    · rw [if_pos ⟨hr, hk⟩, mul_zero, pow_zero, mul_one]
    · rw [if_neg (by rintro ⟨-, h⟩; omega), zero_pow (by omega), mul_zero, mul_zero, mul_zero]
  rw [e] at h2
  refine h2.congr' ?_
  filter_upwards [hnn, self_mem_nhdsWithin] with E hE h0
  have h3 : Real.sqrt (E - E₀) ≠ 0 := (Real.sqrt_pos.mpr (sub_pos.mpr h0)).ne'
  rw [if_pos hr, partial_other hE hcc, hk]
  generalize normSq (innerAt option channels rs E (fun c => P c E) (fun c => S c E) c c') = x
  generalize P c E = y
  generalize P c' E = z
  generalize Real.sqrt (E - E₀) = q at h3 ⊢
  have h4 : q ^ (2 * (l + k) + 1) = q ^ (2 * l + 1) * q ^ (2 * k) := by ring
  rw [h4]
  have h5 : q ^ (2 * l + 1) ≠ 0 := pow_ne_zero _ h3
  have h6 : q ^ (2 * k) ≠ 0 := pow_ne_zero _ h3
  generalize q ^ (2 * l + 1) = u at h5 ⊢
  generalize q ^ (2 * k) = v at h6 ⊢
  field_simp

end Level

end Verif
