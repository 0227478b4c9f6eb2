import Verif.Spec.LowEnergy
import Verif.Lemmas.Continuity
import Mathlib.Analysis.Calculus.DSlope
import Mathlib.Analysis.Calculus.Deriv.Inv
import Mathlib.Analysis.Calculus.Deriv.Pow
import Mathlib.Analysis.SpecialFunctions.ExpDeriv

/-!
# The channel functions and the R-matrix formulas at very low energies
-/

namespace Verif

open Filter Topology Complex

/-! ## Hard-sphere functions at small channel ratios -/

theorem pow_div_deriv {d : ℝ → ℝ} {d' : ℝ} (n : ℕ) (hd : HasDerivAt d d' 0) (h0 : d 0 ≠ 0) :
    HasDerivAt (fun ρ : ℝ => ρ ^ (n + 2) / d ρ) 0 0 := by
  have h := (hasDerivAt_pow (n + 2) (0 : ℝ)).div hd h0
  exact h.congr_deriv (by simp)

theorem hsP_deriv {l : ℕ} (hl : l ≤ 4) : HasDerivAt (hsP l) (if l = 0 then 1 else 0) 0 := by
  have poly : ∀ d : ℝ → ℝ, Differentiable ℝ d → d 0 ≠ 0 → ∀ n : ℕ,
      HasDerivAt (fun ρ : ℝ => ρ ^ (n + 2) / d ρ) 0 0 := fun d hd h0 n =>
    pow_div_deriv n (hd 0).hasDerivAt h0
  interval_cases l
  · exact hasDerivAt_id (0 : ℝ)
  · exact poly (fun ρ => 1 + ρ ^ 2) (by fun_prop) (by norm_num) 1
  · exact poly (fun ρ => 9 + 3 * ρ ^ 2 + ρ ^ 4) (by fun_prop) (by norm_num) 3
  · exact poly (fun ρ => 225 + 45 * ρ ^ 2 + 6 * ρ ^ 4 + ρ ^ 6) (by fun_prop) (by norm_num) 5
  · exact poly (fun ρ => 11025 + 1575 * ρ ^ 2 + 135 * ρ ^ 4 + 10 * ρ ^ 6 + ρ ^ 8) (by fun_prop)
      (by norm_num) 7

/-- The phase `exp(2iφ)` as a function of the channel ratio. -/
noncomputable def hsPhase (l : ℕ) (ρ : ℝ) : ℂ :=
  exp (2 * I * ((ρ - atanQuotient (hsX l ρ) (hsY l ρ) : ℝ) : ℂ))

theorem hsPhase_eq {l : ℕ} (hl : l ≤ 4) (ρ : ℝ) :
    hsPhase l ρ = exp (2 * I * ρ) * ((hsY l ρ - I * hsX l ρ) / (hsY l ρ + I * hsX l ρ)) :=
  exp_phase (fun _ _ _ => .error .throws) hl ρ 0 _ (calculatePhaseShift_eq _ hl ρ 0)

theorem hsX_deriv {l : ℕ} (hl : l ≤ 4) :
    ∃ y : ℝ, y ≠ 0 ∧ hsY l 0 = y ∧ hsX l 0 = 0 ∧ DifferentiableAt ℝ (hsY l) 0 ∧
      HasDerivAt (hsX l) (if l = 0 then 0 else y) 0 := by
  interval_cases l
  · exact ⟨1, one_ne_zero, rfl, rfl, differentiableAt_const _, hasDerivAt_const _ _⟩
  · exact ⟨1, one_ne_zero, rfl, rfl, differentiableAt_const _, hasDerivAt_id _⟩
  · refine ⟨3, by norm_num, by norm_num [hsY], by norm_num [hsX], ?_, ?_⟩
    · exact (by fun_prop : DifferentiableAt ℝ (fun ρ : ℝ => 3 - ρ ^ 2) 0)
    · have h := (hasDerivAt_id (0 : ℝ)).const_mul 3
      exact h.congr_deriv (by simp)
  · refine ⟨15, by norm_num, by norm_num [hsY], by norm_num [hsX], ?_, ?_⟩
    · exact (by fun_prop : DifferentiableAt ℝ (fun ρ : ℝ => 15 - 6 * ρ ^ 2) 0)
    · have h := (hasDerivAt_id (0 : ℝ)).mul
        ((by fun_prop : DifferentiableAt ℝ (fun ρ : ℝ => 15 - ρ ^ 2) 0).hasDerivAt)
      exact h.congr_deriv (by simp)
  · refine ⟨105, by norm_num, by norm_num [hsY], by norm_num [hsX], ?_, ?_⟩
    · exact (by fun_prop : DifferentiableAt ℝ (fun ρ : ℝ => 105 - 45 * ρ ^ 2 + ρ ^ 4) 0)
    · have h := (hasDerivAt_id (0 : ℝ)).mul
        ((by fun_prop : DifferentiableAt ℝ (fun ρ : ℝ => 105 - 10 * ρ ^ 2) 0).hasDerivAt)
      exact h.congr_deriv (by simp)

theorem hsPhase_deriv {l : ℕ} (hl : l ≤ 4) :
    hsPhase l 0 = 1 ∧ HasDerivAt (hsPhase l) (if l = 0 then 2 * I else 0) 0 := by
  obtain ⟨y, hy, hY0, hX0, hY, hX⟩ := hsX_deriv hl
  have hyc : (y : ℂ) ≠ 0 := ofReal_ne_zero.mpr hy
  have heq : hsPhase l = fun ρ : ℝ =>
      exp (2 * I * ρ) * ((hsY l ρ - I * hsX l ρ) / (hsY l ρ + I * hsX l ρ)) := funext (hsPhase_eq hl)
  constructor
  · rw [hsPhase_eq hl, hY0, hX0]
    simp [hyc]
  · rw [heq]
    have hXc : HasDerivAt (fun ρ : ℝ => (hsX l ρ : ℂ)) ((if l = 0 then 0 else y : ℝ) : ℂ) 0 := hX.ofReal_comp
    have hYc : HasDerivAt (fun ρ : ℝ => (hsY l ρ : ℂ)) ((deriv (hsY l) 0 : ℝ) : ℂ) 0 :=
      hY.hasDerivAt.ofReal_comp
    have hexp : HasDerivAt (fun ρ : ℝ => exp (2 * I * (ρ : ℂ))) (2 * I) 0 := by
      have h1 : HasDerivAt (fun ρ : ℝ => 2 * I * (ρ : ℂ)) (2 * I) 0 := by
        have := ((hasDerivAt_id (0 : ℝ)).ofReal_comp).const_mul (2 * I)
        simpa using this
      simpa using h1.cexp
    have hq := (hYc.sub (hXc.const_mul I)).div (hYc.add (hXc.const_mul I))
      (by simp only [Pi.add_apply, hY0, hX0]; simpa using hyc)
    have h := hexp.mul hq
    refine h.congr_deriv ?_
    simp only [Pi.sub_apply, Pi.add_apply, Pi.div_apply, hY0, hX0, ofReal_zero, mul_zero, exp_zero, sub_zero,
      add_zero, one_mul, div_self hyc, mul_one]
    split
    · simp only [ofReal_zero, mul_zero, sub_zero, add_zero]
      field_simp
      ring
    · field_simp
      ring

/-- A function of the channel ratio, to first order in the square root of the energy. -/
theorem root_slope {F : Type*} [NormedAddCommGroup F] [NormedSpace ℝ F] {f : ℝ → F} {f' : F}
    (hf : HasDerivAt f f' 0) {a : ℝ → ℝ} (ha : ContinuousAt a 0) (κ : ℝ) :
    Tendsto (fun E => (Real.sqrt E)⁻¹ • (f (κ * Real.sqrt E * a E) - f 0)) (𝓝[>] 0)
      (𝓝 ((κ * a 0) • f')) := by
  have hslope : ContinuousAt (dslope f 0) 0 := continuousAt_dslope_same.mpr hf.differentiableAt
  have ha' : Tendsto a (𝓝[>] 0) (𝓝 (a 0)) := ha.tendsto.mono_left nhdsWithin_le_nhds
  have hs : Tendsto Real.sqrt (𝓝[>] 0) (𝓝 0) := by
    have := (Real.continuous_sqrt.tendsto 0).mono_left (nhdsWithin_le_nhds (s := Set.Ioi 0))
    rwa [Real.sqrt_zero] at this
  have hρ : Tendsto (fun E => κ * Real.sqrt E * a E) (𝓝[>] 0) (𝓝 0) := by
    have := (hs.const_mul κ).mul ha'
    simpa using this
  have h1 := (ha'.const_mul κ).smul (hslope.tendsto.comp hρ)
  rw [dslope_same, hf.deriv] at h1
  refine h1.congr' ?_
  filter_upwards [self_mem_nhdsWithin] with E hE
  have hE' : Real.sqrt E ≠ 0 := (Real.sqrt_pos.mpr hE).ne'
  have := sub_smul_dslope f 0 (κ * Real.sqrt E * a E)
  rw [← this, smul_smul, sub_zero]
  congr 1
  field_simp

/-! ## Channels -/

section Channels

variable {K : Constants} {lib : CoulombLibrary} {c : Channel}

theorem waveNumber_root (hq : c.q = 0) {E : ℝ} (hE : 0 ≤ E) (hm : 0 ≤ c.incident.massRatio)
    (hμ : 0 ≤ c.pair.reducedMass) : c.waveNumber K E = c.waveNumber K 1 * Real.sqrt E := by
  unfold Channel.waveNumber
  rw [hq, add_zero, add_zero, one_mul, abs_of_nonneg (mul_nonneg hE hm), abs_of_nonneg hm,
    div_mul_eq_mul_div]
  congr 1
  rw [← Real.sqrt_mul (by positivity)]
  congr 1
  ring

/-- The functions of a channel close to the energy zero: `u` is the quotient of the penetrability and the
square root of the energy, `v` that of the phase. -/
structure SlowFunctions (K : Constants) (lib : CoulombLibrary) (c : Channel) (P S : ℝ → ℝ) (phi : ℝ → ℝ) :
    Prop where
  values : ∀ᶠ E in 𝓝 0, c.penetrability K lib E = .ok (P E) ∧ c.shiftFactor K lib E = .ok (S E) ∧
    c.coulombPhaseShift K E = .ok 0 ∧ c.phaseShift K lib E = .ok (phi E) ∧ 0 ≤ P E
  penetrability : ContinuousAt P 0
  shiftFactor : ContinuousAt S 0
  incident : c.isIncident → ∀ a b, c.radii.penetrability 0 = .ok a → c.radii.phaseShift 0 = .ok b →
    Tendsto (fun E => P E / Real.sqrt E) (𝓝[>] 0) (𝓝 (Spec.sWaveRatio K c a)) ∧
    Tendsto (fun E => (exp (2 * I * phi E) - 1) / Real.sqrt E) (𝓝[>] 0)
      (𝓝 (2 * I * Spec.sWaveRatio K c b))

theorem Spec.SlowChannel.functions (h : Spec.SlowChannel c) :
    ∃ P S phi, SlowFunctions K lib c P S phi := by
  obtain ⟨hn, hl, ⟨a, ha, hav⟩, hnn, ⟨b, hb, hbv⟩, ⟨d, hd, hdv⟩, hm, hinc⟩ := h
  have heta : ∀ E, c.eta K E = .ok 0 := fun E => if_neg hn
  have hk := (waveNumber_continuous K c).continuousAt (x := (0 : ℝ))
  cases ht : c.type with
  | charged => exact absurd ht hn
  | photon =>
    refine ⟨fun _ => 1, fun _ => 0, fun _ => 0, ?_, continuousAt_const, continuousAt_const, fun hi => ?_⟩
    · filter_upwards [hav, hbv, hdv] with E h1 h2 h3
      simp only [Channel.penetrability, Channel.shiftFactor, Channel.phaseShift,
        Channel.coulombPhaseShift, heta, h1, h2, h3, ht]
      exact ⟨rfl, rfl, rfl, rfl, zero_le_one⟩
    · rw [ht] at hinc; exact absurd (hinc hi).1 (by decide)
  | fission =>
    refine ⟨fun _ => 1, fun _ => 0, fun _ => 0, ?_, continuousAt_const, continuousAt_const, fun hi => ?_⟩
    · filter_upwards [hav, hbv, hdv] with E h1 h2 h3
      simp only [Channel.penetrability, Channel.shiftFactor, Channel.phaseShift,
        Channel.coulombPhaseShift, heta, h1, h2, h3, ht]
      exact ⟨rfl, rfl, rfl, rfl, zero_le_one⟩
    · rw [ht] at hinc; exact absurd (hinc hi).1 (by decide)
  | neutron =>
    have hl := hl ht
    refine ⟨fun E => hsP c.numbers.l (c.waveNumber K E * a E),
      fun E => hsS c.numbers.l (c.waveNumber K E * b E),
      fun E => c.waveNumber K E * d E - atanQuotient (hsX c.numbers.l (c.waveNumber K E * d E))
        (hsY c.numbers.l (c.waveNumber K E * d E)), ?_, ?_, ?_, fun hi a₀ d₀ ha₀ hd₀ => ?_⟩
    · filter_upwards [hav, hbv, hdv, hnn ht] with E h1 h2 h3 h4
      simp only [Channel.penetrability, Channel.shiftFactor, Channel.phaseShift,
        Channel.coulombPhaseShift, heta, h1, h2, h3, ht]
      exact ⟨calculatePenetrability_eq lib hl _ 0, calculateShiftFactor_eq lib hl _ 0, rfl,
        calculatePhaseShift_eq lib hl _ 0,
        hsP_nonneg hl (mul_nonneg (waveNumber_nonneg K c E) (h4 _ h1))⟩
    · exact (hsP_continuous hl).continuousAt.comp (f := fun E => c.waveNumber K E * a E) (hk.mul ha)
    · exact (hsS_continuous hl).continuousAt.comp (f := fun E => c.waveNumber K E * b E) (hk.mul hb)
    · obtain ⟨-, hq, hμ⟩ := hinc hi
      obtain rfl : a 0 = a₀ := Except.ok.inj (hav.self_of_nhds.symm.trans ha₀)
      obtain rfl : d 0 = d₀ := Except.ok.inj (hdv.self_of_nhds.symm.trans hd₀)
      have hroot : ∀ E, 0 < E → c.waveNumber K E = c.waveNumber K 1 * Real.sqrt E := fun E hE =>
        waveNumber_root hq hE.le hm.le hμ.le
      constructor
      · have h := root_slope (hsP_deriv hl) ha (c.waveNumber K 1)
        have e : Spec.sWaveRatio K c (a 0)
            = (c.waveNumber K 1 * a 0) • (if c.numbers.l = 0 then (1 : ℝ) else 0) := by
          unfold Spec.sWaveRatio
          split <;> simp
        rw [e]
        refine h.congr' ?_
        filter_upwards [self_mem_nhdsWithin] with E hE
        rw [hsP_at_zero hl, sub_zero, smul_eq_mul, hroot E hE, inv_mul_eq_div]
      · obtain ⟨h0, h1⟩ := hsPhase_deriv hl
        have h := root_slope h1 hd (c.waveNumber K 1)
        have e : 2 * I * (Spec.sWaveRatio K c (d 0) : ℂ)
            = (c.waveNumber K 1 * d 0) • (if c.numbers.l = 0 then 2 * I else 0) := by
          unfold Spec.sWaveRatio
          split <;> simp [mul_comm, mul_left_comm]
        rw [e]
        refine h.congr' ?_
        filter_upwards [self_mem_nhdsWithin] with E hE
        rw [h0, hroot E hE, real_smul, ofReal_inv, inv_mul_eq_div]
        rfl

end Channels

/-! ## Matrices -/

section Matrices

variable {n : ℕ} {ι : Type*} {F : Filter ι}

theorem tendsto_matrix {M : ι → Matrix (Fin n) (Fin n) ℂ} {M₀ : Matrix (Fin n) (Fin n) ℂ} :
    Tendsto M F (𝓝 M₀) ↔ ∀ c c', Tendsto (fun x => M x c c') F (𝓝 (M₀ c c')) := by
  constructor
  · intro h c c'
    exact (tendsto_pi_nhds.mp (tendsto_pi_nhds.mp h c)) c'
  · intro h
    exact tendsto_pi_nhds.mpr fun c => tendsto_pi_nhds.mpr fun c' => h c c'

theorem inverse_tendsto {M : ι → Matrix (Fin n) (Fin n) ℂ} {M₀ : Matrix (Fin n) (Fin n) ℂ}
    (hM : Tendsto M F (𝓝 M₀)) (h : M₀.det ≠ 0) :
    (∀ᶠ x in F, (M x).det ≠ 0) ∧ Tendsto (fun x => (M x)⁻¹) F (𝓝 M₀⁻¹) := by
  have hdet : Tendsto (fun x => (M x).det) F (𝓝 M₀.det) :=
    ((continuous_id.matrix_det (R := ℂ)).tendsto M₀).comp hM
  have hadj : Tendsto (fun x => (M x).adjugate) F (𝓝 M₀.adjugate) :=
    ((continuous_id.matrix_adjugate (R := ℂ)).tendsto M₀).comp hM
  refine ⟨hdet.eventually_ne h, ?_⟩
  simp only [Matrix.inv_def, Ring.inverse_eq_inv']
  exact (hdet.inv₀ h).smul hadj

end Matrices

section Formulas

variable {option : BoundaryOption} {K : Constants} {lib : CoulombLibrary} {channels : List Channel}
  {rs : List Resonance} {P S phi : Fin channels.length → ℝ → ℝ}

theorem rMatrix_slow (hm : ∀ c ∈ channels, 0 < c.incident.massRatio) :
    ∀ᶠ E in 𝓝[>] 0, Spec.rMatrix channels rs E = frozenR channels rs 0 E := by
  have h : ∀ᶠ E in 𝓝[>] (0 : ℝ), ∀ c : Fin channels.length, ∀ r,
      Spec.amplitude channels E r c = Spec.amplitude channels 0 r c := by
    rw [eventually_all]
    intro c
    have hv := (threshold_continuous channels[c]).continuousAt (x := (0 : ℝ))
    by_cases h : channels[c].belowThreshold 0
    · filter_upwards [nhdsWithin_le_nhds (hv.eventually_lt continuousAt_const h)] with E hE r
      have h1 : Spec.amplitude channels E r c = 0 := if_pos hE
      have h2 : Spec.amplitude channels 0 r c = 0 := if_pos h
      rw [h1, h2]
    · filter_upwards [self_mem_nhdsWithin] with E hE r
      have h3 : ¬ channels[c].belowThreshold E := by
        unfold Channel.belowThreshold at h ⊢
        have := mul_pos (hm channels[c] (List.getElem_mem _)) (Set.mem_Ioi.mp hE)
        simp only [mul_zero, zero_add] at h
        linarith
      have h1 : Spec.amplitude channels E r c = r.width c := if_neg h3
      have h2 : Spec.amplitude channels 0 r c = r.width c := if_neg h
      rw [h1, h2]
  filter_upwards [h] with E hE
  ext c c'
  simp only [Spec.rMatrix, frozenR, Matrix.of_apply, hE]

/-- The inner matrix of the formulas at an energy. -/
noncomputable def innerAt (option : BoundaryOption) (channels : List Channel) (rs : List Resonance) (E : ℝ)
    (P S : Fin channels.length → ℝ) : Matrix (Fin channels.length) (Fin channels.length) ℂ :=
  (Spec.levelDenominator option channels rs E P S)⁻¹ * Spec.rMatrix channels rs E

theorem inner_tendsto (hm : ∀ c ∈ channels, 0 < c.incident.massRatio)
    (hch : ∀ c : Fin channels.length, SlowFunctions K lib channels[c] (P c) (S c) (phi c))
    (hpole : ∀ r ∈ rs, ¬ (r.energy = 0 ∧ r.eliminated = 0))
    (hdet : (Spec.levelDenominator option channels rs 0 (fun c => P c 0) (fun c => S c 0)).det ≠ 0) :
    (∀ᶠ E in 𝓝[>] 0,
      (Spec.levelDenominator option channels rs E (fun c => P c E) (fun c => S c E)).det ≠ 0) ∧
    ∀ c c', Tendsto (fun E => innerAt option channels rs E (fun c => P c E) (fun c => S c E) c c') (𝓝[>] 0)
      (𝓝 (Spec.innerMatrix option channels rs (fun c => P c 0) (fun c => S c 0) c c')) := by
  have hR : Tendsto (fun E => Spec.rMatrix channels rs E) (𝓝[>] 0) (𝓝 (Spec.rMatrix channels rs 0)) := by
    have h := (frozenR_continuous (channels := channels) hpole).tendsto.mono_left
      (nhdsWithin_le_nhds (s := Set.Ioi 0))
    exact h.congr' ((rMatrix_slow hm).mono fun E hE => hE.symm)
  have hL : ∀ c, Tendsto (fun E => Spec.logDerivative option channels (fun c => P c E) (fun c => S c E) c)
      (𝓝[>] 0) (𝓝 (Spec.logDerivative option channels (fun c => P c 0) (fun c => S c 0) c)) := by
    intro c
    have hP : ContinuousAt (fun E => (P c E : ℂ)) 0 :=
      continuous_ofReal.continuousAt.comp (f := P c) (hch c).penetrability
    have hS : ContinuousAt (fun E => (S c E : ℂ)) 0 :=
      continuous_ofReal.continuousAt.comp (f := S c) (hch c).shiftFactor
    refine Tendsto.mono_left ?_ (nhdsWithin_le_nhds (s := Set.Ioi 0))
    simp only [Spec.logDerivative]
    cases option with
    | shiftFactor => exact (continuousAt_const.mul hP).tendsto
    | constant => exact ((hS.sub continuousAt_const).add (continuousAt_const.mul hP)).tendsto
  have hD : Tendsto (fun E => Spec.levelDenominator option channels rs E (fun c => P c E) (fun c => S c E))
      (𝓝[>] 0) (𝓝 (Spec.levelDenominator option channels rs 0 (fun c => P c 0) (fun c => S c 0))) := by
    refine tendsto_const_nhds.sub ?_
    rw [tendsto_matrix]
    intro c c'
    simp only [Matrix.mul_diagonal]
    exact (tendsto_matrix.mp hR c c').mul (hL c')
  obtain ⟨h1, h2⟩ := inverse_tendsto hD hdet
  exact ⟨h1, fun c c' => tendsto_matrix.mp (h2.mul hR) c c'⟩

variable {E : ℝ} {p s w φ : Fin channels.length → ℝ}

theorem tMatrix_inner (c c' : Fin channels.length) : Spec.tMatrix option channels rs E p s c c'
    = (Real.sqrt (p c) : ℂ) * innerAt option channels rs E p s c c' * (Real.sqrt (p c') : ℂ) := rfl

theorem tMatrix_same (hp : ∀ c, 0 ≤ p c) (c : Fin channels.length) :
    Spec.tMatrix option channels rs E p s c c = (p c : ℂ) * innerAt option channels rs E p s c c := by
  rw [tMatrix_inner, mul_right_comm, ← ofReal_mul, Real.mul_self_sqrt (hp c)]

theorem normSq_tMatrix (hp : ∀ c, 0 ≤ p c) (c c' : Fin channels.length) :
    normSq (Spec.tMatrix option channels rs E p s c c')
      = p c * (p c' * normSq (innerAt option channels rs E p s c c')) := by
  rw [tMatrix_inner, normSq_mul, normSq_mul, normSq_ofReal, normSq_ofReal, Real.mul_self_sqrt (hp c),
    Real.mul_self_sqrt (hp c')]
  ring

theorem capture_inner (hp : ∀ c, 0 ≤ p c) (c : Fin channels.length) :
    Spec.captureCrossSection (Spec.collision (Spec.tMatrix option channels rs E p s) w φ) c
      = 4 * p c * ((innerAt option channels rs E p s c c).im
          - ∑ c', p c' * normSq (innerAt option channels rs E p s c c')) := by
  have h : ∀ c', normSq ((if c = c' then 1 else 0) + 2 * I * Spec.tMatrix option channels rs E p s c c')
      = (if c = c' then 1 - 4 * (p c * (innerAt option channels rs E p s c c).im) else 0)
        + 4 * (p c * (p c' * normSq (innerAt option channels rs E p s c c'))) := by
    intro c'
    rw [← normSq_tMatrix hp]
    by_cases hc : c = c'
    · subst hc
      rw [if_pos rfl, if_pos rfl]
      have : p c * (innerAt option channels rs E p s c c).im
          = (Spec.tMatrix option channels rs E p s c c).im := by
        rw [tMatrix_same hp, im_ofReal_mul]
      rw [this]
      generalize Spec.tMatrix option channels rs E p s c c = z
      simp [normSq_apply]
      ring
    · rw [if_neg hc, if_neg hc, zero_add, zero_add, normSq_mul, normSq_mul, normSq_I]
      have : normSq 2 = 4 := by
        rw [show (2 : ℂ) = ((2 : ℝ) : ℂ) by norm_num, normSq_ofReal]
        norm_num
      rw [this, mul_one]
  simp only [Spec.captureCrossSection, normSq_collision, h]
  rw [Finset.sum_add_distrib, Finset.sum_ite_eq Finset.univ c, if_pos (Finset.mem_univ c), ← Finset.mul_sum,
    ← Finset.mul_sum]
  ring

theorem partial_other (hp : ∀ c, 0 ≤ p c) {c c' : Fin channels.length} (hc : c ≠ c') :
    Spec.partialCrossSection (Spec.collision (Spec.tMatrix option channels rs E p s) w φ) w c c'
      = 4 * (p c * (p c' * normSq (innerAt option channels rs E p s c c'))) := by
  simp only [Spec.partialCrossSection, if_neg hc, zero_sub, normSq_neg]
  rw [normSq_collision, if_neg hc, zero_add, normSq_mul, normSq_mul, normSq_I, normSq_tMatrix hp]
  have : normSq 2 = 4 := by
    rw [show (2 : ℂ) = ((2 : ℝ) : ℂ) by norm_num, normSq_ofReal]
    norm_num
  rw [this, mul_one]

theorem partial_same (hp : ∀ c, 0 ≤ p c) (hw : w = fun _ => 0) (c : Fin channels.length) :
    Spec.partialCrossSection (Spec.collision (Spec.tMatrix option channels rs E p s) w φ) w c c
      = normSq ((exp (2 * I * φ c) - 1) - 2 * I * (p c * innerAt option channels rs E p s c c)) := by
  have h1 : ∀ z : ℂ, normSq z = normSq (exp (2 * I * φ c) * z) := by
    intro z
    rw [normSq_mul]
    have : normSq (exp (2 * I * φ c)) = 1 := by
      rw [normSq_eq_norm_sq, norm_exp]
      simp
    rw [this, one_mul]
  simp only [Spec.partialCrossSection, Spec.collision, if_true, hw]
  rw [h1, tMatrix_same hp]
  congr 1
  have h2 : exp (I * (((0 : ℝ) : ℂ) - φ c)) * exp (I * (((0 : ℝ) : ℂ) - φ c)) * exp (2 * I * φ c) = 1 := by
    rw [← exp_add, ← exp_add, exp_eq_one_iff]
    exact ⟨0, by push_cast; ring⟩
  have h3 : exp (I * ((0 : ℝ) : ℂ)) = 1 := by simp
  rw [h3]
  linear_combination (-(1 + 2 * I * ((p c : ℂ) * innerAt option channels rs E p s c c))) * h2

theorem incidentFactor_slow (h : ∀ c ∈ channels, Spec.SlowChannel c) {E : ℝ} (hE : 0 < E) :
    Spec.incidentFactor K channels E = Spec.incidentFactor K channels 1 / E := by
  unfold Spec.incidentFactor
  cases hf : channels.find? Channel.isIncident with
  | none => simp
  | some c =>
    have hc := h c (List.mem_of_find?_eq_some hf)
    obtain ⟨-, hq, hμ⟩ := hc.incident (List.find?_some hf)
    simp only
    rw [waveNumber_root hq hE.le hc.massRatio.le hμ.le, mul_pow, Real.sq_sqrt hE.le]
    field_simp

/-- The limits of all contributions at the energy zero. -/
theorem slow_limits (hs : ∀ c ∈ channels, Spec.SlowChannel c)
    (hch : ∀ c : Fin channels.length, SlowFunctions K lib channels[c] (P c) (S c) (phi c))
    (hpole : ∀ r ∈ rs, ¬ (r.energy = 0 ∧ r.eliminated = 0))
    (hdet : (Spec.levelDenominator option channels rs 0 (fun c => P c 0) (fun c => S c 0)).det ≠ 0)
    {a b : Fin channels.length → ℝ}
    (ha : ∀ i : Fin channels.length, channels[i].radii.penetrability 0 = .ok (a i))
    (hb : ∀ i : Fin channels.length, channels[i].radii.phaseShift 0 = .ok (b i)) (id : ReactionID) :
    Tendsto (fun E => Real.sqrt E * Spec.contribution option K channels rs E (fun c => P c E)
      (fun c => S c E) (fun _ => 0) (fun c => phi c E) id) (𝓝[>] 0)
      (𝓝 (Spec.slowReaction K channels (Spec.innerMatrix option channels rs (fun c => P c 0) fun c => S c 0)
        (fun c => P c 0) a id)) ∧
    ((∀ c ∈ channels, c.reaction = id → c.isIncident) → Spec.captureID channels ≠ some id →
      Tendsto (fun E => Spec.contribution option K channels rs E (fun c => P c E)
        (fun c => S c E) (fun _ => 0) (fun c => phi c E) id) (𝓝[>] 0)
        (𝓝 (Spec.slowScattering K channels
          (Spec.innerMatrix option channels rs (fun c => P c 0) fun c => S c 0) a b id))) := by
  obtain ⟨-, hM⟩ := inner_tendsto (fun c hc => (hs c hc).massRatio) hch hpole hdet
  set M₀ := Spec.innerMatrix option channels rs (fun c => P c 0) (fun c => S c 0) with hM₀
  set M : ℝ → Matrix (Fin channels.length) (Fin channels.length) ℂ := fun E =>
    innerAt option channels rs E (fun c => P c E) (fun c => S c E) with hMdef
  have hP : ∀ c, Tendsto (P c) (𝓝[>] 0) (𝓝 (P c 0)) := fun c =>
    (hch c).penetrability.tendsto.mono_left nhdsWithin_le_nhds
  have hnn : ∀ᶠ E in 𝓝[>] 0, ∀ c, 0 ≤ P c E :=
    eventually_all.mpr fun c => nhdsWithin_le_nhds ((hch c).values.mono fun E h => h.2.2.2.2)
  have hroot : Tendsto Real.sqrt (𝓝[>] 0) (𝓝 0) := by
    have := (Real.continuous_sqrt.tendsto 0).mono_left (nhdsWithin_le_nhds (s := Set.Ioi 0))
    rwa [Real.sqrt_zero] at this
  have hnorm : ∀ c c', Tendsto (fun E => normSq (M E c c')) (𝓝[>] 0) (𝓝 (normSq (M₀ c c'))) := fun c c' =>
    (continuous_normSq.tendsto _).comp (hM c c')
  -- scattering into the same channel, divided by the energy
  have hsame : ∀ c, channels[c].isIncident → Tendsto (fun E => Spec.partialCrossSection (Spec.collision
      (Spec.tMatrix option channels rs E (fun c => P c E) (fun c => S c E)) (fun _ => 0) (fun c => phi c E))
      (fun _ => 0) c c / E) (𝓝[>] 0) (𝓝 (4 * normSq ((Spec.sWaveRatio K channels[c] (b c) : ℂ)
        - Spec.sWaveRatio K channels[c] (a c) * M₀ c c))) := by
    intro c hc
    obtain ⟨h1, h2⟩ := (hch c).incident hc (a c) (b c) (ha c) (hb c)
    have h3 := (h2.sub (((continuous_ofReal.tendsto _).comp h1).mul (hM c c) |>.const_mul (2 * I)))
    have h4 := (continuous_normSq.tendsto _).comp h3
    have e : normSq (2 * I * (Spec.sWaveRatio K channels[c] (b c) : ℂ)
        - 2 * I * ((Spec.sWaveRatio K channels[c] (a c) : ℂ) * M₀ c c))
        = 4 * normSq ((Spec.sWaveRatio K channels[c] (b c) : ℂ)
        - Spec.sWaveRatio K channels[c] (a c) * M₀ c c) := by
      rw [← mul_sub, normSq_mul, normSq_mul, normSq_I,
        show (2 : ℂ) = ((2 : ℝ) : ℂ) by norm_num, normSq_ofReal]
      norm_num
    rw [e] at h4
    refine h4.congr' ?_
    filter_upwards [hnn, self_mem_nhdsWithin] with E hE h0
    have hs0 : (Real.sqrt E : ℂ) ≠ 0 := ofReal_ne_zero.mpr (Real.sqrt_pos.mpr h0).ne'
    rw [partial_same hE rfl]
    simp only [Function.comp_apply, ofReal_div]
    rw [show (exp (2 * I * (phi c E : ℂ)) - 1) / (Real.sqrt E : ℂ)
        - 2 * I * ((P c E : ℂ) / (Real.sqrt E : ℂ)
          * innerAt option channels rs E (fun c => P c E) (fun c => S c E) c c)
      = (exp (2 * I * (phi c E : ℂ)) - 1 - 2 * I * ((P c E : ℂ)
          * innerAt option channels rs E (fun c => P c E) (fun c => S c E) c c)) / (Real.sqrt E : ℂ) by
      field_simp, normSq_div, normSq_ofReal, Real.mul_self_sqrt (Set.mem_Ioi.mp h0).le]
  -- the penetrability of an incident channel vanishes
  have hzero : ∀ c, channels[c].isIncident → P c 0 = 0 := by
    intro c hc
    obtain ⟨h1, -⟩ := (hch c).incident hc (a c) (b c) (ha c) (hb c)
    have h2 := h1.mul hroot
    rw [mul_zero] at h2
    refine tendsto_nhds_unique (hP c) (h2.congr' ?_)
    filter_upwards [self_mem_nhdsWithin] with E h0
    have := (Real.sqrt_pos.mpr (Set.mem_Ioi.mp h0)).ne'
    field_simp
  constructor
  · unfold Spec.slowReaction Spec.contribution
    simp only [Finset.mul_sum]
    refine tendsto_finsetSum _ fun c _ => ?_
    by_cases hc : channels[c].isIncident
    swap
    · simp only [if_neg hc, mul_zero]
      exact tendsto_const_nhds
    simp only [if_pos hc, mul_add, Finset.mul_sum]
    obtain ⟨h1, -⟩ := (hch c).incident hc (a c) (b c) (ha c) (hb c)
    refine Tendsto.add (tendsto_finsetSum _ fun c' _ => ?_) ?_
    · by_cases hid : channels[c'].reaction = id
      swap
      · simp only [if_neg hid, mul_zero]
        exact tendsto_const_nhds
      simp only [if_pos hid]
      by_cases hcc : c = c'
      · subst hcc
        rw [hzero c hc, zero_mul, mul_zero, mul_zero]
        have h2 := (hroot.mul (hsame c hc)).const_mul (Spec.incidentFactor K channels 1)
        rw [zero_mul, mul_zero] at h2
        refine h2.congr' ?_
        filter_upwards [self_mem_nhdsWithin] with E h0
        rw [incidentFactor_slow hs h0]
        ring
      · have h2 := ((h1.mul ((hP c').mul (hnorm c c'))).const_mul 4).const_mul
          (Spec.incidentFactor K channels 1)
        have e : Spec.incidentFactor K channels 1 * (4 * (Spec.sWaveRatio K channels[c] (a c)
            * (P c' 0 * normSq (M₀ c c')))) = Spec.incidentFactor K channels 1
            * (4 * Spec.sWaveRatio K channels[c] (a c) * (P c' 0 * normSq (M₀ c c'))) := by ring
        rw [e] at h2
        refine h2.congr' ?_
        filter_upwards [hnn, self_mem_nhdsWithin] with E hE h0
        rw [partial_other hE hcc, incidentFactor_slow hs h0]
        have h3 := (Real.sqrt_pos.mpr (Set.mem_Ioi.mp h0)).ne'
        have h4 : E = Real.sqrt E * Real.sqrt E := (Real.mul_self_sqrt (Set.mem_Ioi.mp h0).le).symm
        simp only [hMdef]
        generalize normSq (innerAt option channels rs E (fun c => P c E) (fun c => S c E) c c') = x
        generalize P c E = y at *
        generalize P c' E = z at *
        rw [show Spec.incidentFactor K channels 1 / E
          = Spec.incidentFactor K channels 1 / (Real.sqrt E * Real.sqrt E) by rw [← h4]]
        field_simp
    · by_cases hid : Spec.captureID channels = some id
      swap
      · simp only [if_neg hid, mul_zero]
        exact tendsto_const_nhds
      simp only [if_pos hid]
      have h2 : Tendsto (fun E => (M E c c).im - ∑ c', P c' E * normSq (M E c c')) (𝓝[>] 0)
          (𝓝 ((M₀ c c).im - ∑ c', P c' 0 * normSq (M₀ c c'))) :=
        ((continuous_im.tendsto _).comp (hM c c)).sub
          (tendsto_finsetSum _ fun c' _ => (hP c').mul (hnorm c c'))
      have h3 := ((h1.const_mul 4).mul h2).const_mul (Spec.incidentFactor K channels 1)
      refine h3.congr' ?_
      filter_upwards [hnn, self_mem_nhdsWithin] with E hE h0
      rw [capture_inner hE, incidentFactor_slow hs h0]
      have h3 := (Real.sqrt_pos.mpr (Set.mem_Ioi.mp h0)).ne'
      have h4 : E = Real.sqrt E * Real.sqrt E := (Real.mul_self_sqrt (Set.mem_Ioi.mp h0).le).symm
      simp only [hMdef]
      generalize (innerAt option channels rs E (fun c => P c E) (fun c => S c E) c c).im
        - ∑ c', P c' E * normSq (innerAt option channels rs E (fun c => P c E) (fun c => S c E) c c') = x
      generalize P c E = y at *
      rw [show Spec.incidentFactor K channels 1 / E
          = Spec.incidentFactor K channels 1 / (Real.sqrt E * Real.sqrt E) by rw [← h4]]
      field_simp
  · intro hinc hcap
    unfold Spec.slowScattering Spec.contribution
    refine tendsto_finsetSum _ fun c _ => ?_
    by_cases hc : channels[c].isIncident
    swap
    · simp only [if_neg hc]
      exact tendsto_const_nhds
    simp only [if_pos hc, if_neg hcap, add_zero]
    obtain ⟨h1, -⟩ := (hch c).incident hc (a c) (b c) (ha c) (hb c)
    refine tendsto_finsetSum _ fun c' _ => ?_
    by_cases hid : channels[c'].reaction = id
    swap
    · simp only [if_neg hid]
      exact tendsto_const_nhds
    simp only [if_pos hid]
    by_cases hcc : c = c'
    · subst hcc
      rw [if_pos rfl]
      refine ((hsame c hc).const_mul (Spec.incidentFactor K channels 1)).congr' ?_
      filter_upwards [self_mem_nhdsWithin] with E h0
      rw [incidentFactor_slow hs h0]
      ring
    · rw [if_neg hcc]
      obtain ⟨h1', -⟩ := (hch c').incident (hinc _ (List.getElem_mem _) hid) (a c') (b c') (ha c') (hb c')
      refine (((((h1.mul h1').mul (hnorm c c'))).const_mul 4).const_mul
        (Spec.incidentFactor K channels 1)).congr' ?_
      filter_upwards [hnn, self_mem_nhdsWithin] with E hE h0
      rw [partial_other hE hcc, incidentFactor_slow hs h0]
      have h3 := (Real.sqrt_pos.mpr (Set.mem_Ioi.mp h0)).ne'
      have h4 : E = Real.sqrt E * Real.sqrt E := (Real.mul_self_sqrt (Set.mem_Ioi.mp h0).le).symm
      simp only [hMdef]
      generalize normSq (innerAt option channels rs E (fun c => P c E) (fun c => S c E) c c') = x
      generalize P c E = y at *
      generalize P c' E = z at *
      rw [show Spec.incidentFactor K channels 1 / E
          = Spec.incidentFactor K channels 1 / (Real.sqrt E * Real.sqrt E) by rw [← h4]]
      field_simp

end Formulas

end Verif
