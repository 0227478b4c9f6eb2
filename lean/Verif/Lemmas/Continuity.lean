import Verif.Spec.Continuity
import Verif.Lemmas.HardSphere
import Verif.Lemmas.System
import Verif.Lemmas.CrossSections
import Mathlib.Topology.Instances.Matrix
import Mathlib.LinearAlgebra.Matrix.SchurComplement

/-!
# Lemmas on continuity in the energy
-/

namespace Verif

open Filter Topology Complex

/-! ## Hard-sphere functions -/

theorem hsP_continuous {l : ℕ} (hl : l ≤ 4) : Continuous (hsP l) := by
  interval_cases l
  · exact continuous_id
  · exact Continuous.div (f := fun ρ : ℝ => ρ ^ 3)
      (g := fun ρ => 1 + ρ ^ 2)
      (by fun_prop) (by fun_prop) fun x => (d1_pos x).ne'
  · exact Continuous.div (f := fun ρ : ℝ => ρ ^ 5)
      (g := fun ρ => 9 + 3 * ρ ^ 2 + ρ ^ 4)
      (by fun_prop) (by fun_prop) fun x => (d2_pos x).ne'
  · exact Continuous.div (f := fun ρ : ℝ => ρ ^ 7)
      (g := fun ρ => 225 + 45 * ρ ^ 2 + 6 * ρ ^ 4 + ρ ^ 6)
      (by fun_prop) (by fun_prop) fun x => (d3_pos x).ne'
  · exact Continuous.div (f := fun ρ : ℝ => ρ ^ 9)
      (g := fun ρ => 11025 + 1575 * ρ ^ 2 + 135 * ρ ^ 4 + 10 * ρ ^ 6 + ρ ^ 8)
      (by fun_prop) (by fun_prop) fun x => (d4_pos x).ne'

theorem hsS_continuous {l : ℕ} (hl : l ≤ 4) : Continuous (hsS l) := by
  interval_cases l
  · exact continuous_const
  · exact Continuous.div (f := fun ρ : ℝ => -1)
      (g := fun ρ => 1 + ρ ^ 2)
      (by fun_prop) (by fun_prop) fun x => (d1_pos x).ne'
  · exact Continuous.div (f := fun ρ : ℝ => -(18 + 3 * ρ ^ 2))
      (g := fun ρ => 9 + 3 * ρ ^ 2 + ρ ^ 4)
      (by fun_prop) (by fun_prop) fun x => (d2_pos x).ne'
  · exact Continuous.div (f := fun ρ : ℝ => -(675 + 90 * ρ ^ 2 + 6 * ρ ^ 4))
      (g := fun ρ => 225 + 45 * ρ ^ 2 + 6 * ρ ^ 4 + ρ ^ 6)
      (by fun_prop) (by fun_prop) fun x => (d3_pos x).ne'
  · exact Continuous.div (f := fun ρ : ℝ => -(44100 + 4725 * ρ ^ 2 + 270 * ρ ^ 4 + 10 * ρ ^ 6))
      (g := fun ρ => 11025 + 1575 * ρ ^ 2 + 135 * ρ ^ 4 + 10 * ρ ^ 6 + ρ ^ 8)
      (by fun_prop) (by fun_prop) fun x => (d4_pos x).ne'

theorem hsP_nonneg {l : ℕ} (hl : l ≤ 4) {x : ℝ} (hx : 0 ≤ x) : 0 ≤ hsP l x := by
  interval_cases l <;> simp only [hsP] <;> positivity

theorem hsP_at_zero {l : ℕ} (hl : l ≤ 4) : hsP l 0 = 0 := by
  interval_cases l <;> simp [hsP]

theorem hsS_at_zero {l : ℕ} (hl : l ≤ 4) : hsS l 0 = -(l : ℝ) := by
  interval_cases l <;> norm_num [hsS]

theorem hsX_continuous {l : ℕ} (hl : l ≤ 4) : Continuous (hsX l) := by
  interval_cases l
  · exact continuous_const
  · exact continuous_id
  · exact continuous_const.mul continuous_id
  · exact Continuous.mul (f := fun ρ : ℝ => ρ) (g := fun ρ => 15 - ρ ^ 2) (by fun_prop) (by fun_prop)
  · exact Continuous.mul (f := fun ρ : ℝ => ρ) (g := fun ρ => 105 - 10 * ρ ^ 2) (by fun_prop)
      (by fun_prop)

theorem hsY_continuous {l : ℕ} (hl : l ≤ 4) : Continuous (hsY l) := by
  interval_cases l
  · exact continuous_const
  · exact continuous_const
  · exact Continuous.sub (f := fun ρ : ℝ => 3) (g := fun ρ => ρ ^ 2) (by fun_prop) (by fun_prop)
  · exact Continuous.sub (f := fun ρ : ℝ => 15) (g := fun ρ => 6 * ρ ^ 2) (by fun_prop) (by fun_prop)
  · exact Continuous.add (f := fun ρ : ℝ => 105 - 45 * ρ ^ 2) (g := fun ρ => ρ ^ 4) (by fun_prop)
      (by fun_prop)

/-- The phase of the hard sphere as far as cross sections depend on it. -/
theorem hsPhase_continuous {l : ℕ} (hl : l ≤ 4) :
    Continuous fun ρ : ℝ => exp (2 * I * ((ρ - atanQuotient (hsX l ρ) (hsY l ρ) : ℝ) : ℂ)) := by
  have h : (fun ρ : ℝ => exp (2 * I * ((ρ - atanQuotient (hsX l ρ) (hsY l ρ) : ℝ) : ℂ)))
      = fun ρ : ℝ => exp (2 * I * ρ) * ((hsY l ρ - I * hsX l ρ) / (hsY l ρ + I * hsX l ρ)) := by
    funext ρ
    exact exp_phase (fun _ _ _ => .error .throws) hl ρ 0 _ (calculatePhaseShift_eq _ hl ρ 0)
  rw [h]
  have hX := hsX_continuous hl
  have hY := hsY_continuous hl
  refine Continuous.mul (by fun_prop) (Continuous.div (by fun_prop) (by fun_prop) fun ρ => ?_)
  exact (hsXY_ne hl ρ).1

/-! ## Channels -/

/-- The functions of a channel around an energy. -/
structure ContinuousChannel (option : BoundaryOption) (K : Constants) (lib : CoulombLibrary)
    (c : Channel) (E₀ : ℝ) (P S w phi : ℝ → ℝ) : Prop where
  values : ∀ᶠ E in 𝓝 E₀, c.penetrability K lib E = .ok (P E) ∧
    (option = .constant → c.shiftFactor K lib E = .ok (S E)) ∧
    c.coulombPhaseShift K E = .ok (w E) ∧ c.phaseShift K lib E = .ok (phi E) ∧ 0 ≤ P E
  penetrability : ContinuousAt P E₀
  shiftFactor : option = .constant → ContinuousAt S E₀
  coulomb : ContinuousAt w E₀
  phase : ContinuousAt (fun E => exp (2 * I * phi E)) E₀
  threshold : Spec.AtThreshold c E₀ → P E₀ = 0 ∧ (option = .constant → S E₀ = c.boundary)

theorem waveNumber_continuous (K : Constants) (c : Channel) : Continuous (c.waveNumber K) := by
  unfold Channel.waveNumber
  fun_prop

theorem waveNumber_nonneg (K : Constants) (c : Channel) (E : ℝ) : 0 ≤ c.waveNumber K E :=
  div_nonneg (Real.sqrt_nonneg _) K.hbar_pos.le

theorem waveNumber_threshold (K : Constants) {c : Channel} {E : ℝ} (h : Spec.AtThreshold c E) :
    c.waveNumber K E = 0 := by
  unfold Channel.waveNumber
  have : E * c.incident.massRatio + c.q = 0 := by rw [mul_comm]; exact h
  rw [this]
  simp

variable {option : BoundaryOption} {K : Constants} {lib : CoulombLibrary} {E₀ : ℝ}

/-- Regular channels whose functions exist at the energy. -/
theorem Spec.Regular.continuous {c : Channel} (h : Spec.Regular option c E₀)
    {p : ℝ} (hp : c.penetrability K lib E₀ = .ok p) :
    ∃ P S w phi, ContinuousChannel option K lib c E₀ P S w phi := by
  obtain ⟨hn, ⟨a, ha, hav⟩, hnn, ⟨b, hb, hbv⟩, ⟨d, hd, hdv⟩, hthr⟩ := h
  have heta : ∀ E, c.eta K E = .ok 0 := fun E => if_neg hn
  have hk := (waveNumber_continuous K c).continuousAt (x := E₀)
  have ha0 := hav.self_of_nhds
  cases ht : c.type with
  | charged => exact absurd ht hn
  | photon =>
    refine ⟨fun _ => 1, fun _ => 0, fun _ => 0, fun _ => 0, ?_, continuousAt_const,
      fun _ => continuousAt_const, continuousAt_const, continuousAt_const, fun hh => ?_⟩
    · filter_upwards [hav, hbv, hdv] with E h1 h2 h3
      simp only [Channel.penetrability, Channel.shiftFactor, Channel.phaseShift,
        Channel.coulombPhaseShift, heta, h1, h2, h3, ht]
      exact ⟨rfl, fun _ => rfl, rfl, rfl, zero_le_one⟩
    · rw [ht] at hthr; exact absurd (hthr hh).1 (by decide)
  | fission =>
    refine ⟨fun _ => 1, fun _ => 0, fun _ => 0, fun _ => 0, ?_, continuousAt_const,
      fun _ => continuousAt_const, continuousAt_const, continuousAt_const, fun hh => ?_⟩
    · filter_upwards [hav, hbv, hdv] with E h1 h2 h3
      simp only [Channel.penetrability, Channel.shiftFactor, Channel.phaseShift,
        Channel.coulombPhaseShift, heta, h1, h2, h3, ht]
      exact ⟨rfl, fun _ => rfl, rfl, rfl, zero_le_one⟩
    · rw [ht] at hthr; exact absurd (hthr hh).1 (by decide)
  | neutron =>
    have hl : c.numbers.l ≤ 4 := by
      by_contra hl
      simp only [Channel.penetrability, heta, ha0, ht] at hp
      have : calculatePenetrability lib .neutron c.numbers.l (c.waveNumber K E₀ * a E₀) 0
          = .error .throws := by
        unfold calculatePenetrability
        match hm : c.numbers.l, hl with
        | 0, h | 1, h | 2, h | 3, h | 4, h => omega
        | _ + 5, _ => rfl
      change calculatePenetrability lib .neutron c.numbers.l (c.waveNumber K E₀ * a E₀) 0
        = .ok p at hp
      rw [this] at hp
      cases hp
    refine ⟨fun E => hsP c.numbers.l (c.waveNumber K E * a E),
      fun E => hsS c.numbers.l (c.waveNumber K E * b E), fun _ => 0,
      fun E => c.waveNumber K E * d E - atanQuotient (hsX c.numbers.l (c.waveNumber K E * d E))
        (hsY c.numbers.l (c.waveNumber K E * d E)), ?_, ?_, fun _ => ?_, continuousAt_const, ?_,
      fun hh => ⟨?_, fun ho => ?_⟩⟩
    · filter_upwards [hav, hbv, hdv, hnn ht] with E h1 h2 h3 h4
      simp only [Channel.penetrability, Channel.shiftFactor, Channel.phaseShift,
        Channel.coulombPhaseShift, heta, h1, h2, h3, ht]
      exact ⟨calculatePenetrability_eq lib hl _ 0, fun _ => calculateShiftFactor_eq lib hl _ 0, rfl,
        calculatePhaseShift_eq lib hl _ 0,
        hsP_nonneg hl (mul_nonneg (waveNumber_nonneg K c E) (h4 _ h1))⟩
    · exact (hsP_continuous hl).continuousAt.comp (f := fun E => c.waveNumber K E * a E) (hk.mul ha)
    · exact (hsS_continuous hl).continuousAt.comp (f := fun E => c.waveNumber K E * b E) (hk.mul hb)
    · exact (hsPhase_continuous hl).continuousAt.comp (f := fun E => c.waveNumber K E * d E)
        (hk.mul hd)
    · simp only [waveNumber_threshold K hh, zero_mul, hsP_at_zero hl]
    · simp only [waveNumber_threshold K hh, zero_mul, hsS_at_zero hl]
      exact ((hthr hh).2 ho).symm

/-! ## Matrices -/

section Matrices

variable {n : ℕ}

open Matrix in
/-- Leaving a channel out of the R-matrix or out of the other matrices comes to the same. -/
theorem closed_channels (R : Matrix (Fin n) (Fin n) ℂ) (d L : Fin n → ℂ)
    (hd : ∀ i, d i * d i = d i) :
    (1 - diagonal d * R * diagonal d * diagonal L).det
      = (1 - R * diagonal fun i => d i * L i).det ∧
    ((1 - R * diagonal fun i => d i * L i).det ≠ 0 → ∀ s : Fin n → ℂ, ∀ i j,
      s i * ((1 - diagonal d * R * diagonal d * diagonal L)⁻¹ * (diagonal d * R * diagonal d)) i j
          * s j
        = d i * s i * ((1 - R * diagonal fun i => d i * L i)⁻¹ * R) i j * (d j * s j)) := by
  set X := R * diagonal fun i => d i * L i with hX
  have h1 : diagonal d * R * diagonal d * diagonal L = diagonal d * X := by
    rw [Matrix.mul_assoc (diagonal d * R), diagonal_mul_diagonal, Matrix.mul_assoc]
  have h2 : X * diagonal d = X := by
    rw [hX, Matrix.mul_assoc, diagonal_mul_diagonal]
    congr 2
    funext i
    rw [mul_right_comm, hd]
  have hdet : (1 - diagonal d * X).det = (1 - X).det := by
    rw [Matrix.det_one_sub_mul_comm, h2]
  rw [h1]
  refine ⟨hdet, fun hne s i j => ?_⟩
  have hu : IsUnit (1 - X).det := isUnit_iff_ne_zero.mpr hne
  have hu' : IsUnit (1 - diagonal d * X).det := by rw [hdet]; exact hu
  have key : (1 - diagonal d * X) * diagonal d = diagonal d * (1 - X) := by
    rw [Matrix.sub_mul, Matrix.mul_sub, Matrix.one_mul, Matrix.mul_one, Matrix.mul_assoc, h2]
  have push : (1 - diagonal d * X)⁻¹ * diagonal d = diagonal d * (1 - X)⁻¹ := by
    calc (1 - diagonal d * X)⁻¹ * diagonal d
        = (1 - diagonal d * X)⁻¹ * (diagonal d * ((1 - X) * (1 - X)⁻¹)) := by
          rw [mul_nonsing_inv _ hu, Matrix.mul_one]
      _ = (1 - diagonal d * X)⁻¹ * ((1 - diagonal d * X) * diagonal d) * (1 - X)⁻¹ := by
          rw [key]; simp only [Matrix.mul_assoc]
      _ = diagonal d * (1 - X)⁻¹ := by
          rw [← Matrix.mul_assoc (1 - diagonal d * X)⁻¹, nonsing_inv_mul _ hu', Matrix.one_mul]
  have h3 : (1 - diagonal d * X)⁻¹ * (diagonal d * R * diagonal d)
      = diagonal d * ((1 - X)⁻¹ * R) * diagonal d := by
    rw [Matrix.mul_assoc (diagonal d) R, ← Matrix.mul_assoc (1 - diagonal d * X)⁻¹, push]
    simp only [Matrix.mul_assoc]
  rw [h3, mul_diagonal, diagonal_mul]
  ring

theorem inverse_continuous {M : ℝ → Matrix (Fin n) (Fin n) ℂ} (hM : ContinuousAt M E₀)
    (h : (M E₀).det ≠ 0) : ContinuousAt (fun E => (M E)⁻¹) E₀ := by
  have hdet : ContinuousAt (fun E => (M E).det) E₀ :=
    (continuous_id.matrix_det (R := ℂ)).continuousAt.comp (f := M) hM
  have hadj : ContinuousAt (fun E => (M E).adjugate) E₀ :=
    (continuous_id.matrix_adjugate (R := ℂ)).continuousAt.comp (f := M) hM
  simp only [Matrix.inv_def, Ring.inverse_eq_inv']
  exact (hdet.inv₀ h).smul hadj

end Matrices

/-! ## The T-matrix -/

section TMatrix

variable {channels : List Channel} {rs : List Resonance}
  {P S w phi : Fin channels.length → ℝ → ℝ}

open Classical in
/-- Whether a channel is open, as a factor. -/
noncomputable def openFactor (channels : List Channel) (E : ℝ) (c : Fin channels.length) : ℂ :=
  if channels[c].belowThreshold E then 0 else 1

/-- The R-matrix as if the channels open at `E₀` were open everywhere. -/
noncomputable def frozenR (channels : List Channel) (rs : List Resonance) (E₀ E : ℝ) :
    Matrix (Fin channels.length) (Fin channels.length) ℂ :=
  Matrix.of fun c c' => (rs.map fun r =>
    (Spec.amplitude channels E₀ r c : ℂ) * Spec.amplitude channels E₀ r c'
      / ((r.energy : ℂ) - E - I * (r.eliminated : ℂ) ^ 2)).sum

theorem frozenR_continuous
    (hpole : ∀ r ∈ rs, ¬ (r.energy = E₀ ∧ r.eliminated = 0)) :
    ContinuousAt (frozenR channels rs E₀) E₀ := by
  refine continuousAt_pi.mpr fun c => continuousAt_pi.mpr fun c' => ?_
  simp only [frozenR, Matrix.of_apply]
  induction rs with
  | nil => exact continuousAt_const
  | cons r rs ih =>
    simp only [List.map_cons, List.sum_cons]
    refine ContinuousAt.add ?_ (ih fun r hr => hpole r (List.mem_cons_of_mem _ hr))
    refine ContinuousAt.div continuousAt_const (by fun_prop) ?_
    have := (denominator_ne_zero r E₀).mpr (hpole r List.mem_cons_self)
    rw [denominator_eq] at this
    exact this

theorem openFactor_idem (E : ℝ) (c : Fin channels.length) :
    openFactor channels E c * openFactor channels E c = openFactor channels E c := by
  unfold openFactor
  split <;> simp

theorem threshold_continuous (c : Channel) :
    Continuous fun E : ℝ => c.incident.massRatio * E + c.q := by fun_prop

theorem openFactor_mul (c : Fin channels.length) {f : ℝ → ℂ} (hf : ContinuousAt f E₀)
    (h0 : Spec.AtThreshold channels[c] E₀ → f E₀ = 0) :
    ContinuousAt (fun E => openFactor channels E c * f E) E₀ := by
  have hv := (threshold_continuous channels[c]).continuousAt (x := E₀)
  rcases lt_trichotomy (channels[c].incident.massRatio * E₀ + channels[c].q) 0 with h | h | h
  · refine continuousAt_const.congr (f := fun _ => (0 : ℂ)) ?_
    filter_upwards [hv.eventually_lt continuousAt_const h] with E hE
    have : openFactor channels E c = 0 := if_pos hE
    rw [this, zero_mul]
  · have hf0 := h0 h
    rw [ContinuousAt, hf0, mul_zero]
    rw [ContinuousAt, hf0] at hf
    refine squeeze_zero_norm (a := fun E => ‖f E‖) (fun E => ?_) (by simpa using hf.norm)
    unfold openFactor
    split <;> simp
  · refine hf.congr ?_
    filter_upwards [continuousAt_const.eventually_lt hv h] with E hE
    have : openFactor channels E c = 1 := if_neg (not_lt.mpr hE.le)
    rw [this, one_mul]

theorem amplitude_factor : ∀ᶠ E in 𝓝 E₀, ∀ c : Fin channels.length, ∀ r,
    (Spec.amplitude channels E r c : ℂ) = openFactor channels E c * Spec.amplitude channels E₀ r c := by
  rw [eventually_all]
  intro c
  have hv := (threshold_continuous channels[c]).continuousAt (x := E₀)
  by_cases h : channels[c].belowThreshold E₀
  · filter_upwards [hv.eventually_lt continuousAt_const h] with E hE r
    have h1 : Spec.amplitude channels E r c = 0 := if_pos hE
    have h2 : Spec.amplitude channels E₀ r c = 0 := if_pos h
    rw [h1, h2]
    simp
  · filter_upwards with E r
    have h2 : Spec.amplitude channels E₀ r c = r.width c := if_neg h
    rw [h2]
    unfold Spec.amplitude openFactor
    split <;> simp

theorem rMatrix_frozen : ∀ᶠ E in 𝓝 E₀, Spec.rMatrix channels rs E =
    Matrix.diagonal (openFactor channels E) * frozenR channels rs E₀ E
      * Matrix.diagonal (openFactor channels E) := by
  filter_upwards [amplitude_factor (channels := channels) (E₀ := E₀)] with E hE
  ext c c'
  rw [Matrix.mul_diagonal, Matrix.diagonal_mul]
  simp only [Spec.rMatrix, frozenR, Matrix.of_apply]
  rw [← List.sum_map_mul_left, ← List.sum_map_mul_right]
  congr 1
  refine List.map_congr_left fun r _ => ?_
  rw [hE, hE]
  ring

/-- Around an energy where `1 - R L` is invertible it remains so and the T-matrix is continuous. -/
theorem tMatrix_continuous
    (hch : ∀ c : Fin channels.length,
      ContinuousChannel option K lib channels[c] E₀ (P c) (S c) (w c) (phi c))
    (hpole : ∀ r ∈ rs, ¬ (r.energy = E₀ ∧ r.eliminated = 0))
    (hdet : (Spec.levelDenominator option channels rs E₀ (fun c => P c E₀) (fun c => S c E₀)).det
      ≠ 0) :
    (∀ᶠ E in 𝓝 E₀,
      (Spec.levelDenominator option channels rs E (fun c => P c E) (fun c => S c E)).det ≠ 0) ∧
    ∀ c c', ContinuousAt (fun E =>
      Spec.tMatrix option channels rs E (fun c => P c E) (fun c => S c E) c c') E₀ := by
  set L : ℝ → Fin channels.length → ℂ := fun E =>
    Spec.logDerivative option channels (fun c => P c E) (fun c => S c E) with hL
  set M : ℝ → Matrix (Fin channels.length) (Fin channels.length) ℂ := fun E =>
    1 - frozenR channels rs E₀ E * Matrix.diagonal fun c => openFactor channels E c * L E c with hM
  have hR := frozenR_continuous (channels := channels) hpole
  have hLc : ∀ c, ContinuousAt (fun E => openFactor channels E c * L E c) E₀ := by
    intro c
    have hP : ContinuousAt (fun E => (P c E : ℂ)) E₀ :=
      continuous_ofReal.continuousAt.comp (f := P c) (hch c).penetrability
    refine openFactor_mul c ?_ fun ht => ?_
    · simp only [hL, Spec.logDerivative]
      cases option with
      | shiftFactor => exact continuousAt_const.mul hP
      | constant =>
        have hS : ContinuousAt (fun E => (S c E : ℂ)) E₀ :=
          continuous_ofReal.continuousAt.comp (f := S c) ((hch c).shiftFactor rfl)
        exact (hS.sub continuousAt_const).add (continuousAt_const.mul hP)
    · obtain ⟨h1, h2⟩ := (hch c).threshold ht
      simp only [hL, Spec.logDerivative]
      cases option with
      | shiftFactor => simp [h1]
      | constant => simp only [h1, h2 rfl]; simp
  have hMc : ContinuousAt M E₀ := by
    refine continuousAt_const.sub ?_
    refine continuousAt_pi.mpr fun c => continuousAt_pi.mpr fun c' => ?_
    simp only [Matrix.mul_diagonal]
    exact ((continuousAt_pi.mp (continuousAt_pi.mp hR c)) c').mul (hLc c')
  have hfac : ∀ᶠ E in 𝓝 E₀,
      Spec.levelDenominator option channels rs E (fun c => P c E) (fun c => S c E)
        = 1 - Matrix.diagonal (openFactor channels E) * frozenR channels rs E₀ E
          * Matrix.diagonal (openFactor channels E) * Matrix.diagonal (L E) := by
    filter_upwards [rMatrix_frozen (channels := channels) (rs := rs) (E₀ := E₀)] with E hE
    rw [Spec.levelDenominator, hE]
  have hM0 : (M E₀).det ≠ 0 := by
    rw [hfac.self_of_nhds, (closed_channels _ _ _ (openFactor_idem E₀)).1] at hdet
    exact hdet
  have hdetc : ContinuousAt (fun E => (M E).det) E₀ :=
    (continuous_id.matrix_det (R := ℂ)).continuousAt.comp (f := M) hMc
  have hMne := hdetc.eventually_ne hM0
  refine ⟨?_, fun c c' => ?_⟩
  · filter_upwards [hfac, hMne] with E h1 h2
    rw [h1, (closed_channels _ _ _ (openFactor_idem E)).1]
    exact h2
  · have hsq : ∀ c, ContinuousAt (fun E => openFactor channels E c * (Real.sqrt (P c E) : ℂ)) E₀ := by
      intro c
      refine openFactor_mul c ?_ fun ht => ?_
      · exact continuous_ofReal.continuousAt.comp (f := fun E => Real.sqrt (P c E))
          (Real.continuous_sqrt.continuousAt.comp (f := P c) (hch c).penetrability)
      · rw [((hch c).threshold ht).1]
        simp
    have hprod : ContinuousAt (fun E => (M E)⁻¹ * frozenR channels rs E₀ E) E₀ :=
      (inverse_continuous hMc hM0).mul hR
    refine ((((hsq c).mul (continuousAt_pi.mp (continuousAt_pi.mp hprod c) c'))).mul
      (hsq c')).congr ?_
    filter_upwards [hfac, hMne, rMatrix_frozen (channels := channels) (rs := rs) (E₀ := E₀)]
      with E h1 h2 h3
    simp only [Spec.tMatrix, Matrix.of_apply]
    rw [h1, h3]
    exact ((closed_channels _ _ _ (openFactor_idem E)).2 h2
      (fun c => (Real.sqrt (P c E) : ℂ)) c c').symm

/-! ## Cross sections -/

theorem partial_continuous {n : ℕ} {T : ℝ → Matrix (Fin n) (Fin n) ℂ} {w phi : Fin n → ℝ → ℝ}
    (hT : ∀ c c', ContinuousAt (fun E => T E c c') E₀)
    (hw : ∀ c, ContinuousAt (w c) E₀)
    (hphi : ∀ c, ContinuousAt (fun E => exp (2 * I * phi c E)) E₀) (c c' : Fin n) :
    ContinuousAt (fun E => Spec.partialCrossSection
      (Spec.collision (T E) (fun c => w c E) (fun c => phi c E)) (fun c => w c E) c c') E₀ := by
  by_cases h : c = c'
  · subst h
    have h1 : ∀ E, Spec.partialCrossSection
        (Spec.collision (T E) (fun c => w c E) (fun c => phi c E)) (fun c => w c E) c c
        = normSq (exp (I * w c E) - exp (2 * I * w c E) * (exp (2 * I * phi c E))⁻¹
            * (1 + 2 * I * T E c c)) := by
      intro E
      simp only [Spec.partialCrossSection, Spec.collision, if_true]
      congr 2
      rw [← exp_neg, ← exp_add, mul_right_comm, ← exp_add]
      congr 2
      ring
    simp only [h1]
    have hwc : ContinuousAt (fun E => (w c E : ℂ)) E₀ :=
      continuous_ofReal.continuousAt.comp (f := w c) (hw c)
    refine continuous_normSq.continuousAt.comp (f := fun E => _) ?_
    refine ContinuousAt.sub ?_ (ContinuousAt.mul (ContinuousAt.mul ?_ ?_) ?_)
    · exact (continuousAt_const.mul hwc).cexp
    · exact (continuousAt_const.mul hwc).cexp
    · exact (hphi c).inv₀ (exp_ne_zero _)
    · exact continuousAt_const.add (continuousAt_const.mul (hT c c))
  · have h1 : ∀ E, Spec.partialCrossSection
        (Spec.collision (T E) (fun c => w c E) (fun c => phi c E)) (fun c => w c E) c c'
        = normSq (2 * I * T E c c') := by
      intro E
      simp only [Spec.partialCrossSection, if_neg h, zero_sub, normSq_neg]
      rw [normSq_collision, if_neg h, zero_add]
    simp only [h1]
    exact continuous_normSq.continuousAt.comp (f := fun E => _) (continuousAt_const.mul (hT c c'))

theorem capture_continuous {n : ℕ} {T : ℝ → Matrix (Fin n) (Fin n) ℂ} {w phi : Fin n → ℝ → ℝ}
    (hT : ∀ c c', ContinuousAt (fun E => T E c c') E₀) (c : Fin n) :
    ContinuousAt (fun E => Spec.captureCrossSection
      (Spec.collision (T E) (fun c => w c E) (fun c => phi c E)) c) E₀ := by
  simp only [Spec.captureCrossSection, normSq_collision]
  refine continuousAt_const.sub (tendsto_finsetSum _ fun c' _ => ?_)
  exact continuous_normSq.continuousAt.comp (f := fun E => _)
    (continuousAt_const.add (continuousAt_const.mul (hT c c')))

theorem incidentFactor_continuous
    (h : ∃ c, channels.find? Channel.isIncident = some c ∧ c.waveNumber K E₀ ≠ 0) :
    ContinuousAt (Spec.incidentFactor K channels) E₀ := by
  obtain ⟨c, hc, hk⟩ := h
  unfold Spec.incidentFactor
  simp only [hc]
  exact (continuousAt_const.div ((waveNumber_continuous K c).continuousAt.pow 2)
    (pow_ne_zero 2 hk)).mul continuousAt_const

/-- The functions of the formulas around an energy. -/
theorem contribution_continuous
    (hch : ∀ c : Fin channels.length,
      ContinuousChannel option K lib channels[c] E₀ (P c) (S c) (w c) (phi c))
    (hev : Spec.Evaluable option K lib channels rs E₀ (fun c => P c E₀) (fun c => S c E₀)
      (fun c => w c E₀) (fun c => phi c E₀)) :
    (∀ᶠ E in 𝓝 E₀, Spec.Evaluable option K lib channels rs E (fun c => P c E) (fun c => S c E)
      (fun c => w c E) (fun c => phi c E)) ∧
    ∀ id, ContinuousAt (fun E => Spec.contribution option K channels rs E (fun c => P c E)
      (fun c => S c E) (fun c => w c E) (fun c => phi c E) id) E₀ := by
  obtain ⟨-, -, -, -, -, hwid, hpole, hdet, hk⟩ := hev
  obtain ⟨h1, hT⟩ := tMatrix_continuous hch hpole hdet
  have hvals := eventually_all.mpr fun c => (hch c).values
  constructor
  · have hk' := hk
    obtain ⟨c, hc, hkc⟩ := hk
    classical
    have hpole' : ∀ᶠ E in 𝓝 E₀, ∀ r ∈ rs, ¬ (r.energy = E ∧ r.eliminated = 0) := by
      have : ∀ᶠ E in 𝓝 E₀, ∀ r ∈ rs.toFinset, ¬ (r.energy = E ∧ r.eliminated = 0) := by
        rw [Finset.eventually_all]
        intro r hr
        rw [List.mem_toFinset] at hr
        by_cases he : r.eliminated = 0
        · have : r.energy ≠ E₀ := fun h => hpole r hr ⟨h, he⟩
          filter_upwards [eventually_ne_nhds this.symm] with E hE h
          exact hE h.1.symm
        · filter_upwards with E h
          exact he h.2
      simpa using this
    filter_upwards [h1, hvals, hpole',
      (waveNumber_continuous K c).continuousAt.eventually_ne hkc] with E h1 h2 h3 h4
    exact ⟨fun i => (h2 i).1, fun ho i => (h2 i).2.1 ho, fun i => (h2 i).2.2.1,
      fun i => (h2 i).2.2.2.1, fun i => (h2 i).2.2.2.2, hwid, h3, h1, c, hc, h4⟩
  · intro id
    have hfac := incidentFactor_continuous hk
    have hp := partial_continuous hT (fun c => (hch c).coulomb) (fun c => (hch c).phase)
    have hc := capture_continuous (w := w) (phi := phi) hT
    simp only [Spec.contribution]
    refine tendsto_finsetSum _ fun c _ => ?_
    split
    · refine Tendsto.add (tendsto_finsetSum _ fun c' _ => ?_) ?_
      · split
        · exact hfac.mul (hp c c')
        · exact tendsto_const_nhds
      · split
        · exact hfac.mul (hc c)
        · exact tendsto_const_nhds
    · exact tendsto_const_nhds

end TMatrix

end Verif
