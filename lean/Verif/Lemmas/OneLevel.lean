import Verif.Spec.OneLevel
import Verif.Lemmas.CrossSections
import Mathlib.Algebra.BigOperators.Field

/-!
# The R-matrix formulas for a single resonance
-/

namespace Verif

open Complex Matrix

section

variable {ι : Type*} [Fintype ι] [DecidableEq ι]

/-- The level matrix of an R-matrix of rank one exists. -/
theorem rankOne_det {D : ℂ} (hD : D ≠ 0) (a L : ι → ℂ) (h : D - ∑ i, a i ^ 2 * L i ≠ 0) :
    (1 - (Matrix.of fun i j => a i * a j / D) * diagonal L).det ≠ 0 := by
  have key : (1 - (Matrix.of fun i j => a i * a j / D) * diagonal L)
      * (1 + (Matrix.of fun i j => a i * a j / (D - ∑ i, a i ^ 2 * L i)) * diagonal L) = 1 := by
    have h1 : (Matrix.of fun i j => a i * a j / D) * diagonal L
        * ((Matrix.of fun i j => a i * a j / (D - ∑ i, a i ^ 2 * L i)) * diagonal L)
        = (Matrix.of fun i j => a i * a j * ((∑ i, a i ^ 2 * L i) / D / (D - ∑ i, a i ^ 2 * L i)))
          * diagonal L := by
      rw [← Matrix.mul_assoc]
      congr 1
      ext i j
      rw [mul_apply]
      simp only [mul_diagonal, of_apply]
      rw [Finset.sum_div, Finset.sum_div, Finset.mul_sum]
      refine Finset.sum_congr rfl fun k _ => ?_
      field_simp
    rw [sub_mul, one_mul, mul_add, mul_one, h1]
    have h2 : (Matrix.of fun i j => a i * a j / (D - ∑ i, a i ^ 2 * L i))
        = (Matrix.of fun i j => a i * a j / D)
          + Matrix.of fun i j => a i * a j * ((∑ i, a i ^ 2 * L i) / D / (D - ∑ i, a i ^ 2 * L i)) := by
      ext i j
      simp only [Matrix.add_apply, of_apply]
      field_simp
      ring
    rw [h2, add_mul]
    abel
  exact (Matrix.isUnit_det_of_right_inverse key).ne_zero

/-- The level matrix of an R-matrix of rank one. -/
theorem rankOne_level {D : ℂ} (hD : D ≠ 0) (a L : ι → ℂ)
    (hdet : (1 - (Matrix.of fun i j => a i * a j / D) * diagonal L).det ≠ 0) :
    D - ∑ i, a i ^ 2 * L i ≠ 0 ∧
      (1 - (Matrix.of fun i j => a i * a j / D) * diagonal L)⁻¹ * (Matrix.of fun i j => a i * a j / D)
        = Matrix.of fun i j => a i * a j / (D - ∑ i, a i ^ 2 * L i) := by
  have key : ∀ x : ℂ, (1 - (Matrix.of fun i j => a i * a j / D) * diagonal L)
      * (Matrix.of fun i j => x * (a i * a j))
        = Matrix.of fun i j => x * (a i * a j) * (1 - (∑ i, a i ^ 2 * L i) / D) := by
    intro x
    ext i j
    rw [sub_mul, one_mul, Matrix.sub_apply, mul_apply]
    simp only [mul_diagonal, of_apply]
    have : ∑ k, a i * a k / D * L k * (x * (a k * a j))
        = x * (a i * a j) * ((∑ k, a k ^ 2 * L k) / D) := by
      rw [Finset.sum_div, Finset.mul_sum]
      refine Finset.sum_congr rfl fun k _ => ?_
      field_simp
    rw [this]
    ring
  have hne : D - ∑ i, a i ^ 2 * L i ≠ 0 := by
    intro h0
    have h1 : 1 - (∑ i, a i ^ 2 * L i) / D = 0 := by
      rw [← sub_eq_zero.mp h0, div_self hD, sub_self]
    have h2 := key 1
    simp only [h1, mul_zero] at h2
    have h3 : (Matrix.of fun i j => 1 * (a i * a j)) = (0 : Matrix ι ι ℂ) := by
      have h4 : (1 - (Matrix.of fun i j => a i * a j / D) * diagonal L)⁻¹
          * ((1 - (Matrix.of fun i j => a i * a j / D) * diagonal L)
            * (Matrix.of fun i j => 1 * (a i * a j))) = 0 := by
        rw [h2]
        exact mul_zero _
      rwa [← Matrix.mul_assoc, nonsing_inv_mul _ (isUnit_iff_ne_zero.mpr hdet), Matrix.one_mul] at h4
    have h5 : ∀ i, a i = 0 := by
      intro i
      have := congrFun (congrFun h3 i) i
      simpa using this
    simp [h5] at h0
    exact hD h0
  refine ⟨hne, ?_⟩
  have h2 := key (1 / (D - ∑ i, a i ^ 2 * L i))
  have h3 : (Matrix.of fun i j => 1 / (D - ∑ i, a i ^ 2 * L i) * (a i * a j)
      * (1 - (∑ i, a i ^ 2 * L i) / D)) = Matrix.of fun i j => a i * a j / D := by
    ext i j
    simp only [of_apply]
    field_simp
  rw [h3] at h2
  have h4 : (1 - (Matrix.of fun i j => a i * a j / D) * diagonal L)⁻¹ * (Matrix.of fun i j => a i * a j / D)
      = (1 - (Matrix.of fun i j => a i * a j / D) * diagonal L)⁻¹
        * ((1 - (Matrix.of fun i j => a i * a j / D) * diagonal L)
          * (Matrix.of fun i j => 1 / (D - ∑ i, a i ^ 2 * L i) * (a i * a j))) := by rw [h2]
  rw [h4, ← Matrix.mul_assoc, nonsing_inv_mul _ (isUnit_iff_ne_zero.mpr hdet), Matrix.one_mul]
  ext i j
  simp only [of_apply]
  ring

end

section

variable {option : BoundaryOption} {K : Constants} {lib : CoulombLibrary} {channels : List Channel}
  {r : Resonance} {E : ℝ} {P S w phi : Fin channels.length → ℝ}

/-- The denominator of a single resonance. -/
theorem oneLevel_denominator :
    ((r.energy : ℂ) - E - I * (r.eliminated : ℂ) ^ 2)
      - ∑ c, (Spec.amplitude channels E r c : ℂ) ^ 2 * Spec.logDerivative option channels P S c
      = ((Spec.shiftedEnergy channels r E option S - E : ℝ) : ℂ)
        - I * ((Spec.totalWidth channels r E P / 2 : ℝ) : ℂ) := by
  cases option with
  | shiftFactor =>
    simp only [Spec.logDerivative, Spec.shiftedEnergy, Spec.totalWidth, Spec.partialWidth]
    push_cast
    rw [mul_div_assoc', mul_add, Finset.mul_sum, add_div, Finset.sum_div, ← sub_sub]
    congr 1
    · ring
    · exact Finset.sum_congr rfl fun c _ => by ring
  | constant =>
    simp only [Spec.logDerivative, Spec.shiftedEnergy, Spec.totalWidth, Spec.partialWidth]
    push_cast
    have : ∑ c, (Spec.amplitude channels E r c : ℂ) ^ 2 * ((S c : ℂ) - channels[c].boundary + I * P c)
        = ∑ c, ((S c : ℂ) - channels[c].boundary) * (Spec.amplitude channels E r c : ℂ) ^ 2
          + I * ∑ c, P c * (Spec.amplitude channels E r c : ℂ) ^ 2 := by
      rw [Finset.mul_sum, ← Finset.sum_add_distrib]
      exact Finset.sum_congr rfl fun c _ => by ring
    rw [this]
    have h2 : ∑ c, 2 * (P c : ℂ) * (Spec.amplitude channels E r c : ℂ) ^ 2
        = 2 * ∑ c, (P c : ℂ) * (Spec.amplitude channels E r c : ℂ) ^ 2 := by
      rw [Finset.mul_sum]
      exact Finset.sum_congr rfl fun c _ => by ring
    rw [h2]
    ring

theorem denominator_nonzero (hpole : ¬ (r.energy = E ∧ r.eliminated = 0)) :
    (r.energy : ℂ) - E - I * (r.eliminated : ℂ) ^ 2 ≠ 0 := by
  intro h
  refine hpole ?_
  have h1 := congrArg Complex.re h
  have h2 := congrArg Complex.im h
  simp [pow_two] at h1 h2
  exact ⟨by linarith, h2⟩

theorem rMatrix_single : Spec.rMatrix channels [r] E = Matrix.of fun c c' =>
    (Spec.amplitude channels E r c : ℂ) * Spec.amplitude channels E r c'
      / ((r.energy : ℂ) - E - I * (r.eliminated : ℂ) ^ 2) := by
  ext c c'
  simp [Spec.rMatrix]

/-- The formulas are defined for a resonance with a positive width. -/
theorem oneLevel_det (hpole : ¬ (r.energy = E ∧ r.eliminated = 0))
    (hΓ : 0 < Spec.totalWidth channels r E P) :
    (Spec.levelDenominator option channels [r] E P S).det ≠ 0 := by
  unfold Spec.levelDenominator
  rw [rMatrix_single]
  refine rankOne_det (denominator_nonzero hpole) (fun c => (Spec.amplitude channels E r c : ℂ)) _ ?_
  rw [oneLevel_denominator]
  intro h
  have := congrArg Complex.im h
  simp at this
  exact hΓ.ne' this

/-- The T-matrix of a single resonance. -/
theorem tMatrix_oneLevel (hpole : ¬ (r.energy = E ∧ r.eliminated = 0))
    (hdet : (Spec.levelDenominator option channels [r] E P S).det ≠ 0) :
    ((Spec.shiftedEnergy channels r E option S - E : ℝ) : ℂ)
        - I * ((Spec.totalWidth channels r E P / 2 : ℝ) : ℂ) ≠ 0 ∧
    ∀ c c', Spec.tMatrix option channels [r] E P S c c' =
      (Real.sqrt (P c) : ℂ) * (Spec.amplitude channels E r c * Spec.amplitude channels E r c')
        * (Real.sqrt (P c') : ℂ) / (((Spec.shiftedEnergy channels r E option S - E : ℝ) : ℂ)
        - I * ((Spec.totalWidth channels r E P / 2 : ℝ) : ℂ)) := by
  have hD := denominator_nonzero hpole
  have hR := rMatrix_single (channels := channels) (r := r) (E := E)
  unfold Spec.levelDenominator at hdet
  rw [hR] at hdet
  obtain ⟨h1, h2⟩ := rankOne_level hD (fun c => (Spec.amplitude channels E r c : ℂ)) _ hdet
  rw [oneLevel_denominator] at h1 h2
  refine ⟨h1, fun c c' => ?_⟩
  unfold Spec.tMatrix Spec.levelDenominator
  rw [hR, h2]
  simp only [of_apply]
  ring

theorem normSq_denominator (x y : ℝ) : normSq ((x : ℂ) - I * (y : ℂ)) = x ^ 2 + y ^ 2 := by
  rw [normSq_apply]
  simp
  ring

/-- Two different channels. -/
theorem partial_oneLevel (hpole : ¬ (r.energy = E ∧ r.eliminated = 0)) (hP : ∀ i, 0 ≤ P i)
    (hdet : (Spec.levelDenominator option channels [r] E P S).det ≠ 0) {c c' : Fin channels.length}
    (hc : c ≠ c') :
    Spec.partialCrossSection
        (Spec.collision (Spec.tMatrix option channels [r] E P S) w phi) w c c'
      = Spec.lorentzian (Spec.partialWidth channels r E P c) (Spec.partialWidth channels r E P c')
          (Spec.totalWidth channels r E P) (Spec.shiftedEnergy channels r E option S) E := by
  obtain ⟨-, h2⟩ := tMatrix_oneLevel hpole hdet
  unfold Spec.partialCrossSection
  rw [if_neg hc, zero_sub, normSq_neg, normSq_collision, if_neg hc, zero_add, h2, normSq_mul,
    normSq_mul, normSq_div, normSq_denominator, normSq_mul, normSq_mul, normSq_mul]
  simp only [normSq_ofReal, normSq_I, Spec.lorentzian, Spec.partialWidth]
  rw [Real.mul_self_sqrt (hP c), Real.mul_self_sqrt (hP c')]
  have : normSq (2 : ℂ) = 4 := by simp; norm_num
  rw [this, ← neg_sub E, neg_sq, div_pow]
  norm_num
  ring

/-- The same channel. -/
theorem elastic_oneLevel (hpole : ¬ (r.energy = E ∧ r.eliminated = 0)) (hP : ∀ i, 0 ≤ P i)
    (hdet : (Spec.levelDenominator option channels [r] E P S).det ≠ 0) (c : Fin channels.length) :
    Spec.partialCrossSection
        (Spec.collision (Spec.tMatrix option channels [r] E P S) w phi) w c c
      = Spec.elasticLine (Spec.partialWidth channels r E P c)
          (Spec.totalWidth channels r E P) (Spec.shiftedEnergy channels r E option S) E
          (phi c - w c / 2) := by
  obtain ⟨h1, h2⟩ := tMatrix_oneLevel hpole hdet
  have hd : (Spec.shiftedEnergy channels r E option S - E) ^ 2
      + (Spec.totalWidth channels r E P / 2) ^ 2 ≠ 0 := by
    rw [← normSq_denominator]
    exact (normSq_pos.mpr h1).ne'
  unfold Spec.partialCrossSection Spec.collision Spec.elasticLine
  rw [if_pos rfl, if_pos rfl, h2]
  have hT : 1 + 2 * I * ((Real.sqrt (P c) : ℂ) * (Spec.amplitude channels E r c
      * Spec.amplitude channels E r c) * (Real.sqrt (P c) : ℂ)
        / (((Spec.shiftedEnergy channels r E option S - E : ℝ) : ℂ)
          - I * ((Spec.totalWidth channels r E P / 2 : ℝ) : ℂ)))
      = 1 + I * (Spec.partialWidth channels r E P c : ℂ)
        / (((Spec.shiftedEnergy channels r E option S - E : ℝ) : ℂ)
          - I * ((Spec.totalWidth channels r E P / 2 : ℝ) : ℂ)) := by
    have hs : (Real.sqrt (P c) : ℂ) * Real.sqrt (P c) = P c := by
      rw [← ofReal_mul, Real.mul_self_sqrt (hP c)]
    unfold Spec.partialWidth
    push_cast
    rw [← hs]
    ring
  rw [hT]
  generalize Spec.partialWidth channels r E P c = Γ
  have hx : (E - Spec.shiftedEnergy channels r E option S)
      = -(Spec.shiftedEnergy channels r E option S - E) := by ring
  rw [hx]
  generalize Spec.shiftedEnergy channels r E option S - E = x at *
  have ht : Spec.totalWidth channels r E P ^ 2 / 4 = (Spec.totalWidth channels r E P / 2) ^ 2 := by ring
  have ht' : Spec.totalWidth channels r E P = 2 * (Spec.totalWidth channels r E P / 2) := by ring
  rw [ht]
  conv_rhs => rw [ht']
  rw [show 2 * (Spec.totalWidth channels r E P / 2) / 2 = Spec.totalWidth channels r E P / 2 by ring]
  generalize Spec.totalWidth channels r E P / 2 = y at *
  set θ := phi c - w c / 2 with hθ
  have hfac : exp (I * w c) - exp (I * (w c - phi c)) * (1 + I * (Γ : ℂ) / ((x : ℂ) - I * (y : ℂ)))
      * exp (I * (w c - phi c))
      = exp (I * w c) * (1 - exp (I * ((-(2 * θ) : ℝ) : ℂ)) * (1 + I * (Γ : ℂ) / ((x : ℂ) - I * (y : ℂ)))) := by
    have : exp (I * w c) * exp (I * ((-(2 * θ) : ℝ) : ℂ))
        = exp (I * (w c - phi c)) * exp (I * (w c - phi c)) := by
      rw [← exp_add, ← exp_add, hθ]
      congr 1
      push_cast
      ring
    linear_combination (-(1 + I * (Γ : ℂ) / ((x : ℂ) - I * (y : ℂ)))) * (-this)
  rw [hfac, normSq_mul, normSq_exp_I_mul, one_mul]
  have hq : I * (Γ : ℂ) / ((x : ℂ) - I * (y : ℂ))
      = ((-(Γ * y) / (x ^ 2 + y ^ 2) : ℝ) : ℂ) + ((Γ * x / (x ^ 2 + y ^ 2) : ℝ) : ℂ) * I := by
    rw [div_eq_iff h1]
    have hd' : ((x : ℂ) ^ 2 + (y : ℂ) ^ 2) ≠ 0 := by exact_mod_cast hd
    push_cast
    field_simp
    ring_nf
    rw [I_sq]
    ring
  have hexp : exp (I * ((-(2 * θ) : ℝ) : ℂ))
      = (Real.cos (2 * θ) : ℂ) + ((-Real.sin (2 * θ) : ℝ) : ℂ) * I := by
    rw [mul_comm, exp_mul_I, ← ofReal_cos, ← ofReal_sin, Real.cos_neg, Real.sin_neg]
  rw [hq, hexp]
  have hns : normSq (1 - ((Real.cos (2 * θ) : ℂ) + ((-Real.sin (2 * θ) : ℝ) : ℂ) * I)
      * (1 + (((-(Γ * y) / (x ^ 2 + y ^ 2) : ℝ) : ℂ) + ((Γ * x / (x ^ 2 + y ^ 2) : ℝ) : ℂ) * I)))
      = (1 - (Real.cos (2 * θ) * (1 + -(Γ * y) / (x ^ 2 + y ^ 2))
          + Real.sin (2 * θ) * (Γ * x / (x ^ 2 + y ^ 2)))) ^ 2
        + (Real.cos (2 * θ) * (Γ * x / (x ^ 2 + y ^ 2))
          - Real.sin (2 * θ) * (1 + -(Γ * y) / (x ^ 2 + y ^ 2))) ^ 2 := by
    rw [normSq_apply]
    simp only [sub_re, sub_im, mul_re, mul_im, add_re, add_im, one_re, one_im, ofReal_re, ofReal_im,
      I_re, I_im]
    ring
  rw [hns]
  have hs2 := Real.sin_sq_add_cos_sq (2 * θ)
  have hc2 : Real.cos (2 * θ) = 1 - 2 * Real.sin θ ^ 2 := by
    rw [Real.cos_two_mul, Real.cos_sq']; ring
  have hexpand : ∀ C s u v : ℝ, s ^ 2 + C ^ 2 = 1 →
      (1 - (C * (1 + u) + s * v)) ^ 2 + (C * v - s * (1 + u)) ^ 2
        = 1 - 2 * (C * (1 + u) + s * v) + ((1 + u) ^ 2 + v ^ 2) := by
    intro C s u v h
    linear_combination ((1 + u) ^ 2 + v ^ 2) * h
  rw [hexpand _ _ _ _ hs2, hc2, neg_sq]
  generalize Real.sin (2 * θ) = s
  generalize Real.sin θ = σ
  field_simp
  ring

/-- Capture. -/
theorem capture_oneLevel (hpole : ¬ (r.energy = E ∧ r.eliminated = 0)) (hP : ∀ i, 0 ≤ P i)
    (hdet : (Spec.levelDenominator option channels [r] E P S).det ≠ 0) (c : Fin channels.length) :
    Spec.captureCrossSection
        (Spec.collision (Spec.tMatrix option channels [r] E P S) w phi) c
      = Spec.lorentzian (Spec.partialWidth channels r E P c) (2 * r.eliminated ^ 2)
          (Spec.totalWidth channels r E P) (Spec.shiftedEnergy channels r E option S) E := by
  obtain ⟨h1, h2⟩ := tMatrix_oneLevel hpole hdet
  have hd : (Spec.shiftedEnergy channels r E option S - E) ^ 2
      + (Spec.totalWidth channels r E P / 2) ^ 2 ≠ 0 := by
    rw [← normSq_denominator]
    exact (normSq_pos.mpr h1).ne'
  have hT : ∀ c c', 2 * I * Spec.tMatrix option channels [r] E P S c c'
      = I * ((2 * Real.sqrt (P c) * (Spec.amplitude channels E r c * Spec.amplitude channels E r c')
          * Real.sqrt (P c') : ℝ) : ℂ)
        / (((Spec.shiftedEnergy channels r E option S - E : ℝ) : ℂ)
          - I * ((Spec.totalWidth channels r E P / 2 : ℝ) : ℂ)) := by
    intro c c'
    rw [h2]
    push_cast
    ring
  unfold Spec.captureCrossSection Spec.lorentzian
  simp only [normSq_collision, hT]
  have hx : (E - Spec.shiftedEnergy channels r E option S)
      = -(Spec.shiftedEnergy channels r E option S - E) := by ring
  rw [hx, neg_sq]
  have ht : Spec.totalWidth channels r E P ^ 2 / 4 = (Spec.totalWidth channels r E P / 2) ^ 2 := by ring
  rw [ht]
  have hy : Spec.totalWidth channels r E P / 2
      = r.eliminated ^ 2 + ∑ c, P c * Spec.amplitude channels E r c ^ 2 := by
    unfold Spec.totalWidth Spec.partialWidth
    have : ∑ c, 2 * P c * Spec.amplitude channels E r c ^ 2
        = 2 * ∑ c, P c * Spec.amplitude channels E r c ^ 2 := by
      rw [Finset.mul_sum]
      exact Finset.sum_congr rfl fun c _ => by ring
    rw [this]
    ring
  generalize Spec.shiftedEnergy channels r E option S - E = x at *
  generalize Spec.totalWidth channels r E P / 2 = y at *
  have hq : ∀ a : ℝ, I * (a : ℂ) / ((x : ℂ) - I * (y : ℂ))
      = ((-(a * y) / (x ^ 2 + y ^ 2) : ℝ) : ℂ) + ((a * x / (x ^ 2 + y ^ 2) : ℝ) : ℂ) * I := by
    intro a
    rw [div_eq_iff h1]
    have hd' : ((x : ℂ) ^ 2 + (y : ℂ) ^ 2) ≠ 0 := by exact_mod_cast hd
    push_cast
    field_simp
    ring_nf
    rw [I_sq]
    ring
  have hn : ∀ (δ : ℝ) (a : ℝ), normSq ((δ : ℂ) + I * (a : ℂ) / ((x : ℂ) - I * (y : ℂ)))
      = δ ^ 2 - 2 * δ * (a * y) / (x ^ 2 + y ^ 2) + a ^ 2 / (x ^ 2 + y ^ 2) := by
    intro δ a
    rw [hq, normSq_apply]
    simp only [mul_re, mul_im, add_re, add_im, ofReal_re, ofReal_im, I_re, I_im]
    field_simp
    ring
  have hterm : ∀ c', normSq ((if c = c' then 1 else 0)
      + I * ((2 * Real.sqrt (P c) * (Spec.amplitude channels E r c * Spec.amplitude channels E r c')
          * Real.sqrt (P c') : ℝ) : ℂ) / ((x : ℂ) - I * (y : ℂ)))
      = (if c = c' then 1 - 2 * (2 * P c * Spec.amplitude channels E r c ^ 2 * y) / (x ^ 2 + y ^ 2) else 0)
        + 4 * P c * Spec.amplitude channels E r c ^ 2 / (x ^ 2 + y ^ 2)
          * (P c' * Spec.amplitude channels E r c' ^ 2) := by
    intro c'
    have h3 := hn (if c = c' then 1 else 0)
      (2 * Real.sqrt (P c) * (Spec.amplitude channels E r c * Spec.amplitude channels E r c')
        * Real.sqrt (P c'))
    have h4 : (((if c = c' then 1 else 0 : ℝ)) : ℂ) = if c = c' then 1 else 0 := by
      split_ifs <;> simp
    rw [h4] at h3
    rw [h3]
    have h5 : (2 * Real.sqrt (P c) * (Spec.amplitude channels E r c * Spec.amplitude channels E r c')
        * Real.sqrt (P c')) ^ 2
        = 4 * P c * Spec.amplitude channels E r c ^ 2 * (P c' * Spec.amplitude channels E r c' ^ 2) := by
      have e1 := Real.sq_sqrt (hP c)
      have e2 := Real.sq_sqrt (hP c')
      calc _ = 4 * Real.sqrt (P c) ^ 2 * Spec.amplitude channels E r c ^ 2
            * (Real.sqrt (P c') ^ 2 * Spec.amplitude channels E r c' ^ 2) := by ring
        _ = _ := by rw [e1, e2]
    rw [h5]
    by_cases hc : c = c'
    · subst hc
      simp only [if_true]
      have e1 := Real.mul_self_sqrt (hP c)
      have : 2 * Real.sqrt (P c) * (Spec.amplitude channels E r c * Spec.amplitude channels E r c)
          * Real.sqrt (P c) = 2 * P c * Spec.amplitude channels E r c ^ 2 := by
        linear_combination 2 * Spec.amplitude channels E r c ^ 2 * e1
      rw [this]
      ring
    · simp only [if_neg hc]
      ring
  simp only [hterm]
  rw [Finset.sum_add_distrib, ← Finset.mul_sum, Finset.sum_ite_eq, if_pos (Finset.mem_univ _)]
  have hsum : ∑ c, P c * Spec.amplitude channels E r c ^ 2 = y - r.eliminated ^ 2 := by
    rw [hy]; ring
  rw [hsum]
  unfold Spec.partialWidth
  field_simp
  ring

/-- What a spin group with a single resonance contributes. -/
theorem contribution_oneLevel (hpole : ¬ (r.energy = E ∧ r.eliminated = 0)) (hP : ∀ i, 0 ≤ P i)
    (hdet : (Spec.levelDenominator option channels [r] E P S).det ≠ 0) (id : ReactionID) :
    Spec.contribution option K channels [r] E P S w phi id
      = Spec.oneLevel option K channels r E P S w phi id := by
  unfold Spec.contribution Spec.oneLevel
  refine Finset.sum_congr rfl fun c _ => ?_
  split_ifs with h1 h2
  · rw [capture_oneLevel hpole hP hdet, mul_add, Finset.mul_sum]
    congr 1
    refine Finset.sum_congr rfl fun c' _ => ?_
    split_ifs with h3 h4
    · subst h4
      rw [elastic_oneLevel hpole hP hdet]
    · rw [partial_oneLevel hpole hP hdet h4]
    · rw [mul_zero]
  · rw [add_zero, add_zero, Finset.mul_sum]
    refine Finset.sum_congr rfl fun c' _ => ?_
    split_ifs with h3 h4
    · subst h4
      rw [elastic_oneLevel hpole hP hdet]
    · rw [partial_oneLevel hpole hP hdet h4]
    · rw [mul_zero]
  · rfl

end

end Verif
