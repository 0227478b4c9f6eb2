import Verif.Lemmas.TMatrix

/-!
# Facts about the cross sections of a spin group
-/

namespace Verif

open Complex Matrix

theorem normSq_exp_I_mul (x : ℝ) : normSq (exp (I * x)) = 1 := by
  rw [normSq_eq_norm_sq, mul_comm, norm_exp_ofReal_mul_I, one_pow]

theorem normSq_exp_I_mul_sub (x y : ℝ) : normSq (exp (I * (x - y))) = 1 := by
  have := normSq_exp_I_mul (x - y)
  push_cast at this
  exact this

theorem normSq_collision {n : ℕ} (T : Matrix (Fin n) (Fin n) ℂ) (w phi : Fin n → ℝ) (c c' : Fin n) :
    normSq (Spec.collision T w phi c c') = normSq ((if c = c' then 1 else 0) + 2 * I * T c c') := by
  rw [Spec.collision, normSq_mul, normSq_mul, normSq_exp_I_mul_sub, normSq_exp_I_mul_sub]
  ring

section

variable {option : BoundaryOption} {K : Constants} {lib : CoulombLibrary} {channels : List Channel}
  {rs : List Resonance} {E : ℝ} {P S w phi : Fin channels.length → ℝ}

theorem capture_loss (hP : ∀ i, 0 ≤ P i)
    (hdet : (Spec.levelDenominator option channels rs E P S).det ≠ 0) (c : Fin channels.length) :
    Spec.captureCrossSection (Spec.collision (Spec.tMatrix option channels rs E P S) w phi) c
      = 4 * imForm (Spec.rMatrix channels rs E)
          (lossVector (Spec.rMatrix channels rs E) (realL channels option S) P c) := by
  rw [Spec.captureCrossSection]
  simp only [normSq_collision]
  rw [tMatrix_norm hP hdet]
  ring

theorem capture_nonneg (hP : ∀ i, 0 ≤ P i)
    (hdet : (Spec.levelDenominator option channels rs E P S).det ≠ 0) (c : Fin channels.length) :
    0 ≤ Spec.captureCrossSection
      (Spec.collision (Spec.tMatrix option channels rs E P S) w phi) c := by
  rw [capture_loss hP hdet]
  have := imForm_rMatrix_nonneg channels E rs
    (lossVector (Spec.rMatrix channels rs E) (realL channels option S) P c)
  linarith

theorem capture_zero (hP : ∀ i, 0 ≤ P i) (h0 : ∀ r ∈ rs, r.eliminated = 0)
    (hdet : (Spec.levelDenominator option channels rs E P S).det ≠ 0) (c : Fin channels.length) :
    Spec.captureCrossSection
      (Spec.collision (Spec.tMatrix option channels rs E P S) w phi) c = 0 := by
  rw [capture_loss hP hdet, imForm_rMatrix_zero channels E rs h0, mul_zero]

theorem incidentFactor_nonneg (hspin : ∀ c ∈ channels, 0 ≤ c.spinFactor) :
    0 ≤ Spec.incidentFactor K channels E := by
  unfold Spec.incidentFactor
  cases h : channels.find? Channel.isIncident with
  | none => simp
  | some c =>
    have h1 := hspin c (List.mem_of_find?_eq_some h)
    have h2 : (0 : ℝ) ≤ (c.spinFactor : ℝ) := by exact_mod_cast h1
    have h3 : 0 ≤ Real.pi / c.waveNumber K E ^ 2 :=
      div_nonneg Real.pi_pos.le (sq_nonneg _)
    exact mul_nonneg h3 h2

theorem contribution_nonneg (hP : ∀ i, 0 ≤ P i) (hspin : ∀ c ∈ channels, 0 ≤ c.spinFactor)
    (hdet : (Spec.levelDenominator option channels rs E P S).det ≠ 0) (id : ReactionID) :
    0 ≤ Spec.contribution option K channels rs E P S w phi id := by
  unfold Spec.contribution
  apply Finset.sum_nonneg
  intro c _
  split
  · apply add_nonneg
    · apply Finset.sum_nonneg
      intro c' _
      split
      · exact mul_nonneg (incidentFactor_nonneg hspin) (normSq_nonneg _)
      · exact le_refl _
    · split
      · exact mul_nonneg (incidentFactor_nonneg hspin) (capture_nonneg hP hdet c)
      · exact le_refl _
  · exact le_refl _

/-- `|a - u|² = |a|² + |u|² - 2 Re(conj a u)`, summed over a row of the collision matrix. -/
theorem row_optical {n : ℕ} (U : Fin n → Fin n → ℂ) (w : Fin n → ℝ) (c : Fin n) :
    ∑ c', Spec.partialCrossSection U w c c' + Spec.captureCrossSection U c
      = 2 * (1 - (exp (-(I * w c)) * U c c).re) := by
  have h1 : ∀ c', Spec.partialCrossSection U w c c' = normSq (U c c') +
      if c = c' then 1 - 2 * (exp (-(I * w c)) * U c c).re else 0 := by
    intro c'
    unfold Spec.partialCrossSection
    by_cases h : c = c'
    · subst h
      simp only [if_true]
      have hconj : (starRingEnd ℂ) (exp (I * w c)) = exp (-(I * w c)) := by
        rw [← exp_conj]
        congr 1
        simp
      rw [normSq_sub, normSq_exp_I_mul, ← hconj]
      have : (exp (I * w c) * (starRingEnd ℂ) (U c c)).re
          = ((starRingEnd ℂ) (exp (I * w c)) * U c c).re := by
        simp only [mul_re, conj_re, conj_im]
        ring
      rw [this]
      ring
    · simp [h]
  simp only [h1, Finset.sum_add_distrib, Finset.sum_ite_eq, Finset.mem_univ, if_true,
    Spec.captureCrossSection]
  ring

end

end Verif
