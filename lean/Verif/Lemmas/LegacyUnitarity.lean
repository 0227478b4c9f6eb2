import Verif.Props.LegacyFormula

/-!
# Lemmas for the optical theorem and the limits of unitarity in Breit-Wigner formalisms (C101)
-/

namespace Verif.BreitWigner

open Complex

theorem exp_two (φ : ℝ) :
    exp (-(2 * I * φ)) = ((Real.cos (2 * φ) : ℝ) : ℂ) - (Real.sin (2 * φ) : ℝ) * I := by
  rw [show -(2 * I * (φ : ℂ)) = ((-(2 * φ) : ℝ) : ℂ) * I by push_cast; ring, exp_mul_I,
    ← Complex.ofReal_cos, ← Complex.ofReal_sin, Real.cos_neg, Real.sin_neg]
  push_cast
  ring

theorem norm_exp_two (φ : ℝ) : ‖exp (-(2 * I * φ))‖ = 1 := by
  rw [show -(2 * I * (φ : ℂ)) = ((-(2 * φ) : ℝ) : ℂ) * I by push_cast; ring, norm_exp_ofReal_mul_I]

/-- One term of the sum over the resonances, in real and imaginary part. -/
theorem level_term (w d t : ℝ) :
    (w : ℂ) / ((d : ℂ) - I * t / 2) = ((w * d / (d ^ 2 + t ^ 2 / 4) : ℝ) : ℂ)
      + ((w * t / 2 / (d ^ 2 + t ^ 2 / 4) : ℝ) : ℂ) * I := by
  by_cases h0 : d ^ 2 + t ^ 2 / 4 = 0
  · have hd : d = 0 := by nlinarith [sq_nonneg d, sq_nonneg t]
    have ht : t = 0 := by nlinarith [sq_nonneg d, sq_nonneg t]
    subst hd ht
    simp
  · have hne : (d : ℂ) - I * t / 2 ≠ 0 := by
      intro h
      have hre := congrArg Complex.re h
      have him := congrArg Complex.im h
      simp at hre him
      exact h0 (by rw [hre, him]; norm_num)
    rw [div_eq_iff hne]
    have h0' : (d : ℂ) ^ 2 + (t : ℂ) ^ 2 / 4 ≠ 0 := by exact_mod_cast h0
    have h1 : (w : ℂ) = w * (((d : ℂ) ^ 2 + (t : ℂ) ^ 2 / 4) / ((d : ℂ) ^ 2 + (t : ℂ) ^ 2 / 4)) := by
      rw [div_self h0', mul_one]
    conv_lhs => rw [h1]
    push_cast
    rw [show ((d : ℂ) ^ 2 + (t : ℂ) ^ 2 / 4) / ((d : ℂ) ^ 2 + (t : ℂ) ^ 2 / 4) = (d : ℂ) ^ 2 * ((d : ℂ) ^ 2 + (t : ℂ) ^ 2 / 4)⁻¹ + (t : ℂ) ^ 2 / 4 * ((d : ℂ) ^ 2 + (t : ℂ) ^ 2 / 4)⁻¹ by ring]
    generalize (d : ℂ) ^ 2 + (t : ℂ) ^ 2 / 4 = D
    linear_combination (w * t ^ 2 / 4 / D : ℂ) * I_sq

theorem re_term (φ w d t : ℝ) :
    (exp (-(2 * I * φ)) * (I * ((w : ℂ) / ((d : ℂ) - I * t / 2)))).re
      = w * (d * Real.sin (2 * φ) - t / 2 * Real.cos (2 * φ)) / (d ^ 2 + t ^ 2 / 4) := by
  rw [exp_two, level_term]
  simp only [mul_re, sub_re, ofReal_re, ofReal_im, I_re, I_im, add_re, add_im, mul_im, sub_im]
  ring

theorem norm_term {w d t : ℝ} (hw : 0 ≤ w) (ht : w ≤ t) :
    ‖(w : ℂ) / ((d : ℂ) - I * t / 2)‖ ≤ 2 := by
  rw [norm_div, Complex.norm_of_nonneg hw]
  have h : t / 2 ≤ ‖(d : ℂ) - I * t / 2‖ := by
    have := Complex.abs_im_le_norm ((d : ℂ) - I * t / 2)
    have e : ((d : ℂ) - I * t / 2).im = -(t / 2) := by
      rw [show (d : ℂ) - I * t / 2 = (d : ℂ) - ((t / 2 : ℝ) : ℂ) * I by push_cast; ring]
      simp
    rw [e, abs_neg, abs_of_nonneg (by linarith)] at this
    exact this
  rcases eq_or_lt_of_le (norm_nonneg ((d : ℂ) - I * t / 2)) with h0 | h0
  · rw [← h0]; norm_num
  · rw [div_le_iff₀ h0]
    linarith

end Verif.BreitWigner
