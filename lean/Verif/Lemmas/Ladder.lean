import Verif.Spec.Ladder
import Verif.Props.LegacyFormula
import Verif.Props.LegacyResolvedMore
import Mathlib.MeasureTheory.Integral.IntegralEqImproper
import Mathlib.Analysis.SpecialFunctions.ImproperIntegrals
import Mathlib.MeasureTheory.Measure.Haar.NormedSpace

/-!
# Lemmas on the area of a resonance
-/

namespace Verif

open MeasureTheory Filter Topology

theorem lorentzian_eq {Γ : ℝ} (hΓ : 0 < Γ) (E x : ℝ) :
    1 / ((E - x) ^ 2 + Γ ^ 2 / 4) = 4 / Γ ^ 2 * (1 + (2 / Γ * (x - E)) ^ 2)⁻¹ := by
  have h1 : (E - x) ^ 2 + Γ ^ 2 / 4 ≠ 0 := by positivity
  have h2 : 1 + (2 / Γ * (x - E)) ^ 2 ≠ 0 := by positivity
  field_simp
  ring

theorem integrable_lorentzian {Γ : ℝ} (hΓ : 0 < Γ) (E : ℝ) :
    Integrable fun x => 1 / ((E - x) ^ 2 + Γ ^ 2 / 4) := by
  simp only [lorentzian_eq hΓ]
  refine Integrable.const_mul ?_ _
  have h := (integrable_inv_one_add_sq.comp_mul_left' (R := 2 / Γ) (by positivity)).comp_sub_right E
  exact h

theorem integral_lorentzian {Γ : ℝ} (hΓ : 0 < Γ) (E : ℝ) :
    ∫ x, 1 / ((E - x) ^ 2 + Γ ^ 2 / 4) = 2 * Real.pi / Γ := by
  simp only [lorentzian_eq hΓ]
  rw [integral_const_mul, integral_sub_right_eq_self (fun x => (1 + (2 / Γ * x) ^ 2)⁻¹) E,
    Measure.integral_comp_mul_left (fun x => (1 + x ^ 2)⁻¹), integral_univ_inv_one_add_sq,
    abs_of_pos (by positivity), smul_eq_mul]
  field_simp
  norm_num

theorem integral_odd_lorentzian {Γ : ℝ} (E R : ℝ) :
    ∫ x in (E - R)..(E + R), (E - x) / ((E - x) ^ 2 + Γ ^ 2 / 4) = 0 := by
  rw [intervalIntegral.integral_comp_sub_left (fun y => y / (y ^ 2 + Γ ^ 2 / 4)) E]
  have e1 : E - (E + R) = -R := by ring
  have e2 : E - (E - R) = R := by ring
  rw [e1, e2]
  have h := intervalIntegral.integral_comp_neg (a := -R) (b := R) fun y => y / (y ^ 2 + Γ ^ 2 / 4)
  simp only [neg_neg, neg_sq, neg_div, intervalIntegral.integral_neg] at h
  linarith

/-- The integral over a large interval around the energy. -/
theorem tendsto_area {Γ : ℝ} (hΓ : 0 < Γ) (E a b : ℝ) :
    Tendsto (fun R => ∫ x in (E - R)..(E + R), (a + b * (E - x)) / ((E - x) ^ 2 + Γ ^ 2 / 4)) atTop
      (𝓝 (a * (2 * Real.pi / Γ))) := by
  have hc : ∀ c d : ℝ, IntervalIntegrable (fun x => (E - x) / ((E - x) ^ 2 + Γ ^ 2 / 4)) volume c d := by
    intro c d
    refine Continuous.intervalIntegrable ?_ c d
    refine Continuous.div (by fun_prop) (by fun_prop) fun x => ?_
    positivity
  have hi := (integrable_lorentzian hΓ E)
  have e : ∀ R, ∫ x in (E - R)..(E + R), (a + b * (E - x)) / ((E - x) ^ 2 + Γ ^ 2 / 4)
      = a * ∫ x in (E - R)..(E + R), 1 / ((E - x) ^ 2 + Γ ^ 2 / 4) := by
    intro R
    have h1 : ∀ x, (a + b * (E - x)) / ((E - x) ^ 2 + Γ ^ 2 / 4)
        = a * (1 / ((E - x) ^ 2 + Γ ^ 2 / 4)) + b * ((E - x) / ((E - x) ^ 2 + Γ ^ 2 / 4)) := by
      intro x
      ring
    simp only [h1]
    rw [intervalIntegral.integral_add (hi.intervalIntegrable.const_mul a) ((hc _ _).const_mul b),
      intervalIntegral.integral_const_mul, intervalIntegral.integral_const_mul, integral_odd_lorentzian,
      mul_zero, add_zero]
  simp only [e]
  rw [← integral_lorentzian hΓ E]
  refine (intervalIntegral_tendsto_integral hi ?_ ?_).const_mul a
  · exact tendsto_atBot_add_const_left atTop E tendsto_neg_atTop_atBot
  · exact tendsto_atTop_add_const_left atTop E tendsto_id

end Verif
