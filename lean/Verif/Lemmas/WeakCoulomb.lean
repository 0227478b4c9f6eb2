import Verif.Model.Coulomb
import Mathlib.Analysis.SpecialFunctions.ExpDeriv
import Mathlib.Analysis.SpecialFunctions.Log.Deriv
import Mathlib.Analysis.SpecialFunctions.Trigonometric.Deriv
import Mathlib.Analysis.Complex.RealDeriv
import Mathlib.Algebra.BigOperators.Field

/-!
# The asymptotic series of the Coulomb functions in a weak field

The sums of `omGcase3` written with complex numbers: the terms, the derivative and the wave equation.
-/

namespace Verif.Weak

open Complex Filter Topology

/-- The ratio of two neighbouring coefficients. -/
noncomputable def mul (η : ℝ) (k : ℕ) : ℂ :=
  ((2 * k + 1) * η + I * (η ^ 2 - k * (k + 1))) / (2 * (k + 1))

/-- The coefficients of the series in `1/ρ`. -/
noncomputable def coef (η : ℝ) : ℕ → ℂ
  | 0 => 1
  | k + 1 => mul η k * coef η k

/-- The terms of the series. -/
noncomputable def term (η ρ : ℝ) (k : ℕ) : ℂ := coef η k / (ρ : ℂ) ^ k

/-- The terms of the series of the derivative. -/
noncomputable def dterm (η ρ : ℝ) (k : ℕ) : ℂ :=
  (-(k / ρ) + I * (1 - η / ρ)) * term η ρ k

noncomputable def F (η ρ : ℝ) (N : ℕ) : ℂ := ∑ k ∈ Finset.range (N + 1), term η ρ k

noncomputable def D (η ρ : ℝ) (N : ℕ) : ℂ := ∑ k ∈ Finset.range (N + 1), dterm η ρ k

theorem term_zero (η ρ : ℝ) : term η ρ 0 = 1 := by simp [term, coef]

theorem term_succ (η ρ : ℝ) (k : ℕ) : term η ρ (k + 1) = mul η k / ρ * term η ρ k := by
  rw [term, term, coef, pow_succ]
  by_cases h : (ρ : ℂ) = 0
  · simp [h]
  · field_simp

theorem dterm_succ (η ρ : ℝ) (k : ℕ) :
    dterm η ρ (k + 1) = mul η k / ρ * dterm η ρ k - term η ρ (k + 1) / ρ := by
  rw [dterm, dterm, term_succ]
  push_cast
  ring

theorem F_succ (η ρ : ℝ) (N : ℕ) : F η ρ (N + 1) = F η ρ N + term η ρ (N + 1) := by
  rw [F, F, Finset.sum_range_succ]

theorem D_succ (η ρ : ℝ) (N : ℕ) : D η ρ (N + 1) = D η ρ N + dterm η ρ (N + 1) := by
  rw [D, D, Finset.sum_range_succ]

/-! ### The ratio of two terms -/

theorem mul_re (η : ℝ) (k : ℕ) : (mul η k).re = (2 * k + 1) * η / (2 * (k + 1)) := by
  have e : mul η k = (((2 * k + 1) * η / (2 * (k + 1)) : ℝ) : ℂ)
      + I * (((η ^ 2 - k * (k + 1)) / (2 * (k + 1)) : ℝ) : ℂ) := by
    rw [mul]; push_cast; ring
  rw [e, add_re, ofReal_re, I_mul_re, ofReal_im, neg_zero, add_zero]

theorem mul_im (η : ℝ) (k : ℕ) : (mul η k).im = (η ^ 2 - k * (k + 1)) / (2 * (k + 1)) := by
  have e : mul η k = (((2 * k + 1) * η / (2 * (k + 1)) : ℝ) : ℂ)
      + I * (((η ^ 2 - k * (k + 1)) / (2 * (k + 1)) : ℝ) : ℂ) := by
    rw [mul]; push_cast; ring
  rw [e, add_im, ofReal_im, I_mul_im, ofReal_re, zero_add]

theorem mul_normSq (η : ℝ) (k : ℕ) :
    normSq (mul η k) = (η ^ 2 + k ^ 2) * (η ^ 2 + (k + 1) ^ 2) / (2 * (k + 1)) ^ 2 := by
  rw [normSq_apply, mul_re, mul_im]
  have : (0 : ℝ) < k + 1 := by positivity
  field_simp
  ring

theorem mul_norm_le (η : ℝ) (k : ℕ) : ‖mul η k‖ ≤ (η ^ 2 + k ^ 2 + k + 1 / 2) / (2 * (k + 1)) := by
  have hk : (0 : ℝ) < k + 1 := by positivity
  have h0 : (0 : ℝ) ≤ (η ^ 2 + k ^ 2 + k + 1 / 2) / (2 * (k + 1)) := by positivity
  rw [← abs_of_nonneg h0, ← abs_of_nonneg (norm_nonneg (mul η k)), ← sq_le_sq, ← normSq_eq_norm_sq,
    mul_normSq, div_pow]
  refine div_le_div_of_nonneg_right ?_ (by positivity)
  nlinarith [sq_nonneg ((2 * k + 1 : ℝ))]

/-- Neighbouring ratios differ little. -/
theorem mul_ratio (η : ℝ) {k : ℕ} (hk : 19 ≤ k) : ‖mul η (k + 1)‖ ≤ 20 / 19 * ‖mul η k‖ := by
  have hk' : (19 : ℝ) ≤ k := by exact_mod_cast hk
  rw [← abs_of_nonneg (norm_nonneg (mul η (k + 1))),
    ← abs_of_nonneg (by positivity : 0 ≤ 20 / 19 * ‖mul η k‖), ← sq_le_sq, mul_pow,
    ← normSq_eq_norm_sq, ← normSq_eq_norm_sq, mul_normSq, mul_normSq]
  push_cast
  rw [← mul_div_assoc, div_le_div_iff₀ (by positivity) (by positivity)]
  have hA : (0 : ℝ) ≤ η ^ 2 + (k + 1) ^ 2 := by positivity
  have key : (η ^ 2 + (k + 1 + 1) ^ 2) * (2 * (k + 1)) ^ 2
      ≤ (20 / 19 : ℝ) ^ 2 * ((η ^ 2 + k ^ 2) * (2 * (k + 1 + 1)) ^ 2) := by
    have h1 : (k + 1 : ℝ) ≤ 20 / 19 * k := by linarith
    have h2 : ((k : ℝ) + 1) ^ 2 ≤ (20 / 19 * k) ^ 2 := pow_le_pow_left₀ (by positivity) h1 2
    have h3 : ((k : ℝ) + 1) ^ 2 ≤ (20 / 19 : ℝ) ^ 2 * (k + 1 + 1) ^ 2 := by nlinarith
    have h4 := mul_le_mul_of_nonneg_left h3 (sq_nonneg η)
    have h5 := mul_le_mul_of_nonneg_left h2 (sq_nonneg ((k : ℝ) + 1 + 1))
    nlinarith
  have := mul_le_mul_of_nonneg_left key hA
  nlinarith

theorem term_norm_succ {η ρ : ℝ} (hρ : 0 < ρ) (k : ℕ) :
    ‖term η ρ (k + 1)‖ = ‖mul η k‖ / ρ * ‖term η ρ k‖ := by
  rw [term_succ, norm_mul, norm_div, Complex.norm_real, Real.norm_of_nonneg hρ.le]

/-! ### The code's sums -/

/-- The state of the inner loop after the term `i`. -/
noncomputable def state (η ρ : ℝ) (i : ℕ) : AsymptoticSeries :=
  ⟨(F η ρ i).re, (F η ρ i).im, (D η ρ i).re, (D η ρ i).im,
    (term η ρ i).re, (term η ρ i).im, (dterm η ρ i).re, (dterm η ρ i).im⟩

open Classical in
/-- Where the inner loop stops. -/
noncomputable def stop (η ρ : ℝ) : ℕ → ℕ → ℕ
  | 0, i => i
  | k + 1, i => if ρ ^ 2 < normSq (mul η i) then i else stop η ρ k (i + 1)

theorem term_ne_zero {η ρ : ℝ} (hη : 0 < η) (hρ : 0 < ρ) (k : ℕ) : term η ρ k ≠ 0 := by
  have hc : ∀ k, coef η k ≠ 0 := by
    intro k
    induction k with
    | zero => simp [coef]
    | succ k ih =>
      rw [coef]
      refine mul_ne_zero ?_ ih
      intro h0
      have := mul_re η k
      rw [h0, zero_re] at this
      have h2 : 0 < (2 * k + 1) * η / (2 * (k + 1)) := by positivity
      linarith
  rw [term]
  exact div_ne_zero (hc k) (pow_ne_zero _ (by exact_mod_cast hρ.ne'))

/-- The test for two equal terms never succeeds. -/
theorem no_repeat {x y x' y' a b q p : ℝ} {i : ℕ} (hi : (i : ℝ) ≤ 100) (hq0 : 0 < q) (hq : q ≤ 1 / 10)
    (hp : 1 / 2 ≤ p) (hp' : p ≤ 1) (ha : a ≤ 1 / 2) (hx' : x' = a * x - b * y) (hy' : y' = a * y + b * x)
    (h0 : 0 < x ^ 2 + y ^ 2) (h1 : |x - x'| ≤ 1e-16 * |x|)
    (h2 : |(-(i * q) * x - p * y) - (-((i + 1) * q) * x' - p * y')| ≤ 1e-16 * |-(i * q) * x - p * y|) :
    False := by
  have hi0 : (0 : ℝ) ≤ i := by positivity
  have hiq : (i : ℝ) * q ≤ 10 := by nlinarith
  have hiq0 : 0 ≤ (i : ℝ) * q := by positivity
  have e1 : (1 - a) * (x ^ 2 + y ^ 2) = x * (x - x') + y * (y - y') := by
    rw [hx', hy']; ring
  have h3 : |-(i * q) * x - p * y| ≤ 10 * |x| + |y| := by
    refine (abs_sub _ _).trans (add_le_add ?_ ?_)
    · rw [abs_mul, abs_neg, abs_of_nonneg hiq0]
      exact mul_le_mul_of_nonneg_right hiq (abs_nonneg x)
    · rw [abs_mul, abs_of_nonneg (by linarith)]
      exact mul_le_of_le_one_left (abs_nonneg y) hp'
  have h4 : |p * (y - y')| ≤ 2 / 10 * |x| + 1e-15 * |y| := by
    have e2 : p * (y - y') = -((-(i * q) * x - p * y) - (-((i + 1) * q) * x' - p * y'))
        - (i * q) * (x - x') + q * x' := by ring
    rw [e2]
    have b1 : |x'| ≤ (1 + 1e-16) * |x| := by
      have : x' = x - (x - x') := by ring
      rw [this]
      refine (abs_sub _ _).trans ?_
      linarith
    have b2 : |(i * q) * (x - x')| ≤ 10 * (1e-16 * |x|) := by
      rw [abs_mul, abs_of_nonneg hiq0]
      exact mul_le_mul hiq h1 (abs_nonneg _) (by norm_num)
    have b3 : |q * x'| ≤ 1 / 10 * ((1 + 1e-16) * |x|) := by
      rw [abs_mul, abs_of_nonneg hq0.le]
      exact mul_le_mul hq b1 (abs_nonneg _) (by norm_num)
    refine (abs_add_le _ _).trans ?_
    refine (add_le_add_left (abs_sub _ _) _).trans ?_
    rw [abs_neg]
    have := abs_nonneg x
    have := abs_nonneg y
    linarith
  have h5 : |y - y'| ≤ 4 / 10 * |x| + 2e-15 * |y| := by
    rw [abs_mul, abs_of_nonneg (by linarith)] at h4
    have := mul_le_mul_of_nonneg_right hp (abs_nonneg (y - y'))
    linarith
  have h6 : x * (x - x') ≤ 1e-16 * (x ^ 2) := by
    refine (le_abs_self _).trans ?_
    rw [abs_mul]
    refine (mul_le_mul_of_nonneg_left h1 (abs_nonneg x)).trans (le_of_eq ?_)
    rw [← sq_abs x]; ring
  have h7 : y * (y - y') ≤ 2 / 10 * (x ^ 2 + y ^ 2) + 2e-15 * y ^ 2 := by
    refine (le_abs_self _).trans ?_
    rw [abs_mul]
    refine (mul_le_mul_of_nonneg_left h5 (abs_nonneg y)).trans ?_
    rw [← sq_abs x, ← sq_abs y]
    nlinarith [sq_nonneg (|x| - |y|)]
  have h8 : 1 / 2 * (x ^ 2 + y ^ 2) ≤ (1 - a) * (x ^ 2 + y ^ 2) :=
    mul_le_mul_of_nonneg_right (by linarith) h0.le
  have := sq_nonneg x
  have := sq_nonneg y
  linarith

theorem terms_eq {η ρ : ℝ} (hη : 0 < η) (hρ : 2 * η + 10 ≤ ρ) : ∀ k i : ℕ, k + i = 100 →
    asymptoticTerms ρ η k i (state η ρ i) = state η ρ (stop η ρ k i) := by
  have hρ0 : 0 < ρ := by linarith
  intro k
  induction k with
  | zero => intro i _; rw [asymptoticTerms, stop]
  | succ k ih =>
    intro i hi
    have hi' : (i : ℝ) ≤ 100 := by
      have : i ≤ 100 := by omega
      exact_mod_cast this
    have ea : (2 * i + 1 : ℝ) * η / ((2 * (i + 1) : ℝ) * ρ) = (mul η i).re / ρ := by
      rw [mul_re]; rw [div_div]
    have eb : (η * η - (i * (i + 1) : ℝ)) / ((2 * (i + 1) : ℝ) * ρ) = (mul η i).im / ρ := by
      rw [mul_im, div_div, sq]
    have er (z : ℂ) : (mul η i / ρ * z).re = (mul η i).re / ρ * z.re - (mul η i).im / ρ * z.im := by
      rw [Complex.mul_re, Complex.div_ofReal_re, Complex.div_ofReal_im]
    have ei (z : ℂ) : (mul η i / ρ * z).im = (mul η i).re / ρ * z.im + (mul η i).im / ρ * z.re := by
      rw [Complex.mul_im, Complex.div_ofReal_re, Complex.div_ofReal_im]
    rw [asymptoticTerms, stop]
    simp only [ea, eb]
    have hcond : ((mul η i).re / ρ * ((mul η i).re / ρ) + (mul η i).im / ρ * ((mul η i).im / ρ) > 1)
        ↔ ρ ^ 2 < normSq (mul η i) := by
      rw [normSq_apply]
      have e : (mul η i).re / ρ * ((mul η i).re / ρ) + (mul η i).im / ρ * ((mul η i).im / ρ)
          = ((mul η i).re * (mul η i).re + (mul η i).im * (mul η i).im) / ρ ^ 2 := by
        field_simp
      rw [e, gt_iff_lt, lt_div_iff₀ (by positivity), one_mul]
    by_cases hc : ρ ^ 2 < normSq (mul η i)
    · rw [if_pos (hcond.mpr hc), if_pos hc]
    rw [if_neg (fun h => hc (hcond.mp h)), if_neg hc]
    simp only [state]
    have t1 : (mul η i).re / ρ * (term η ρ i).re - (mul η i).im / ρ * (term η ρ i).im
        = (term η ρ (i + 1)).re := by rw [term_succ, er]
    have t2 : (mul η i).re / ρ * (term η ρ i).im + (mul η i).im / ρ * (term η ρ i).re
        = (term η ρ (i + 1)).im := by rw [term_succ, ei]
    have d1 : (mul η i).re / ρ * (dterm η ρ i).re - (mul η i).im / ρ * (dterm η ρ i).im
        - (term η ρ (i + 1)).re / ρ = (dterm η ρ (i + 1)).re := by
      rw [dterm_succ, Complex.sub_re, er, Complex.div_ofReal_re]
    have d2 : (mul η i).re / ρ * (dterm η ρ i).im + (mul η i).im / ρ * (dterm η ρ i).re
        - (term η ρ (i + 1)).im / ρ = (dterm η ρ (i + 1)).im := by
      rw [dterm_succ, Complex.sub_im, ei, Complex.div_ofReal_im]
    simp only [t1, t2, d1, d2]
    have hno : ¬ (|1 - (term η ρ (i + 1)).re / (term η ρ i).re| < 1e-16
        ∧ |1 - (dterm η ρ (i + 1)).re / (dterm η ρ i).re| < 1e-16) := by
      rintro ⟨h1, h2⟩
      have toMul {u v : ℝ} (h : |1 - u / v| < 1e-16) : |v - u| ≤ 1e-16 * |v| := by
        by_cases hv : v = 0
        · rw [hv, div_zero, sub_zero, abs_one] at h
          norm_num at h
        · have e : v - u = (1 - u / v) * v := by field_simp
          rw [e, abs_mul]
          exact mul_le_mul_of_nonneg_right h.le (abs_nonneg v)
      have dre (k : ℕ) : (dterm η ρ k).re
          = -(k * (1 / ρ)) * (term η ρ k).re - (1 - η / ρ) * (term η ρ k).im := by
        have e : dterm η ρ k = (((-(k * (1 / ρ)) : ℝ) : ℂ) + I * ((1 - η / ρ : ℝ) : ℂ)) * term η ρ k := by
          rw [dterm]; push_cast; ring
        rw [e]; simp
      have m1 := toMul h1
      have m2 := toMul h2
      rw [dre, dre] at m2
      have hnz : 0 < (term η ρ i).re ^ 2 + (term η ρ i).im ^ 2 := by
        have := normSq_pos.mpr (term_ne_zero hη hρ0 i)
        rw [normSq_apply] at this
        nlinarith
      have hq : 1 / ρ ≤ 1 / 10 := one_div_le_one_div_of_le (by norm_num) (by linarith)
      have hηρ : η / ρ ≤ 1 / 2 := by rw [div_le_iff₀ hρ0]; linarith
      have hηρ0 : 0 < η / ρ := by positivity
      have ha : (mul η i).re / ρ ≤ 1 / 2 := by
        rw [mul_re, div_div, div_le_iff₀ (by positivity)]
        have : (0 : ℝ) ≤ i := by positivity
        nlinarith
      push_cast at m2
      exact no_repeat (a := (mul η i).re / ρ) (b := (mul η i).im / ρ) hi' (by positivity) hq
        (by linarith) (by linarith) ha t1.symm t2.symm hnz m1 m2
    rw [if_neg hno]
    have := ih (i + 1) (by omega)
    rw [state, F_succ, D_succ] at this
    exact this

end Verif.Weak
