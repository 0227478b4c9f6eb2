import Verif.Lemmas.WeakCoulomb4

/-!
# The asymptotic series of the Coulomb functions at the radius of the expansion, for an example
-/

namespace Verif.Weak

open Complex Filter Topology

/-- The number of terms at the radius of the expansion. -/
noncomputable def N₁ : ℕ := stop (1 / 100) (501 / 50) 100 0

theorem near : ‖F (1 / 100) (501 / 50) N₁ - 1‖ ≤ 1 / 1000 ∧
    ‖D (1 / 100) (501 / 50) N₁ - I * ((1 - 1 / 100 / (501 / 50) : ℝ) : ℂ)‖ ≤ 11 / 1000 := by
  have hρ : 2 * (1 / 100) + 10 ≤ (501 / 50 : ℝ) := by norm_num
  have hN := count (η := 1 / 100) (by norm_num) (by norm_num) hρ
  have hspec := stop_spec (1 / 100) (501 / 50) 100 0
  change Count (1 / 100) (501 / 50) N₁ at hN
  change 0 ≤ N₁ ∧ N₁ ≤ 0 + 100 ∧ _ ∧ _ at hspec
  have t1 : ‖term (1 / 100) (501 / 50) 1‖ ≤ 1 / 1900 := by
    rw [term_norm_succ (by norm_num), term_zero, norm_one, mul_one, div_le_iff₀ (by norm_num)]
    refine (norm_le_abs_re_add_abs_im _).trans ?_
    rw [mul_re, mul_im]
    norm_num [abs_of_pos]
  have ts {k : ℕ} {p μ : ℝ} (hμ : 0 ≤ μ) (h : ‖term (1 / 100) (501 / 50) k‖ ≤ p)
      (hm : (1 / 100) ^ 2 + k ^ 2 + k + 1 / 2 ≤ μ * (2 * (k + 1)) * (501 / 50)) :
      ‖term (1 / 100) (501 / 50) (k + 1)‖ ≤ μ * p := by
    rw [term_norm_succ (by norm_num)]
    refine mul_le_mul ?_ h (norm_nonneg _) hμ
    rw [div_le_iff₀ (by norm_num)]
    refine (mul_norm_le _ k).trans ?_
    rw [div_le_iff₀ (by positivity)]
    linarith
  have t2 : ‖term (1 / 100) (501 / 50) 2‖ ≤ 1 / 16 * (1 / 1900) := ts (by norm_num) t1 (by norm_num)
  have t3 : ‖term (1 / 100) (501 / 50) 3‖ ≤ 1 / 9 * (1 / 16 * (1 / 1900)) :=
    ts (by norm_num) t2 (by norm_num)
  have dec {j : ℕ} (hj : j < N₁) : ‖term (1 / 100) (501 / 50) (j + 1)‖ ≤ ‖term (1 / 100) (501 / 50) j‖ := by
    have := hspec.2.2.1 j (Nat.zero_le j) hj
    rw [normSq_eq_norm_sq] at this
    rw [term_norm_succ (by norm_num)]
    refine mul_le_of_le_one_left (norm_nonneg _) ((div_le_one (by norm_num)).mpr ?_)
    exact le_of_sq_le_sq this (by norm_num)
  have mono : ∀ n, 3 ≤ n → n ≤ N₁ → ‖term (1 / 100) (501 / 50) n‖ ≤ 1 / 250000 := by
    intro n hn
    induction n, hn using Nat.le_induction with
    | base => intro _; exact t3.trans (by norm_num)
    | succ n hn ih => intro h; exact (dec (by omega)).trans (ih (by omega))
  have hsum : ∑ k ∈ Finset.range N₁, ‖term (1 / 100) (501 / 50) (k + 1)‖ ≤ 1 / 1000 := by
    have hs : ∀ n, 2 ≤ n → n ≤ N₁ → ∑ k ∈ Finset.range n, ‖term (1 / 100) (501 / 50) (k + 1)‖
        ≤ 1 / 1900 + 1 / 30000 + 1 / 250000 * (n - 2) := by
      intro n hn
      induction n, hn using Nat.le_induction with
      | base =>
        intro _
        rw [Finset.sum_range_succ, Finset.sum_range_one]
        norm_num at t1 t2 ⊢
        linarith
      | succ n hn ih =>
        intro h
        rw [Finset.sum_range_succ]
        have := ih (by omega)
        have := mono (n + 1) (by omega) h
        push_cast
        linarith
    have := hs N₁ (by have := hN.low; omega) le_rfl
    have hN' : (N₁ : ℝ) ≤ 100 := by exact_mod_cast hN.high
    linarith
  have hF : ‖F (1 / 100) (501 / 50) N₁ - 1‖ ≤ 1 / 1000 := by
    rw [F, Finset.sum_range_succ', term_zero, add_sub_cancel_right]
    exact (norm_sum_le _ _).trans hsum
  have hD : ‖D (1 / 100) (501 / 50) N₁ - I * ((1 - 1 / 100 / (501 / 50) : ℝ) : ℂ)‖ ≤ 11 / 1000 := by
    have e : dterm (1 / 100) (501 / 50) 0 = I * ((1 - 1 / 100 / (501 / 50) : ℝ) : ℂ) := by
      rw [dterm, term_zero]; push_cast; simp
    rw [D, Finset.sum_range_succ', e, add_sub_cancel_right]
    refine (norm_sum_le _ _).trans ?_
    have : ∀ k ∈ Finset.range N₁, ‖dterm (1 / 100) (501 / 50) (k + 1)‖
        ≤ 11 * ‖term (1 / 100) (501 / 50) (k + 1)‖ := by
      intro k hk
      exact dterm_le (by norm_num) (by norm_num) (by
        have := Finset.mem_range.mp hk
        have := hN.high
        omega)
    refine (Finset.sum_le_sum this).trans ?_
    rw [← Finset.mul_sum]
    linarith
  exact ⟨hF, hD⟩

/-- The value and the derivative are far from zero. -/
theorem near_values : 1 / 4 ≤ |(W (1 / 100) (coulombSigma0 (1 / 100)) N₁ (501 / 50)).re| ∧
    1 / 4 ≤ |(W' (1 / 100) (coulombSigma0 (1 / 100)) N₁ (501 / 50)).re| := by
  obtain ⟨hF, hD⟩ := near
  have h1 := log_range (x := 2 * (501 / 50)) (by norm_num) (by norm_num)
  obtain ⟨s1, s2⟩ := sigma_small
  have p1 := Real.pi_gt_d4
  have p2 := Real.pi_lt_d4
  set φ := phase (1 / 100) (coulombSigma0 (1 / 100)) (501 / 50) with hφ
  obtain ⟨f1, f2⟩ : 1 / 2 ≤ φ - 2 * Real.pi - Real.pi ∧ φ - 2 * Real.pi - Real.pi ≤ 7 / 10 := by
    rw [hφ, phase]
    constructor <;> linarith
  have hcos : Real.cos φ ≤ -(1 / 2) := by
    have h := Real.one_sub_sq_div_two_le_cos (x := φ - 2 * Real.pi - Real.pi)
    rw [Real.cos_sub_pi, Real.cos_sub_two_pi] at h
    nlinarith
  have hsin : Real.sin φ ≤ -(2 / 5) := by
    have h := Real.sin_gt_sub_cube (x := φ - 2 * Real.pi - Real.pi) (by linarith)
    rw [Real.sin_sub_pi, Real.sin_sub_two_pi] at h
    set t := φ - 2 * Real.pi - Real.pi
    have : t ^ 2 ≤ 49 / 100 := by nlinarith
    have : t ^ 3 ≤ 49 / 100 * t := by nlinarith
    linarith
  have hre : (E (1 / 100) (coulombSigma0 (1 / 100)) (501 / 50)).re = Real.cos φ := by
    rw [E, mul_comm, exp_ofReal_mul_I_re]
  have him : (E (1 / 100) (coulombSigma0 (1 / 100)) (501 / 50)).im = Real.sin φ := by
    rw [E, mul_comm, exp_ofReal_mul_I_im]
  set e := E (1 / 100) (coulombSigma0 (1 / 100)) (501 / 50) with he
  have ne : ‖e‖ = 1 := norm_E _ _ _
  constructor
  · have h1 : |(e * (F (1 / 100) (501 / 50) N₁ - 1)).re| ≤ 1 / 1000 := by
      refine (abs_re_le_norm _).trans ?_
      rw [norm_mul, ne, one_mul]; exact hF
    have h2 : (W (1 / 100) (coulombSigma0 (1 / 100)) N₁ (501 / 50)).re
        = Real.cos φ + (e * (F (1 / 100) (501 / 50) N₁ - 1)).re := by
      rw [W, ← he, ← hre, ← add_re]; congr 1; ring
    rw [h2, le_abs]
    have := (abs_le.mp h1).2
    right
    linarith
  · have h1 : |(e * (D (1 / 100) (501 / 50) N₁ - I * ((1 - 1 / 100 / (501 / 50) : ℝ) : ℂ))).re| ≤ 11 / 1000 := by
      refine (abs_re_le_norm _).trans ?_
      rw [norm_mul, ne, one_mul]; exact hD
    have h2 : (W' (1 / 100) (coulombSigma0 (1 / 100)) N₁ (501 / 50)).re
        = -((1 - 1 / 100 / (501 / 50) : ℝ) * Real.sin φ)
          + (e * (D (1 / 100) (501 / 50) N₁ - I * ((1 - 1 / 100 / (501 / 50) : ℝ) : ℂ))).re := by
      have h3 : (e * (I * ((1 - 1 / 100 / (501 / 50) : ℝ) : ℂ))).re
          = -((1 - 1 / 100 / (501 / 50) : ℝ) * Real.sin φ) := by
        rw [← mul_assoc, re_mul_ofReal, mul_I_re, him]; ring
      rw [W', ← he, ← h3, ← add_re]; congr 1; ring
    rw [h2, le_abs]
    have := (abs_le.mp h1).1
    left
    norm_num at *
    linarith

end Verif.Weak
