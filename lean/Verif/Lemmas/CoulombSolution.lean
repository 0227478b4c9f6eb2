import Mathlib.Analysis.ODE.ExistUnique
import Mathlib.Analysis.SpecialFunctions.Complex.Arg
import Mathlib.Analysis.SpecialFunctions.Trigonometric.Deriv
import Mathlib.Analysis.SpecialFunctions.ExpDeriv

/-!
# The Coulomb wave equation has solutions

For every value and derivative at a point there is a solution on the whole of an interval of positive
radii. It is found in polar coordinates `y = r sin θ`, `y' = r cos θ`, where the equation for `θ` has a
bounded right-hand side.
-/

namespace Verif.Newmark

open Set Metric

/-- An equation with a bounded right-hand side has solutions on all of a given interval. -/
theorem exists_solution_bounded {f : ℝ → ℝ → ℝ} {tmin tmax t0 x0 : ℝ} (h0 : t0 ∈ Icc tmin tmax) {K L : ℝ} (hK0 : 0 ≤ K)
    (hL0 : 0 ≤ L)
    (hK : ∀ t ∈ Icc tmin tmax, ∀ x y, |f t x - f t y| ≤ K * |x - y|)
    (hc : ∀ x, ContinuousOn (fun t => f t x) (Icc tmin tmax))
    (hL : ∀ t ∈ Icc tmin tmax, ∀ x, |f t x| ≤ L) :
    ∃ α : ℝ → ℝ, α t0 = x0 ∧ ∀ t ∈ Icc tmin tmax, HasDerivWithinAt α (f t (α t)) (Icc tmin tmax) t := by
  have hd : 0 ≤ tmax - tmin := by linarith [h0.1.trans h0.2]
  have P : IsPicardLindelof f (⟨t0, h0⟩ : Icc tmin tmax) x0 (L * (tmax - tmin)).toNNReal 0
      L.toNNReal K.toNNReal :=
    { lipschitzOnWith := fun t ht => LipschitzWith.lipschitzOnWith
        (LipschitzWith.of_dist_le_mul fun x y => by 
          rw [Real.dist_eq, Real.dist_eq, Real.coe_toNNReal _ hK0]
          exact hK t ht x y)
      continuousOn := fun x _ => hc x
      norm_le := fun t ht x _ => by rw [Real.coe_toNNReal _ hL0]; exact hL t ht x
      mul_max_le := by
        have h : max (tmax - t0) (t0 - tmin) ≤ tmax - tmin := max_le (by linarith [h0.1]) (by linarith [h0.2])
        have := mul_le_mul_of_nonneg_left h hL0
        rw [Real.coe_toNNReal _ hL0, Real.coe_toNNReal _ (mul_nonneg hL0 hd)]
        simpa using this }
  exact P.exists_eq_forall_mem_Icc_hasDerivWithinAt₀

/-- Solutions on an interval of positive radii. -/
theorem exists_coulomb_solution {η ρ a : ℝ} (hρ : 0 < ρ) (ha : ρ ≤ a) (g d : ℝ) :
    ∃ y y' : ℝ → ℝ, y a = g ∧ y' a = d ∧ ∀ x ∈ Icc ρ a,
      HasDerivAt y (y' x) x ∧ HasDerivAt y' ((2 * η / x - 1) * y x) x := by
  have ht0 : a ∈ Icc (ρ / 2) (a + 1) := ⟨by linarith, by linarith⟩
  set q : ℝ → ℝ := fun t => 2 * η / t - 1 with hq
  have hpos : ∀ t ∈ Icc (ρ / 2) (a + 1), 0 < t := fun t ht => by linarith [ht.1]
  have hqc : ContinuousOn q (Icc (ρ / 2) (a + 1)) :=
    (continuousOn_const.div continuousOn_id fun t ht => (hpos t ht).ne').sub continuousOn_const
  obtain ⟨M, hM⟩ := isCompact_Icc.exists_bound_of_continuousOn hqc
  have hM0 : 0 ≤ M := (norm_nonneg _).trans (hM a ht0)
  have hM' : ∀ t ∈ Icc (ρ / 2) (a + 1), |1 + q t| ≤ 1 + M := fun t ht => by
    have h1 := abs_add_le 1 (q t)
    have h2 := hM t ht
    rw [Real.norm_eq_abs] at h2
    rw [abs_one] at h1
    linarith
  set z : ℂ := ⟨d, g⟩ with hz
  obtain ⟨θ, hθ0, hθ⟩ := exists_solution_bounded (f := fun t θ => 1 - (1 + q t) * Real.sin θ ^ 2) (x0 := z.arg)
    ht0 (K := (1 + M) * 2) (L := 2 + M) (by positivity) (by positivity)
    (by
      intro t ht x y
      have e : (1 - (1 + q t) * Real.sin x ^ 2) - (1 - (1 + q t) * Real.sin y ^ 2)
          = (1 + q t) * ((Real.sin y + Real.sin x) * (Real.sin y - Real.sin x)) := by ring
      rw [e, abs_mul, abs_mul, mul_assoc]
      refine mul_le_mul (hM' t ht) (mul_le_mul ?_ ?_ (abs_nonneg _) (by norm_num)) (by positivity) (by positivity)
      · have := abs_add_le (Real.sin y) (Real.sin x)
        have := Real.abs_sin_le_one x
        have := Real.abs_sin_le_one y
        linarith
      · have := Real.lipschitzWith_sin.dist_le_mul y x
        simpa [Real.dist_eq, abs_sub_comm] using this)
    (fun x => continuousOn_const.sub ((continuousOn_const.add hqc).mul continuousOn_const))
    (by
      intro t ht x
      refine (abs_sub _ _).trans ?_
      rw [abs_one, abs_mul, abs_of_nonneg (sq_nonneg (Real.sin x))]
      have h1 := hM' t ht
      have h2 := Real.sin_sq_le_one x
      have := mul_le_mul h1 h2 (sq_nonneg _) (by positivity)
      linarith)
  have hθc : ContinuousOn θ (Icc (ρ / 2) (a + 1)) := fun t ht => (hθ t ht).continuousWithinAt
  obtain ⟨v, hv0, hv⟩ := exists_solution_bounded
    (f := fun t _ => (1 + q t) * (Real.sin (θ t) * Real.cos (θ t))) (x0 := 0) ht0 (K := 0) (L := 1 + M)
    le_rfl (by positivity)
    (by intro t ht x y; simp)
    (fun x => (continuousOn_const.add hqc).mul ((Real.continuous_sin.comp_continuousOn hθc).mul
      (Real.continuous_cos.comp_continuousOn hθc)))
    (by
      intro t ht x
      rw [abs_mul, abs_mul]
      have h1 := hM' t ht
      have h2 : |Real.sin (θ t)| * |Real.cos (θ t)| ≤ 1 :=
        mul_le_one₀ (Real.abs_sin_le_one _) (abs_nonneg _) (Real.abs_cos_le_one _)
      have := mul_le_mul h1 h2 (by positivity) (by positivity)
      linarith)
  refine ⟨fun t => ‖z‖ * Real.exp (v t) * Real.sin (θ t), fun t => ‖z‖ * Real.exp (v t) * Real.cos (θ t), ?_, ?_, ?_⟩
  · simp only [hv0, hθ0, Real.exp_zero, mul_one]
    rw [Complex.norm_mul_sin_arg]
  · simp only [hv0, hθ0, Real.exp_zero, mul_one]
    rw [Complex.norm_mul_cos_arg]
  · intro x hx
    have hn : Icc (ρ / 2) (a + 1) ∈ nhds x := Icc_mem_nhds (by linarith [hx.1]) (by linarith [hx.2])
    have hx' : x ∈ Icc (ρ / 2) (a + 1) := mem_of_mem_nhds hn
    have d1 := (hθ x hx').hasDerivAt hn
    have d2 := ((hv x hx').hasDerivAt hn).exp.const_mul ‖z‖
    have e := Real.sin_sq_add_cos_sq (θ x)
    constructor
    · refine (d2.mul d1.sin).congr_deriv ?_
      ring
    · refine (d2.mul d1.cos).congr_deriv ?_
      simp only [hq]
      linear_combination (‖z‖ * Real.exp (v x) * Real.sin (θ x) * (2 * η / x)) * e

end Verif.Newmark
