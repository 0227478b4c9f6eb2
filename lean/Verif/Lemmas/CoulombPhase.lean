import Verif.Model.Coulomb
import Mathlib.Analysis.SpecialFunctions.Complex.LogBounds
import Mathlib.Analysis.SpecialFunctions.Gamma.Beta

/-!
# Stirling's series for the phase of the gamma function
-/

namespace Verif.Phase

open Complex Filter Topology

noncomputable def Q (z : ℂ) : ℂ := 1 / (12 * z) - 1 / (360 * z ^ 3) + 1 / (1260 * z ^ 5)

/-- Stirling's series for the logarithm of the gamma function, without its constant. -/
noncomputable def L (z : ℂ) : ℂ := (z - 1 / 2) * log z - z + Q z

/-- The remainder of the series, to order twelve. -/
noncomputable def P (w : ℂ) : ℂ :=
  w ^ 8 * (-1 / 240 - 1 / 240 * w - 1 / 1320 * w ^ 2 - 853 / 11088 * w ^ 4 - 557 / 1584 * w ^ 5
    - 629 / 990 * w ^ 6 - 373 / 660 * w ^ 7 - 65 / 264 * w ^ 8 - 1 / 24 * w ^ 9)

theorem taylor (w : ℂ) : logTaylor 13 w = w - w ^ 2 / 2 + w ^ 3 / 3 - w ^ 4 / 4 + w ^ 5 / 5 - w ^ 6 / 6
    + w ^ 7 / 7 - w ^ 8 / 8 + w ^ 9 / 9 - w ^ 10 / 10 + w ^ 11 / 11 - w ^ 12 / 12 := by
  simp only [logTaylor, Finset.sum_range_succ, Finset.sum_range_zero]
  push_cast
  norm_num
  ring

theorem P_bound {w : ℂ} (hw : ‖w‖ ≤ 1 / 4) : ‖P w‖ ≤ 62 / 10000 * ‖w‖ ^ 8 := by
  rw [P, norm_mul, norm_pow, mul_comm]
  refine mul_le_mul_of_nonneg_right ?_ (by positivity)
  have k (n : ℕ) : ‖w‖ ^ n ≤ (1 / 4) ^ n := pow_le_pow_left₀ (norm_nonneg _) hw n
  have c (q : ℝ) (hq : 0 ≤ q) (n : ℕ) : ‖(q : ℂ) * w ^ n‖ ≤ q * (1 / 4) ^ n := by
    rw [norm_mul, norm_pow, Complex.norm_real, Real.norm_of_nonneg hq]
    exact mul_le_mul_of_nonneg_left (k n) hq
  have h0 : ‖((1 / 240 : ℝ) : ℂ)‖ ≤ 1 / 240 := by
    rw [Complex.norm_real, Real.norm_of_nonneg (by norm_num)]
  have h1 := c (1 / 240) (by norm_num) 1
  have h2 := c (1 / 1320) (by norm_num) 2
  have h4 := c (853 / 11088) (by norm_num) 4
  have h5 := c (557 / 1584) (by norm_num) 5
  have h6 := c (629 / 990) (by norm_num) 6
  have h7 := c (373 / 660) (by norm_num) 7
  have h8 := c (65 / 264) (by norm_num) 8
  have h9 := c (1 / 24) (by norm_num) 9
  have e : (-1 / 240 - 1 / 240 * w - 1 / 1320 * w ^ 2 - 853 / 11088 * w ^ 4 - 557 / 1584 * w ^ 5
    - 629 / 990 * w ^ 6 - 373 / 660 * w ^ 7 - 65 / 264 * w ^ 8 - 1 / 24 * w ^ 9 : ℂ)
      = -(((1 / 240 : ℝ) : ℂ) + ((1 / 240 : ℝ) : ℂ) * w ^ 1 + ((1 / 1320 : ℝ) : ℂ) * w ^ 2
        + ((853 / 11088 : ℝ) : ℂ) * w ^ 4 + ((557 / 1584 : ℝ) : ℂ) * w ^ 5 + ((629 / 990 : ℝ) : ℂ) * w ^ 6
        + ((373 / 660 : ℝ) : ℂ) * w ^ 7 + ((65 / 264 : ℝ) : ℂ) * w ^ 8 + ((1 / 24 : ℝ) : ℂ) * w ^ 9) := by
    push_cast; ring
  rw [e, norm_neg]
  refine (norm_add_le_of_le (norm_add_le_of_le (norm_add_le_of_le (norm_add_le_of_le (norm_add_le_of_le
    (norm_add_le_of_le (norm_add_le_of_le (norm_add_le_of_le h0 h1) h2) h4) h5) h6) h7) h8) h9).trans ?_
  norm_num

theorem log_shift {z : ℂ} (hz : 0 ≤ z.re) (hz0 : z ≠ 0) : log (z + 1) = log z + log (1 + z⁻¹) := by
  have hr : 0 < (1 + z⁻¹).re := by
    rw [add_re, one_re, inv_re]
    have : 0 ≤ z.re / normSq z := div_nonneg hz (normSq_nonneg z)
    linarith
  have hw0 : 1 + z⁻¹ ≠ 0 := fun h => by rw [h] at hr; exact lt_irrefl _ hr
  have e : z + 1 = z * (1 + z⁻¹) := by field_simp
  have a1 := abs_le.mp (abs_arg_le_pi_div_two_iff.mpr hz)
  have a2 := abs_lt.mp (abs_arg_lt_pi_div_two_iff.mpr (.inl hr))
  rw [e, Complex.log_mul hz0 hw0]
  constructor <;> linarith [a1.1, a1.2, a2.1, a2.2]

theorem delta_bound {z : ℂ} (hre : 0 ≤ z.re) (hz : 4 ≤ ‖z‖) :
    ‖L (z + 1) - L z - log z‖ ≤ 1 / 150 * ‖z⁻¹‖ ^ 8 := by
  have hz0 : z ≠ 0 := fun h => by rw [h] at hz; norm_num at hz
  set w := z⁻¹ with hw
  have hw0 : w ≠ 0 := inv_ne_zero hz0
  have hzw : z = w⁻¹ := by rw [hw, inv_inv]
  have hn : ‖w‖ ≤ 1 / 4 := by
    rw [hw, norm_inv, one_div]
    exact inv_anti₀ (by norm_num) hz
  have hwre : 0 ≤ w.re := by
    rw [hw, inv_re]; exact div_nonneg hre (normSq_nonneg z)
  have h1w : 1 ≤ ‖1 + w‖ := by
    refine le_trans ?_ (re_le_norm _)
    rw [add_re, one_re]; linarith
  have h1w0 : 1 + w ≠ 0 := fun h => by rw [h, norm_zero] at h1w; norm_num at h1w
  set r := log (1 + w) - logTaylor 13 w with hr
  have hrb : ‖r‖ ≤ ‖w‖ ^ 13 * (1 - ‖w‖)⁻¹ / 13 := by
    have := norm_log_sub_logTaylor_le 12 (z := w) (by linarith)
    norm_num at this ⊢
    exact this
  have e : L (z + 1) - L z - log z = (w⁻¹ + 1 / 2) * r + P w / (1 + w) ^ 5 := by
    have e1 : L (z + 1) - L z - log z = (z + 1 / 2) * log (1 + w) - 1 + Q (z + 1) - Q z := by
      rw [L, L, log_shift hre hz0, ← hw]; ring
    have e2 : log (1 + w) = r + logTaylor 13 w := by rw [hr]; ring
    have e3 : z + 1 = (1 + w) / w := by rw [hzw]; field_simp
    rw [e1, e2, e3, hzw, taylor, Q, Q, P]
    field_simp
    ring
  rw [e]
  have b1 : ‖(w⁻¹ + 1 / 2) * r‖ ≤ 46 / 100000 * ‖w‖ ^ 8 := by
    rw [norm_mul]
    have hwp : 0 < ‖w‖ := norm_pos_iff.mpr hw0
    have c1 : ‖w⁻¹ + 1 / 2‖ ≤ ‖w‖⁻¹ + 1 / 2 := by
      refine (norm_add_le _ _).trans ?_
      rw [norm_inv]; norm_num
    have c2 : (1 - ‖w‖)⁻¹ ≤ 4 / 3 := by
      rw [show (4 / 3 : ℝ) = (3 / 4)⁻¹ by norm_num]
      exact inv_anti₀ (by norm_num) (by linarith)
    have c3 : ‖r‖ ≤ ‖w‖ ^ 13 * (4 / 3) / 13 := by
      refine hrb.trans ?_
      have := mul_le_mul_of_nonneg_left c2 (by positivity : 0 ≤ ‖w‖ ^ 13)
      linarith
    refine (mul_le_mul c1 c3 (norm_nonneg _) (by positivity)).trans ?_
    have e4 : (‖w‖⁻¹ + 1 / 2) * (‖w‖ ^ 13 * (4 / 3) / 13)
        = (‖w‖ ^ 4 + 1 / 2 * ‖w‖ ^ 5) * (4 / 39) * ‖w‖ ^ 8 := by
      field_simp
      norm_num
    rw [e4]
    refine mul_le_mul_of_nonneg_right ?_ (by positivity)
    have d4 : ‖w‖ ^ 4 ≤ (1 / 4) ^ 4 := pow_le_pow_left₀ (norm_nonneg _) hn 4
    have d5 : ‖w‖ ^ 5 ≤ (1 / 4) ^ 5 := pow_le_pow_left₀ (norm_nonneg _) hn 5
    norm_num at d4 d5 ⊢
    linarith
  have b2 : ‖P w / (1 + w) ^ 5‖ ≤ 62 / 10000 * ‖w‖ ^ 8 := by
    rw [norm_div, norm_pow]
    exact (div_le_self (norm_nonneg _) (one_le_pow₀ h1w)).trans (P_bound hn)
  refine (norm_add_le_of_le b1 b2).trans ?_
  have : 0 ≤ ‖w‖ ^ 8 := by positivity
  linarith

/-! ### The sums of the angles -/

theorem arg_eq {a η : ℝ} (ha : 0 < a) : arg (a + η * I) = Real.arctan (η / a) := by
  have hre : ((a : ℂ) + η * I).re = a := by simp
  have him : ((a : ℂ) + η * I).im = η := by simp
  have h := abs_lt.mp (abs_arg_lt_pi_div_two_iff.mpr (.inl (by rw [hre]; exact ha) :
    0 < ((a : ℂ) + η * I).re ∨ (a : ℂ) + η * I = 0))
  rw [← Real.arctan_tan h.1 h.2, tan_arg, hre, him]

/-- The sum of the angles `arctan (η/k)` for `k` from 1 to `n`. -/
noncomputable def angles (η : ℝ) (n : ℕ) : ℝ := ∑ k ∈ Finset.range n, Real.arctan (η / (k + 1))

/-- The phase found from Stirling's series at `n + iη`. -/
noncomputable def A (η : ℝ) (n : ℕ) : ℝ := (L ((n : ℝ) + η * I)).im - angles η (n - 1)

/-- The phase of Euler's product. -/
noncomputable def B (η : ℝ) (n : ℕ) : ℝ := η * Real.log n - angles η (n + 1)

theorem A_step (η : ℝ) {n : ℕ} (hn : 4 ≤ n) :
    |A η (n + 1) - A η n| ≤ 1 / 614400 * (1 / (n - 1) - 1 / n) := by
  have hn' : (4 : ℝ) ≤ n := by exact_mod_cast hn
  obtain ⟨m, rfl⟩ : ∃ m, n = m + 1 := ⟨n - 1, by omega⟩
  set z : ℂ := ((m + 1 : ℕ) : ℝ) + η * I with hz
  have hre : z.re = (m + 1 : ℕ) := by simp [hz]
  have e : A η (m + 1 + 1) - A η (m + 1) = (L (z + 1) - L z - log z).im := by
    have e1 : (((m + 1 + 1 : ℕ) : ℝ) : ℂ) + η * I = z + 1 := by rw [hz]; push_cast; ring
    have e2 : (log z).im = Real.arctan (η / (m + 1)) := by
      rw [log_im, hz, arg_eq (by positivity)]; push_cast; rfl
    rw [A, A, e1, Nat.add_sub_cancel, Nat.add_sub_cancel, angles, angles, Finset.sum_range_succ, sub_im,
      sub_im, e2]
    ring
  rw [e]
  refine (abs_im_le_norm _).trans ((delta_bound (by rw [hre]; linarith)
    (by refine le_trans ?_ (re_le_norm z); rw [hre]; exact hn')).trans ?_)
  have h1 : ‖z⁻¹‖ ≤ 1 / ((m + 1 : ℕ) : ℝ) := by
    rw [norm_inv, one_div]
    refine inv_anti₀ (by linarith) ?_
    rw [← hre]; exact re_le_norm z
  generalize ((m + 1 : ℕ) : ℝ) = x at *
  have hx : 0 < x := by linarith
  have h2 : 1 / x ≤ 1 / 4 := one_div_le_one_div_of_le (by norm_num) hn'
  have h3 : ‖z⁻¹‖ ^ 8 ≤ (1 / 4) ^ 6 * (1 / x) ^ 2 := by
    have a := pow_le_pow_left₀ (norm_nonneg _) h1 2
    have b := pow_le_pow_left₀ (norm_nonneg _) (h1.trans h2) 6
    rw [show ‖z⁻¹‖ ^ 8 = ‖z⁻¹‖ ^ 6 * ‖z⁻¹‖ ^ 2 by ring]
    exact mul_le_mul b a (by positivity) (by positivity)
  have h4 : (1 / x) ^ 2 ≤ 1 / (x - 1) - 1 / x := by
    rw [div_sub_div _ _ (by linarith) hx.ne', one_div, inv_pow, ← one_div,
      div_le_div_iff₀ (by positivity) (mul_pos (by linarith) hx)]
    nlinarith
  norm_num at h3 ⊢
  norm_num at h4
  linarith

theorem A_near (η : ℝ) {n : ℕ} (hn : 4 ≤ n) : |A η n - A η 4| ≤ 1 / 1800000 := by
  have key : |A η n - A η 4| ≤ 1 / 614400 * (1 / 3 - 1 / (n - 1)) := by
    induction n, hn using Nat.le_induction with
    | base => norm_num
    | succ n hn ih =>
      have := A_step η hn
      have e : A η (n + 1) - A η 4 = (A η (n + 1) - A η n) + (A η n - A η 4) := by ring
      rw [e]
      refine (abs_add_le _ _).trans ?_
      push_cast
      rw [add_sub_cancel_right]
      linarith
  have hn' : (4 : ℝ) ≤ n := by exact_mod_cast hn
  have : 0 ≤ 1 / ((n : ℝ) - 1) := div_nonneg zero_le_one (by linarith)
  linarith

/-! ### Euler's product -/

theorem inv_tendsto (η : ℝ) : Tendsto (fun n : ℕ => (((n : ℝ) : ℂ) + η * I)⁻¹) atTop (𝓝 0) := by
  rw [tendsto_zero_iff_norm_tendsto_zero]
  refine squeeze_zero' (Eventually.of_forall fun n => norm_nonneg _) ?_
    (tendsto_inv_atTop_nhds_zero_nat (𝕜 := ℝ))
  filter_upwards [eventually_gt_atTop 0] with n hn
  have hn' : (0 : ℝ) < n := by exact_mod_cast hn
  rw [norm_inv]
  refine inv_anti₀ hn' ?_
  refine le_trans (le_of_eq ?_) (re_le_norm _)
  simp

theorem Q_tendsto (η : ℝ) : Tendsto (fun n : ℕ => Q ((n : ℝ) + η * I)) atTop (𝓝 0) := by
  have h := inv_tendsto η
  have e : ∀ z : ℂ, Q z = 1 / 12 * z⁻¹ - 1 / 360 * z⁻¹ ^ 3 + 1 / 1260 * z⁻¹ ^ 5 := by
    intro z
    rw [Q]; simp only [one_div, mul_inv, inv_pow]
  simp only [e]
  have := ((h.const_mul (1 / 12)).sub ((h.pow 3).const_mul (1 / 360))).add ((h.pow 5).const_mul (1 / 1260))
  simpa using this

theorem arctan_tendsto (η : ℝ) (j : ℕ) :
    Tendsto (fun n : ℕ => Real.arctan (η / (n + j))) atTop (𝓝 0) := by
  have h : Tendsto (fun n : ℕ => η / ((n + j : ℕ) : ℝ)) atTop (𝓝 0) :=
    (tendsto_const_div_atTop_nhds_zero_nat η).comp (tendsto_add_atTop_nat j)
  have := (Real.continuous_arctan.tendsto 0).comp h
  rw [Real.arctan_zero] at this
  refine this.congr fun n => ?_
  simp only [Function.comp]; push_cast; rfl

theorem AB_tendsto (η : ℝ) : Tendsto (fun n => A η n - B η n) atTop (𝓝 0) := by
  have hg : Tendsto (fun n : ℕ => (n : ℂ) * (η * I / n)) atTop (𝓝 (η * I)) := by
    refine tendsto_const_nhds.congr' ?_
    filter_upwards [eventually_gt_atTop 0] with n hn
    have : (n : ℂ) ≠ 0 := by exact_mod_cast hn.ne'
    field_simp
  have h1 := tendsto_nat_mul_log_one_add_of_tendsto hg
  have hd : Tendsto (fun n : ℕ => (η * I / n : ℂ)) atTop (𝓝 0) := by
    have := tendsto_const_div_atTop_nhds_zero_nat (𝕜 := ℂ) (η * I)
    exact this
  have h2 : Tendsto (fun n : ℕ => log (1 + η * I / n)) atTop (𝓝 0) := by
    have hc : ContinuousAt (fun w : ℂ => log (1 + w)) 0 := by
      refine ContinuousAt.clog (by fun_prop) ?_
      rw [add_zero]; exact one_mem_slitPlane
    have := hc.tendsto.comp hd
    simp only [add_zero, log_one] at this
    exact this
  have h3 : Tendsto (fun n : ℕ => (((n : ℝ) : ℂ) + η * I - 1 / 2) * log (1 + η * I / n) - η * I
      + Q ((n : ℝ) + η * I)) atTop (𝓝 0) := by
    have := ((h1.add (h2.const_mul (η * I - 1 / 2))).sub_const (η * I)).add (Q_tendsto η)
    simp only [mul_zero, add_zero, sub_self] at this
    refine this.congr fun n => ?_
    push_cast; ring
  have h4 := (continuous_im.tendsto 0).comp h3
  rw [zero_im] at h4
  have h5 := (h4.add (arctan_tendsto η 0)).add (arctan_tendsto η 1)
  simp only [add_zero] at h5
  refine h5.congr' ?_
  filter_upwards [eventually_gt_atTop 0] with n hn
  obtain ⟨m, rfl⟩ : ∃ m, n = m + 1 := ⟨n - 1, by omega⟩
  have hn' : (0 : ℝ) < (m + 1 : ℕ) := by positivity
  set x : ℝ := ((m + 1 : ℕ) : ℝ) with hx
  have hxc : (x : ℂ) ≠ 0 := by exact_mod_cast hn'.ne'
  have hcast : ((m + 1 : ℕ) : ℂ) = (x : ℂ) := by rw [hx]; push_cast; rfl
  have hlog : log ((x : ℂ) + η * I) = (Real.log x : ℂ) + log (1 + η * I / x) := by
    have e : (x : ℂ) + η * I = (x : ℂ) * (1 + η * I / x) := by field_simp
    rw [e, log_ofReal_mul hn']
    intro h0
    have := congrArg re h0
    simp [div_re] at this
  simp only [Function.comp, A, B, L, hcast, Nat.add_sub_cancel]
  rw [hlog, angles, angles, Finset.sum_range_succ, Finset.sum_range_succ]
  have e2 : (((x : ℂ) + η * I - 1 / 2) * ((Real.log x : ℂ) + log (1 + η * I / x)) - ((x : ℂ) + η * I)
      + Q ((x : ℂ) + η * I)).im = η * Real.log x
        + ((((x : ℂ) + η * I - 1 / 2) * log (1 + η * I / x) - η * I + Q ((x : ℂ) + η * I))).im := by
    have : ((x : ℂ) + η * I - 1 / 2) * ((Real.log x : ℂ) + log (1 + η * I / x)) - ((x : ℂ) + η * I)
        + Q ((x : ℂ) + η * I) = (((x - 1 / 2) * Real.log x - x : ℝ) : ℂ) + ((η * Real.log x : ℝ) : ℂ) * I
          + (((x : ℂ) + η * I - 1 / 2) * log (1 + η * I / x) - η * I + Q ((x : ℂ) + η * I)) := by
      push_cast; ring
    rw [this, add_im, add_im, ofReal_im, im_ofReal_mul, I_im]; ring
  rw [e2]
  simp only [hx]
  push_cast
  ring

/-- The direction of a complex number. -/
noncomputable def unit (z : ℂ) : ℂ := z / ‖z‖

theorem unit_mul (a b : ℂ) : unit (a * b) = unit a * unit b := by
  rw [unit, unit, unit, norm_mul, ofReal_mul, mul_div_mul_comm]

theorem unit_div (a b : ℂ) : unit (a / b) = unit a / unit b := by
  rw [unit, unit, unit, norm_div, ofReal_div, div_div_div_comm]

theorem unit_pos {a : ℝ} (ha : 0 < a) : unit (a : ℂ) = 1 := by
  rw [unit, Complex.norm_real, Real.norm_of_nonneg ha.le, div_self (by exact_mod_cast ha.ne')]

theorem unit_eq {z : ℂ} (hz : z ≠ 0) : unit z = cexp (arg z * I) := by
  have h := norm_mul_exp_arg_mul_I z
  have h0 : (‖z‖ : ℂ) ≠ 0 := by exact_mod_cast (norm_pos_iff.mpr hz).ne'
  rw [unit, div_eq_iff h0, mul_comm]
  exact h.symm

theorem unit_prod (f : ℕ → ℂ) (n : ℕ) :
    unit (∏ k ∈ Finset.range n, f k) = ∏ k ∈ Finset.range n, unit (f k) := by
  induction n with
  | zero => simp [unit]
  | succ n ih => rw [Finset.prod_range_succ, Finset.prod_range_succ, unit_mul, ih]

theorem unit_seq (η : ℝ) {n : ℕ} (hn : 0 < n) : unit (GammaSeq (1 + η * I) n) = cexp (B η n * I) := by
  have hn' : (0 : ℝ) < n := by exact_mod_cast hn
  have hnc : (n : ℂ) ≠ 0 := by exact_mod_cast hn.ne'
  have h1 : unit ((n : ℂ) ^ (1 + η * I : ℂ)) = cexp ((η * Real.log n : ℝ) * I) := by
    rw [cpow_add _ _ hnc, cpow_one, unit_mul]
    have a : unit (n : ℂ) = 1 := by
      have := unit_pos hn'
      push_cast at this; exact this
    have b : (n : ℂ) ^ (η * I : ℂ) = cexp ((η * Real.log n : ℝ) * I) := by
      rw [cpow_def_of_ne_zero hnc, ← natCast_log]
      congr 1
      push_cast; ring
    rw [a, one_mul, b, unit, norm_exp_ofReal_mul_I, ofReal_one, div_one]
  have h2 : unit ((n.factorial : ℂ)) = 1 := by
    have := unit_pos (a := (n.factorial : ℝ)) (by positivity)
    push_cast at this; exact this
  have h3 (k : ℕ) : unit (1 + η * I + k : ℂ) = cexp ((Real.arctan (η / (k + 1)) : ℝ) * I) := by
    have e : (1 + η * I + k : ℂ) = (((k + 1 : ℕ) : ℝ) : ℂ) + η * I := by push_cast; ring
    have hk : (0 : ℝ) < ((k + 1 : ℕ) : ℝ) := by positivity
    have h0 : (((k + 1 : ℕ) : ℝ) : ℂ) + η * I ≠ 0 := by
      intro h
      have := congrArg re h
      simp at this
      exact absurd this (by positivity)
    rw [e, unit_eq h0, arg_eq hk]
    push_cast; rfl
  rw [GammaSeq, unit_div, unit_mul, h1, h2, mul_one, unit_prod, Finset.prod_congr rfl fun k _ => h3 k,
    ← Complex.exp_sum, ← Complex.exp_sub]
  congr 1
  rw [B, angles, ← Finset.sum_mul]
  push_cast
  ring

theorem exp_near (a b : ℝ) : ‖cexp (a * I) - cexp (b * I)‖ ≤ |a - b| := by
  have e : cexp (a * I) - cexp (b * I) = cexp (b * I) * (cexp (((a - b : ℝ) : ℂ) * I) - 1) := by
    rw [mul_sub, ← Complex.exp_add, mul_one]
    congr 2
    push_cast; ring
  rw [e, norm_mul, norm_exp_ofReal_mul_I, one_mul, mul_comm]
  exact Real.norm_exp_I_mul_ofReal_sub_one_le

/-- The phase of the gamma function. -/
theorem gamma_phase {η s c : ℝ} (hs : ∀ n, 4 ≤ n → |A η n - s| ≤ c) :
    ‖cexp (s * I) - unit (Gamma (1 + η * I))‖ ≤ c := by
  have hG : Gamma (1 + η * I) ≠ 0 := by
    refine Gamma_ne_zero fun m h => ?_
    have := congrArg re h
    simp at this
    have : (0 : ℝ) ≤ m := by positivity
    linarith
  have hu : Tendsto (fun n => unit (GammaSeq (1 + η * I) n)) atTop (𝓝 (unit (Gamma (1 + η * I)))) := by
    have h := GammaSeq_tendsto_Gamma (1 + η * I)
    exact h.div ((continuous_ofReal.tendsto _).comp h.norm) (by
      simpa using hG)
  have h1 : Tendsto (fun n => ‖cexp (s * I) - unit (GammaSeq (1 + η * I) n)‖) atTop
      (𝓝 ‖cexp (s * I) - unit (Gamma (1 + η * I))‖) := (tendsto_const_nhds.sub hu).norm
  have h2 : Tendsto (fun n => c + |A η n - B η n|) atTop (𝓝 (c + |0|)) :=
    (AB_tendsto η).abs.const_add _
  rw [abs_zero, add_zero] at h2
  refine le_of_tendsto_of_tendsto h1 h2 ?_
  filter_upwards [eventually_ge_atTop 4] with n hn
  rw [unit_seq η (by omega)]
  refine (exp_near _ _).trans ?_
  have h4 := hs n hn
  rw [abs_sub_comm] at h4
  calc |s - B η n| = |(s - A η n) + (A η n - B η n)| := by ring_nf
    _ ≤ _ := (abs_add_le _ _).trans (by linarith)

/-- The code's phase is Stirling's series at `4 + iη`. -/
theorem sigma_eq (η : ℝ) : coulombSigma0 η = A η 4 := by
  have hy0 : 0 < 16 + η * η := by nlinarith [mul_self_nonneg η]
  have hy := hy0.ne'
  have hz : (4 + η * I : ℂ) ≠ 0 := by
    intro h
    have := congrArg re h
    simp at this
  set ζ : ℂ := (((4 / (16 + η * η) : ℝ) : ℂ) + ((-η / (16 + η * η) : ℝ) : ℂ) * I) with hζ
  have hinv : (4 + η * I : ℂ)⁻¹ = ζ := by
    have hyc : (16 + η * η : ℂ) ≠ 0 := by exact_mod_cast hy
    refine inv_eq_of_mul_eq_one_right ?_
    rw [hζ]
    push_cast
    have e : (4 + η * I : ℂ) * (4 / (16 + η * η) + -η / (16 + η * η) * I)
        = (16 - η * η * I ^ 2) / (16 + η * η) := by ring
    rw [e, I_sq, div_eq_one_iff_eq hyc]; ring
  have hQ : (Q (4 + η * I)).im = 1 / 12 * ζ.im - 1 / 360 * (ζ ^ 3).im + 1 / 1260 * (ζ ^ 5).im := by
    have e : Q (4 + η * I) = ((1 / 12 : ℝ) : ℂ) * ζ - ((1 / 360 : ℝ) : ℂ) * ζ ^ 3
        + ((1 / 1260 : ℝ) : ℂ) * ζ ^ 5 := by
      rw [Q, ← hinv]; push_cast; simp only [one_div, mul_inv, inv_pow]
    rw [e, add_im, sub_im, im_ofReal_mul, im_ofReal_mul, im_ofReal_mul]
  have hζr : ζ.re = 4 / (16 + η * η) := by
    rw [hζ, add_re, ofReal_re, re_ofReal_mul, I_re]; ring
  have hζi : ζ.im = -η / (16 + η * η) := by
    rw [hζ, add_im, ofReal_im, im_ofReal_mul, I_im]; ring
  have h3 : (ζ ^ 3).im = 3 * ζ.re ^ 2 * ζ.im - ζ.im ^ 3 := by
    simp only [pow_succ, pow_zero, one_mul, Complex.mul_im, Complex.mul_re]; ring
  have h5 : (ζ ^ 5).im = 5 * ζ.re ^ 4 * ζ.im - 10 * ζ.re ^ 2 * ζ.im ^ 3 + ζ.im ^ 5 := by
    simp only [pow_succ, pow_zero, one_mul, Complex.mul_im, Complex.mul_re]; ring
  have hlr : (log (4 + η * I : ℂ)).re = Real.log (16 + η * η) / 2 := by
    rw [log_re]
    have e : ‖(4 + η * I : ℂ)‖ = Real.sqrt (16 + η * η) := by
      rw [Complex.norm_def, normSq_apply]
      congr 1
      simp
      norm_num
    rw [e, Real.log_sqrt hy0.le]
  have hli : (log (4 + η * I : ℂ)).im = Real.arctan (η / 4) := by
    rw [log_im]
    have := arg_eq (a := 4) (η := η) (by norm_num)
    push_cast at this
    exact this
  have hang : angles η 3 = Real.arctan η + Real.arctan (η / 2) + Real.arctan (η / 3) := by
    rw [angles, Finset.sum_range_succ, Finset.sum_range_succ, Finset.sum_range_one]
    norm_num
  have hL : (L (4 + η * I)).im = 7 / 2 * Real.arctan (η / 4) + η * (Real.log (16 + η * η) / 2) - η
      + (Q (4 + η * I)).im := by
    rw [L, add_im, sub_im, Complex.mul_im, hlr, hli]
    have a : (4 + η * I - 1 / 2 : ℂ).re = 7 / 2 := by simp; norm_num
    have b : (4 + η * I - 1 / 2 : ℂ).im = η := by simp
    have c : (4 + η * I : ℂ).im = η := by simp
    rw [a, b, c]
  have e4 : (((4 : ℕ) : ℝ) : ℂ) + η * I = 4 + η * I := by push_cast; rfl
  rw [A, e4, hL, hQ, h3, h5, hζr, hζi, hang, coulombSigma0]
  norm_num
  field_simp
  ring

/-- The phase of `coulombSigma0` is that of the gamma function. -/
theorem sigma_phase (η : ℝ) :
    ‖cexp (coulombSigma0 η * I) - unit (Gamma (1 + η * I))‖ ≤ 1 / 1800000 := by
  rw [sigma_eq]; exact gamma_phase fun n hn => A_near η hn

/-! ### Stirling's series at `iη` -/

/-- The phase found from Stirling's series at `iη`. -/
noncomputable def high (η : ℝ) : ℝ :=
  η * Real.log η - η + Real.pi / 4 - 1 / (12 * η) - 1 / (360 * η ^ 3) - 1 / (1260 * η ^ 5)

theorem high_eq {η : ℝ} (hη : 0 < η) : high η = (L (η * I)).im + Real.pi / 2 := by
  have hc : (η : ℂ) ≠ 0 := by exact_mod_cast hη.ne'
  have hl : log (η * I) = (Real.log η : ℂ) + (Real.pi / 2 : ℝ) * I := by
    rw [log_ofReal_mul hη I_ne_zero, log_I]; push_cast; ring
  have hQ : Q (η * I) = -((1 / (12 * η) + 1 / (360 * η ^ 3) + 1 / (1260 * η ^ 5) : ℝ) : ℂ) * I := by
    have i3 : (I : ℂ) ^ 3 = -I := by rw [pow_succ, I_sq]; ring
    have i5 : (I : ℂ) ^ 5 = I := by rw [show (5 : ℕ) = 2 + 3 by norm_num, pow_add, I_sq, i3]; ring
    rw [Q, mul_pow, mul_pow, i3, i5]
    have hI := I_ne_zero
    have e1 : (I : ℂ)⁻¹ = -I := inv_I
    push_cast
    simp only [one_div, mul_inv, e1, inv_neg, neg_neg]
    ring
  have e : L (η * I) = ((-(1 / 2) * Real.log η - η * (Real.pi / 2) : ℝ) : ℂ)
      + ((η * Real.log η - Real.pi / 4 - η
        - (1 / (12 * η) + 1 / (360 * η ^ 3) + 1 / (1260 * η ^ 5)) : ℝ) : ℂ) * I := by
    rw [L, hl, hQ]
    push_cast
    ring_nf
    rw [I_sq]
    ring
  rw [e, add_im, ofReal_im, im_ofReal_mul, I_im, high]
  ring

theorem high_step {η : ℝ} (hη : 5 ≤ η) (n : ℕ) :
    ‖L ((n : ℝ) + η * I + 1) - L ((n : ℝ) + η * I) - log ((n : ℝ) + η * I)‖
      ≤ 1 / 1171875 * (1 / (n + 4) - 1 / (n + 5)) := by
  set z : ℂ := (n : ℝ) + η * I with hz
  have hre : z.re = n := by simp [hz]
  have him : z.im = η := by simp [hz]
  have hn : (0 : ℝ) ≤ n := by positivity
  have hsq : ‖z‖ ^ 2 = n ^ 2 + η ^ 2 := by
    rw [← normSq_eq_norm_sq, normSq_apply, hre, him]; ring
  have h5 : 5 ≤ ‖z‖ := by
    refine le_of_sq_le_sq ?_ (norm_nonneg _)
    rw [hsq]; nlinarith
  refine (delta_bound (by rw [hre]; exact hn) (by linarith)).trans ?_
  rw [norm_inv]
  have h6 : ‖z‖⁻¹ ≤ 1 / 5 := by rw [one_div]; exact inv_anti₀ (by norm_num) h5
  have h7 : ‖z‖⁻¹ ^ 2 ≤ 2 * (1 / (n + 4) - 1 / (n + 5)) := by
    have e : 2 * (1 / ((n : ℝ) + 4) - 1 / (n + 5)) = 2 / ((n + 4) * (n + 5)) := by field_simp; ring
    rw [inv_pow, hsq, e, ← one_div, div_le_div_iff₀ (by nlinarith) (by positivity)]
    nlinarith [sq_nonneg ((n : ℝ) - 9 / 2)]
  have h8 : ‖z‖⁻¹ ^ 8 ≤ (1 / 5) ^ 6 * (2 * (1 / (n + 4) - 1 / (n + 5))) := by
    rw [show ‖z‖⁻¹ ^ 8 = ‖z‖⁻¹ ^ 6 * ‖z‖⁻¹ ^ 2 by ring]
    exact mul_le_mul (pow_le_pow_left₀ (by positivity) h6 6) h7 (by positivity) (by norm_num)
  norm_num at h8 ⊢
  linarith

theorem high_near {η : ℝ} (hη : 5 ≤ η) {n : ℕ} (hn : 1 ≤ n) : |A η n - high η| ≤ 1 / 4000000 := by
  have key : |A η n - high η| ≤ 1 / 1171875 * (1 / 4 - 1 / (n + 4)) := by
    induction n, hn using Nat.le_induction with
    | base =>
      have h := high_step hη 0
      have e : A η 1 - high η = (L (((0 : ℕ) : ℝ) + η * I + 1) - L (((0 : ℕ) : ℝ) + η * I)
          - log (((0 : ℕ) : ℝ) + η * I)).im := by
        have e1 : (((1 : ℕ) : ℝ) : ℂ) + η * I = ((0 : ℕ) : ℝ) + η * I + 1 := by push_cast; ring
        have e2 : (((0 : ℕ) : ℝ) : ℂ) + η * I = η * I := by push_cast; ring
        have e3 : (log (η * I : ℂ)).im = Real.pi / 2 := by
          rw [log_ofReal_mul (by linarith) I_ne_zero, log_I, add_im, ofReal_im]
          simp
        rw [A, e1, e2, high_eq (by linarith), sub_im, sub_im, e3]
        simp [angles]
        ring
      rw [e]
      refine (abs_im_le_norm _).trans (h.trans (le_of_eq ?_))
      norm_num
    | succ n hn ih =>
      obtain ⟨m, rfl⟩ : ∃ m, n = m + 1 := ⟨n - 1, by omega⟩
      have h := high_step hη (m + 1)
      have e : A η (m + 1 + 1) - A η (m + 1) = (L (((m + 1 : ℕ) : ℝ) + η * I + 1)
          - L (((m + 1 : ℕ) : ℝ) + η * I) - log (((m + 1 : ℕ) : ℝ) + η * I)).im := by
        have e1 : (((m + 1 + 1 : ℕ) : ℝ) : ℂ) + η * I = (((m + 1 : ℕ) : ℝ) : ℂ) + η * I + 1 := by
          push_cast; ring
        have e2 : (log (((m + 1 : ℕ) : ℝ) + η * I : ℂ)).im = Real.arctan (η / (m + 1)) := by
          rw [log_im, arg_eq (by positivity)]; push_cast; rfl
        rw [A, A, e1, Nat.add_sub_cancel, Nat.add_sub_cancel, angles, angles, Finset.sum_range_succ,
          sub_im, sub_im, e2]
        ring
      have e2 : A η (m + 1 + 1) - high η = (A η (m + 1 + 1) - A η (m + 1)) + (A η (m + 1) - high η) := by
        ring
      rw [e2, e]
      refine (abs_add_le _ _).trans ((add_le_add ((abs_im_le_norm _).trans h) ih).trans (le_of_eq ?_))
      push_cast
      ring
  have : 0 ≤ 1 / ((n : ℝ) + 4) := by positivity
  linarith

theorem high_phase {η : ℝ} (hη : 5 ≤ η) :
    ‖cexp (high η * I) - unit (Gamma (1 + η * I))‖ ≤ 1 / 4000000 :=
  gamma_phase fun _ hn => high_near hη (by omega)

end Verif.Phase
