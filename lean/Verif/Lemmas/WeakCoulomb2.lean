import Verif.Lemmas.WeakCoulomb
import Mathlib.Analysis.Calculus.Deriv.MeanValue
import Mathlib.Analysis.SpecificLimits.Basic

/-!
# The asymptotic series of the Coulomb functions in a weak field: wave equation and Wronskian
-/

namespace Verif.Weak

open Complex Filter Topology

/-- The phase of the functions at large distance. -/
noncomputable def phase (η σ ρ : ℝ) : ℝ := ρ - η * Real.log (2 * ρ) + σ

noncomputable def E (η σ ρ : ℝ) : ℂ := cexp (I * phase η σ ρ)

theorem norm_E (η σ ρ : ℝ) : ‖E η σ ρ‖ = 1 := by
  rw [E, mul_comm, norm_exp_ofReal_mul_I]

theorem phase_deriv {η σ ρ : ℝ} (hρ : 0 < ρ) : HasDerivAt (phase η σ) (1 - η / ρ) ρ := by
  have h1 : HasDerivAt (fun x : ℝ => 2 * x) 2 ρ := by
    simpa using (hasDerivAt_id ρ).const_mul (2 : ℝ)
  have h2 := (h1.log (by positivity)).const_mul η
  refine (((hasDerivAt_id ρ).fun_sub h2).add_const σ).congr_deriv ?_
  field_simp

theorem E_deriv {η σ ρ : ℝ} (hρ : 0 < ρ) :
    HasDerivAt (E η σ) (I * (1 - η / ρ) * E η σ ρ) ρ := by
  have h := (phase_deriv (η := η) (σ := σ) hρ).ofReal_comp
  refine ((h.const_mul I).cexp).congr_deriv ?_
  rw [E]; push_cast; ring

theorem term_deriv {η ρ : ℝ} (hρ : 0 < ρ) (k : ℕ) :
    HasDerivAt (fun x => term η x k) (-(k / ρ) * term η ρ k) ρ := by
  have hc : (ρ : ℂ) ≠ 0 := by exact_mod_cast hρ.ne'
  have h1 : HasDerivAt (fun x : ℝ => (x : ℂ)) 1 ρ := by
    simpa using (hasDerivAt_id ρ).ofReal_comp
  have h2 := (h1.fun_pow k).fun_inv (pow_ne_zero k hc)
  refine ((h2.const_mul (coef η k)).congr_of_eventuallyEq ?_).congr_deriv ?_
  · exact Eventually.of_forall fun x => by simp only [term, div_eq_mul_inv]
  · rw [term]
    cases k with
    | zero => simp
    | succ k =>
      push_cast
      rw [pow_succ]
      field_simp
      try ring

/-- The function whose real part is `G`, and its formal derivative. -/
noncomputable def W (η σ : ℝ) (N : ℕ) (ρ : ℝ) : ℂ := E η σ ρ * F η ρ N

noncomputable def W' (η σ : ℝ) (N : ℕ) (ρ : ℝ) : ℂ := E η σ ρ * D η ρ N

theorem factor_deriv {η ρ : ℝ} (hρ : 0 < ρ) (k : ℕ) :
    HasDerivAt (fun x : ℝ => (-(k / x) + I * (1 - η / x) : ℂ)) (k / ρ ^ 2 + I * (η / ρ ^ 2)) ρ := by
  have hc : (ρ : ℂ) ≠ 0 := by exact_mod_cast hρ.ne'
  have h1 : HasDerivAt (fun x : ℝ => (x : ℂ)) 1 ρ := by
    simpa using (hasDerivAt_id ρ).ofReal_comp
  have h2 := h1.fun_inv hc
  refine (((h2.const_mul (-(k : ℂ) - I * η)).add_const I).congr_of_eventuallyEq ?_).congr_deriv ?_
  · exact Eventually.of_forall fun x => by simp only [div_eq_mul_inv]; ring
  · field_simp
    ring

theorem W_deriv {η σ ρ : ℝ} (hρ : 0 < ρ) (N : ℕ) : HasDerivAt (W η σ N) (W' η σ N ρ) ρ := by
  have h := HasDerivAt.fun_sum (u := Finset.range (N + 1)) fun k _ => term_deriv (η := η) hρ k
  refine ((E_deriv (η := η) (σ := σ) hρ).fun_mul h).congr_deriv ?_
  rw [W', D, Finset.mul_sum, Finset.mul_sum, Finset.mul_sum, ← Finset.sum_add_distrib]
  exact Finset.sum_congr rfl fun k _ => by rw [dterm]; ring

/-- The wave equation, with the first neglected term as the only remainder. -/
theorem W'_deriv {η σ ρ : ℝ} (hρ : 0 < ρ) (N : ℕ) : HasDerivAt (W' η σ N)
    ((2 * η / ρ - 1) * W η σ N ρ + E η σ ρ * (2 * I * (N + 1) / ρ * term η ρ (N + 1))) ρ := by
  have hc : (ρ : ℂ) ≠ 0 := by exact_mod_cast hρ.ne'
  have h := HasDerivAt.fun_sum (u := Finset.range (N + 1)) fun k _ =>
    (factor_deriv (η := η) hρ k).fun_mul (term_deriv (η := η) hρ k)
  refine ((E_deriv (η := η) (σ := σ) hρ).fun_mul h).congr_deriv ?_
  have tele : ∀ N : ℕ, (∑ k ∈ Finset.range (N + 1),
      (2 * I / ρ * ((k + 1 : ℕ) * term η ρ (k + 1) - k * term η ρ k)))
        = 2 * I * (N + 1) / ρ * term η ρ (N + 1) := by
    intro N
    rw [← Finset.mul_sum, Finset.sum_range_sub (fun k => (k : ℂ) * term η ρ k)]
    push_cast
    ring
  rw [W, F, ← tele N, Finset.mul_sum, Finset.mul_sum, Finset.mul_sum, Finset.mul_sum, Finset.mul_sum,
    ← Finset.sum_add_distrib, ← Finset.sum_add_distrib]
  refine Finset.sum_congr rfl fun k _ => ?_
  rw [term_succ, mul]
  have hk : (k + 1 : ℂ) ≠ 0 := by exact_mod_cast Nat.succ_ne_zero k
  push_cast
  generalize term η ρ k = t
  generalize E η σ ρ = e
  have hI : I ^ 2 = -1 := I_sq
  field_simp
  ring_nf
  simp only [hI]
  ring

/-! ### The Wronskian -/

noncomputable def wron (η : ℝ) (N : ℕ) (ρ : ℝ) : ℝ :=
  (F η ρ N).re * (D η ρ N).im - (D η ρ N).re * (F η ρ N).im

theorem wron_eq (η σ : ℝ) (N : ℕ) (ρ : ℝ) :
    wron η N ρ = (W η σ N ρ).re * (W' η σ N ρ).im - (W' η σ N ρ).re * (W η σ N ρ).im := by
  have h : (E η σ ρ).re * (E η σ ρ).re + (E η σ ρ).im * (E η σ ρ).im = 1 := by
    rw [← normSq_apply, normSq_eq_norm_sq, norm_E, one_pow]
  rw [wron, W, W', Complex.mul_re, Complex.mul_re, Complex.mul_im, Complex.mul_im]
  linear_combination -((F η ρ N).re * (D η ρ N).im - (D η ρ N).re * (F η ρ N).im) * h

theorem re_deriv {f : ℝ → ℂ} {f' : ℂ} {x : ℝ} (h : HasDerivAt f f' x) :
    HasDerivAt (fun x => (f x).re) f'.re x :=
  (reCLM.hasFDerivAt (x := f x)).comp_hasDerivAt x h

theorem im_deriv {f : ℝ → ℂ} {f' : ℂ} {x : ℝ} (h : HasDerivAt f f' x) :
    HasDerivAt (fun x => (f x).im) f'.im x :=
  (imCLM.hasFDerivAt (x := f x)).comp_hasDerivAt x h

/-- The change of the Wronskian. -/
theorem wron_deriv {η ρ : ℝ} (hρ : 0 < ρ) (N : ℕ) : ∃ d, HasDerivAt (wron η N) d ρ ∧
    |d| ≤ 2 * (N + 1) / ρ * (‖F η ρ N‖ * ‖term η ρ (N + 1)‖) := by
  have h1 := W_deriv (η := η) (σ := 0) hρ N
  have h2 := W'_deriv (η := η) (σ := 0) hρ N
  have h3 := ((re_deriv h1).fun_mul (im_deriv h2)).fun_sub ((re_deriv h2).fun_mul (im_deriv h1))
  refine ⟨_, h3.congr_of_eventuallyEq (Eventually.of_forall fun x => wron_eq η 0 N x), ?_⟩
  set r : ℂ := E η 0 ρ * (2 * I * (N + 1) / ρ * term η ρ (N + 1)) with hr
  have hq : ((2 * η / ρ - 1 : ℂ)) = ((2 * η / ρ - 1 : ℝ) : ℂ) := by push_cast; ring
  rw [hq, add_re, add_im, re_ofReal_mul, im_ofReal_mul]
  have e : (W' η 0 N ρ).re * (W' η 0 N ρ).im + (W η 0 N ρ).re * ((2 * η / ρ - 1) * (W η 0 N ρ).im + r.im)
      - (((2 * η / ρ - 1) * (W η 0 N ρ).re + r.re) * (W η 0 N ρ).im + (W' η 0 N ρ).re * (W' η 0 N ρ).im)
      = (starRingEnd ℂ (W η 0 N ρ) * r).im := by
    rw [Complex.mul_im (starRingEnd ℂ (W η 0 N ρ)) r, conj_re, conj_im]; ring
  have nW : ‖W η 0 N ρ‖ = ‖F η ρ N‖ := by rw [W, norm_mul, norm_E, one_mul]
  have nr : ‖r‖ = 2 * (N + 1) / ρ * ‖term η ρ (N + 1)‖ := by
    rw [hr, norm_mul, norm_E, one_mul, norm_mul]
    congr 1
    have : (2 * I * (N + 1) / ρ : ℂ) = I * ((2 * (N + 1) / ρ : ℝ) : ℂ) := by push_cast; ring
    rw [this, norm_mul, norm_I, one_mul, Complex.norm_real, Real.norm_of_nonneg (by positivity)]
  rw [e]
  refine (abs_im_le_norm _).trans (le_of_eq ?_)
  rw [norm_mul, norm_conj, nW, nr]
  ring

theorem term_tendsto (η : ℝ) (k : ℕ) : Tendsto (fun ρ => term η ρ (k + 1)) atTop (𝓝 0) := by
  rw [tendsto_zero_iff_norm_tendsto_zero]
  have h : Tendsto (fun ρ : ℝ => ‖coef η (k + 1)‖ * (ρ ^ (k + 1))⁻¹) atTop (𝓝 (‖coef η (k + 1)‖ * 0)) :=
    ((tendsto_pow_atTop (Nat.succ_ne_zero k)).inv_tendsto_atTop).const_mul _
  rw [mul_zero] at h
  refine h.congr' ?_
  filter_upwards [eventually_gt_atTop 0] with ρ hρ
  rw [term, norm_div, norm_pow, Complex.norm_real, Real.norm_of_nonneg hρ.le, div_eq_mul_inv]

theorem F_tendsto (η : ℝ) : ∀ N : ℕ, Tendsto (fun ρ => F η ρ N) atTop (𝓝 1) := by
  intro N
  induction N with
  | zero => simp only [F, zero_add, Finset.sum_range_one, term_zero]; exact tendsto_const_nhds
  | succ N ih =>
    have h := ih.add (term_tendsto η N)
    rw [add_zero] at h
    exact h.congr fun ρ => (F_succ η ρ N).symm

theorem factor_tendsto (η : ℝ) (k : ℕ) :
    Tendsto (fun ρ : ℝ => (-(k / ρ) + I * (1 - η / ρ) : ℂ)) atTop (𝓝 I) := by
  have h0 : Tendsto (fun ρ : ℝ => ((ρ⁻¹ : ℝ) : ℂ)) atTop (𝓝 ((0 : ℝ) : ℂ)) :=
    (continuous_ofReal.tendsto 0).comp tendsto_inv_atTop_zero
  have h1 := (h0.const_mul (-(k : ℂ) - I * η)).add_const I
  rw [ofReal_zero, mul_zero, zero_add] at h1
  refine h1.congr fun ρ => ?_
  push_cast
  ring

theorem D_tendsto (η : ℝ) : ∀ N : ℕ, Tendsto (fun ρ => D η ρ N) atTop (𝓝 I) := by
  intro N
  induction N with
  | zero =>
    simp only [D, zero_add, Finset.sum_range_one, dterm, term_zero, mul_one]
    exact factor_tendsto η 0
  | succ N ih =>
    have h := ih.add ((factor_tendsto η (N + 1)).mul (term_tendsto η N))
    rw [mul_zero, add_zero] at h
    exact h.congr fun ρ => by rw [D_succ, dterm]

theorem wron_tendsto (η : ℝ) (N : ℕ) : Tendsto (wron η N) atTop (𝓝 1) := by
  have h1 := F_tendsto η N
  have h2 := D_tendsto η N
  have re (z : ℂ) := continuous_re.tendsto z
  have im (z : ℂ) := continuous_im.tendsto z
  have h := (((re _).comp h1).mul ((im _).comp h2)).sub (((re _).comp h2).mul ((im _).comp h1))
  simp only [one_re, I_im, I_re, one_im, mul_one, mul_zero, sub_zero] at h
  exact h

theorem term_norm_eq {η x : ℝ} (hx : 0 < x) (k : ℕ) : ‖term η x k‖ = ‖coef η k‖ / x ^ k := by
  rw [term, norm_div, norm_pow, Complex.norm_real, Real.norm_of_nonneg hx.le]

theorem term_norm_anti {η ρ x : ℝ} (hρ : 0 < ρ) (hx : ρ ≤ x) (k : ℕ) :
    ‖term η x k‖ ≤ ‖term η ρ k‖ := by
  rw [term_norm_eq hρ, term_norm_eq (hρ.trans_le hx)]
  exact div_le_div_of_nonneg_left (norm_nonneg _) (by positivity) (pow_le_pow_left₀ hρ.le hx k)

/-- The Wronskian is one up to the first neglected term. -/
theorem wron_near {η ρ M : ℝ} (hρ : 0 < ρ) (N : ℕ)
    (hM : ∑ k ∈ Finset.range (N + 1), ‖term η ρ k‖ ≤ M) :
    |wron η N ρ - 1| ≤ 2 * M * ‖term η ρ (N + 1)‖ := by
  set C := ‖coef η (N + 1)‖ with hC
  have hM0 : 0 ≤ M := (Finset.sum_nonneg fun _ _ => norm_nonneg _).trans hM
  have hF {x : ℝ} (hx : ρ ≤ x) : ‖F η x N‖ ≤ M := by
    refine (norm_sum_le _ _).trans (le_trans (Finset.sum_le_sum fun k _ => ?_) hM)
    exact term_norm_anti hρ hx k
  choose! d hd hd' using fun (x : ℝ) (hx : 0 < x) => wron_deriv (η := η) hx N
  have bd {x : ℝ} (hx : 0 < x) : HasDerivAt (fun x : ℝ => 2 * M * (C / x ^ (N + 1)))
      (-(2 * (N + 1) / x * (M * (C / x ^ (N + 1))))) x := by
    have h := (((hasDerivAt_id x).fun_pow (N + 1)).fun_inv (pow_ne_zero _ hx.ne')).const_mul (2 * M * C)
    refine (h.congr_of_eventuallyEq (Eventually.of_forall fun x => ?_)).congr_deriv ?_
    · simp only [id, div_eq_mul_inv]; ring
    · simp only [id, Nat.add_sub_cancel]
      push_cast
      field_simp
      rw [pow_succ]; ring
  have hdb {x : ℝ} (hx : ρ ≤ x) : |d x| ≤ 2 * (N + 1) / x * (M * (C / x ^ (N + 1))) := by
    have hx0 := hρ.trans_le hx
    refine (hd' x hx0).trans ?_
    rw [term_norm_eq hx0]
    refine mul_le_mul_of_nonneg_left ?_ (by positivity)
    exact mul_le_mul_of_nonneg_right (hF hx) (by positivity)
  have blim : Tendsto (fun x : ℝ => 2 * M * (C / x ^ (N + 1))) atTop (𝓝 0) := by
    have h := ((tendsto_pow_atTop (α := ℝ) (Nat.succ_ne_zero N)).inv_tendsto_atTop).const_mul (2 * M * C)
    rw [mul_zero] at h
    refine h.congr fun x => ?_
    simp only [Pi.inv_apply, div_eq_mul_inv, Nat.succ_eq_add_one]; ring
  have hb : 2 * M * ‖term η ρ (N + 1)‖ = 2 * M * (C / ρ ^ (N + 1)) := by rw [term_norm_eq hρ]
  rw [hb, abs_le]
  constructor
  · have anti : AntitoneOn (fun x => wron η N x + 2 * M * (C / x ^ (N + 1))) (Set.Ici ρ) := by
      refine antitoneOn_of_hasDerivWithinAt_nonpos (convex_Ici ρ)
        (f' := fun x => d x + -(2 * (N + 1) / x * (M * (C / x ^ (N + 1))))) ?_ ?_ ?_
      · intro x hx
        exact ((hd x (hρ.trans_le hx)).fun_add (bd (hρ.trans_le hx))).continuousAt.continuousWithinAt
      · intro x hx
        rw [interior_Ici] at hx
        exact ((hd x (hρ.trans hx)).fun_add (bd (hρ.trans hx))).hasDerivWithinAt
      · intro x hx
        rw [interior_Ici] at hx
        have := (abs_le.mp (hdb (le_of_lt hx))).2
        linarith
    have hl := (wron_tendsto η N).add blim
    rw [add_zero] at hl
    have : (1 : ℝ) ≤ wron η N ρ + 2 * M * (C / ρ ^ (N + 1)) := by
      refine le_of_tendsto hl ?_
      filter_upwards [eventually_ge_atTop ρ] with x hx
      exact anti (Set.mem_Ici.mpr le_rfl) hx hx
    linarith
  · have mono : MonotoneOn (fun x => wron η N x - 2 * M * (C / x ^ (N + 1))) (Set.Ici ρ) := by
      refine monotoneOn_of_hasDerivWithinAt_nonneg (convex_Ici ρ)
        (f' := fun x => d x - -(2 * (N + 1) / x * (M * (C / x ^ (N + 1))))) ?_ ?_ ?_
      · intro x hx
        exact ((hd x (hρ.trans_le hx)).fun_sub (bd (hρ.trans_le hx))).continuousAt.continuousWithinAt
      · intro x hx
        rw [interior_Ici] at hx
        exact ((hd x (hρ.trans hx)).fun_sub (bd (hρ.trans hx))).hasDerivWithinAt
      · intro x hx
        rw [interior_Ici] at hx
        have := (abs_le.mp (hdb (le_of_lt hx))).1
        linarith
    have hl := (wron_tendsto η N).sub blim
    rw [sub_zero] at hl
    have : wron η N ρ - 2 * M * (C / ρ ^ (N + 1)) ≤ 1 := by
      refine ge_of_tendsto hl ?_
      filter_upwards [eventually_ge_atTop ρ] with x hx
      exact mono (Set.mem_Ici.mpr le_rfl) hx hx
    linarith

end Verif.Weak
