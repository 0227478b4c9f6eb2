import Verif.Lemmas.WeakCoulomb4
import Verif.Props.Riccati

/-!
# Property C83: the irregular Coulomb function in a weak field
-/

namespace Verif

open Spec Filter Topology

theorem startValues_weak {η ρ : ℝ} (h0 : 0 < η) (h5 : η < 5) (hρ : 2 * η + 10 < ρ) :
    startValues ρ η = omGcase3 ρ η (coulombSigma0 η) := by
  rw [startValues, if_neg h0.ne', omAsymptotic, asymptoticStart, if_neg (by linarith),
    if_neg (by linarith)]
  cases h : omGcase3 ρ η (coulombSigma0 η) with
  | error e => simp [Bind.bind, Except.bind, h, hρ]
  | ok q => simp [Bind.bind, Except.bind, pure, Except.pure, h, hρ]

theorem weak_values {η ρ : ℝ} (h0 : 0 < η) (h5 : η < 5) (hρ : 2 * η + 10 < ρ) {w : WaveFunctions}
    (hw : coulombWaveFunctions 0 ρ η = .ok w) :
    w.G = (Weak.W η (coulombSigma0 η) (Weak.stop η ρ 100 0) ρ).re ∧
    w.dG = (Weak.W' η (coulombSigma0 η) (Weak.stop η ρ 100 0) ρ).re := by
  have hs := startValues_weak h0 h5 hρ
  rw [Weak.case3_eq h0 h5.le hρ.le] at hs
  exact coulomb_zeroth hs hw

/-- C83, wave equation: for `0 < η < 5` and every channel ratio beyond `2η + 10`, except the ratios where the
number of terms of the series changes, the returned `G'` is exactly the derivative of the returned `G`, and
`G` obeys the Coulomb wave equation within one part in 10000. -/
theorem C83_wave (η ρ : ℝ) (h0 : 0 < η) (h5 : η < 5) (hρ : 2 * η + 10 < ρ)
    (hS : ∀ k : ℕ, k < 100 → (2 * (k + 1) * ρ) ^ 2 ≠ (η ^ 2 + k ^ 2) * (η ^ 2 + (k + 1) ^ 2))
    (w : ℝ → WaveFunctions) (hw : ∀ᶠ x in 𝓝 ρ, coulombWaveFunctions 0 x η = .ok (w x)) :
    SolvesCoulomb 0 (1 / 10000) η ρ w := by
  have hρ0 : 0 < ρ := by linarith
  have hne : ∀ k < 100, ρ ^ 2 ≠ Complex.normSq (Weak.mul η k) := by
    intro k hk h
    refine hS k hk ?_
    rw [Weak.mul_normSq, eq_div_iff (by positivity)] at h
    rw [← h]; ring
  have hloc := Weak.stop_locally hρ0 hne
  have hN := Weak.count h0.le h5.le hρ.le
  have hv := weak_values h0 h5 hρ hw.self_of_nhds
  set N := Weak.stop η ρ 100 0
  set σ := coulombSigma0 η
  have form : ∀ᶠ x in 𝓝 ρ, (w x).G = (Weak.W η σ N x).re := by
    filter_upwards [hw, hloc, Ioi_mem_nhds hρ] with x hx hl hr
    rw [(weak_values h0 h5 hr hx).1, hl]
  refine ⟨fun x => (Weak.W' η σ N x).re, _, ?_, Weak.re_deriv (Weak.W'_deriv hρ0 N), ?_, ?_⟩
  · filter_upwards [form.eventually_nhds, Ioi_mem_nhds hρ0] with x hx hx0
    exact (Weak.re_deriv (Weak.W_deriv hx0 N)).congr_of_eventuallyEq hx
  · simp only []
    rw [hv.2, sub_self, abs_zero, zero_mul]
  · have hq : ((2 * η / ρ - 1 : ℂ)) = ((2 * η / ρ - 1 : ℝ) : ℂ) := by push_cast; ring
    rw [hv.1, hq, Complex.add_re, Complex.re_ofReal_mul, add_sub_cancel_left]
    have hN100 : (N : ℝ) ≤ 100 := by exact_mod_cast hN.high
    have hr : |(Weak.E η σ ρ * (2 * Complex.I * (N + 1) / ρ * Weak.term η ρ (N + 1))).re|
        ≤ 202 / 10 * (1 / 38000000) := by
      refine (Complex.abs_re_le_norm _).trans ?_
      rw [norm_mul, Weak.norm_E, one_mul, norm_mul]
      refine mul_le_mul ?_ hN.next (norm_nonneg _) (by norm_num)
      have e : (2 * Complex.I * (N + 1) / ρ : ℂ) = Complex.I * ((2 * (N + 1) / ρ : ℝ) : ℂ) := by
        push_cast; ring
      rw [e, norm_mul, Complex.norm_I, one_mul, Complex.norm_real, Real.norm_of_nonneg (by positivity),
        div_le_iff₀ hρ0]
      linarith
    refine hr.trans ?_
    obtain ⟨bF, bD⟩ := Weak.D_bound h0 hρ.le hN
    have hw1 := Weak.wron_near hρ0 N hN.sum
    rw [Weak.wron_eq η σ N ρ] at hw1
    have hnext := hN.next
    have hlow : 1 - 1 / 1000000
        ≤ |(Weak.W η σ N ρ).re| * 88 + |(Weak.W' η σ N ρ).re| * 8 := by
      have i1 : |(Weak.W' η σ N ρ).im| ≤ 88 := by
        refine (Complex.abs_im_le_norm _).trans ?_
        rw [Weak.W', norm_mul, Weak.norm_E, one_mul]; exact bD
      have i2 : |(Weak.W η σ N ρ).im| ≤ 8 := by
        refine (Complex.abs_im_le_norm _).trans ?_
        rw [Weak.W, norm_mul, Weak.norm_E, one_mul]; exact bF
      have j1 := mul_le_mul_of_nonneg_left i1 (abs_nonneg (Weak.W η σ N ρ).re)
      have j2 := mul_le_mul_of_nonneg_left i2 (abs_nonneg (Weak.W' η σ N ρ).re)
      rw [← abs_mul] at j1 j2
      have k1 := le_abs_self ((Weak.W η σ N ρ).re * (Weak.W' η σ N ρ).im)
      have k2 := neg_abs_le ((Weak.W' η σ N ρ).re * (Weak.W η σ N ρ).im)
      have := (abs_le.mp hw1).1
      linarith
    have hhalf : 1 / 2 ≤ |2 * η / ρ - 1| := by
      have : 2 * η / ρ ≤ 1 / 2 := by rw [div_le_iff₀ hρ0]; linarith
      rw [abs_sub_comm]
      exact le_trans (by linarith) (le_abs_self _)
    have := mul_le_mul_of_nonneg_right hhalf (abs_nonneg (Weak.W η σ N ρ).re)
    have := abs_nonneg (Weak.W' η σ N ρ).re
    linarith

/-- C83, exceptions: for each `η` there are at most a hundred exceptional channel ratios. -/
theorem C83_exceptions (η : ℝ) (h0 : 0 < η) (h5 : η < 5) : ∃ S : Finset ℝ, S.card ≤ 100 ∧
    ∀ ρ, 2 * η + 10 < ρ → ρ ∉ S → ∀ w : ℝ → WaveFunctions,
      (∀ᶠ x in 𝓝 ρ, coulombWaveFunctions 0 x η = .ok (w x)) → SolvesCoulomb 0 (1 / 10000) η ρ w := by
  classical
  refine ⟨(Finset.range 100).image fun k => ‖Weak.mul η k‖,
    Finset.card_image_le.trans (Finset.card_range 100).le, fun ρ hρ hS w hw =>
      C83_wave η ρ h0 h5 hρ (fun k hk h => hS (Finset.mem_image.mpr ⟨k, Finset.mem_range.mpr hk, ?_⟩)) w hw⟩
  have hρ0 : 0 < ρ := by linarith
  have e : ρ ^ 2 = Complex.normSq (Weak.mul η k) := by
    rw [Weak.mul_normSq, eq_div_iff (by positivity), ← h]; ring
  rw [Complex.normSq_eq_norm_sq] at e
  exact ((pow_left_inj₀ hρ0.le (norm_nonneg _) two_ne_zero).mp e).symm

/-! ### Example -/

/-- The functions are found around the point `η = 1/100`, `ρ = 63/5`. -/
theorem weak_witness : ∀ᶠ x in 𝓝 (63 / 5 : ℝ), ∃ w, coulombWaveFunctions 0 x (1 / 100) = .ok w := by
  have hρ : (63 / 5 : ℝ) ≠ 0 := by norm_num
  set σ := coulombSigma0 (1 / 100)
  have c1 : ContinuousAt (fun x => (Weak.W (1 / 100) σ Weak.N₀ x).re) (63 / 5) :=
    (Weak.re_deriv (Weak.W_deriv (by norm_num) _)).continuousAt
  have c2 : ContinuousAt (fun x => (Weak.W' (1 / 100) σ Weak.N₀ x).re) (63 / 5) :=
    (Weak.re_deriv (Weak.W'_deriv (by norm_num) _)).continuousAt
  obtain ⟨v1, v2⟩ := Weak.values
  rw [abs_le] at v2
  have pos : ∀ᶠ x in 𝓝 (63 / 5 : ℝ), 0 < (Weak.W (1 / 100) σ Weak.N₀ x).re :=
    c1.eventually_const_lt (lt_of_lt_of_le (by norm_num) v1)
  have ne : ∀ᶠ x in 𝓝 (63 / 5 : ℝ), ∀ l ∈ Finset.Icc 12 69,
      irregular x (1 / 100) (Weak.W (1 / 100) σ Weak.N₀ x).re (Weak.W' (1 / 100) σ Weak.N₀ x).re l ≠ 0 := by
    rw [eventually_all_finset]
    intro l hl
    rw [Finset.mem_Icc] at hl
    exact (Riccati3.irregular_continuous hρ c1 c2 l).eventually_ne
      (Weak.irregular_ne (by linarith) (by linarith) (by linarith) hl.1 hl.2)
  have hloc := Weak.stop_locally (η := 1 / 100) (ρ := 63 / 5) (by norm_num) fun k hk => Weak.point_ne hk
  filter_upwards [Ioi_mem_nhds (by norm_num : 2 * (1 / 100) + 10 < (63 / 5 : ℝ)), pos, ne, hloc]
    with x hx hp hn hl
  have hx' : 2 * (1 / 100) + 10 < x := hx
  have hs := startValues_weak (η := 1 / 100) (by norm_num) (by norm_num) hx'
  rw [Weak.case3_eq (by norm_num) (by norm_num) hx.le, hl] at hs
  obtain ⟨L, l1, l2, -, ⟨h0, -⟩ | ⟨F, -, -, -, -, e⟩⟩ :=
    coulomb_cases 0 (by linarith) hs (Or.inr fun hz => hp.ne' hz.1)
  · exact absurd h0 (hn _ (Finset.mem_Icc.mpr ⟨by omega, by omega⟩))
  · rw [if_pos (by omega)] at e
    exact ⟨_, e⟩

/-- `C83_wave` applies at `η = 1/100`, `ρ = 63/5`. -/
example : ∃ w : ℝ → WaveFunctions,
    (∀ᶠ x in 𝓝 (63 / 5 : ℝ), coulombWaveFunctions 0 x (1 / 100) = .ok (w x)) ∧
    SolvesCoulomb 0 (1 / 10000) (1 / 100) (63 / 5) w := by
  obtain ⟨w, hw⟩ := exists_choice weak_witness
  refine ⟨w, hw, C83_wave (1 / 100) (63 / 5) (by norm_num) (by norm_num) (by norm_num) (fun k hk h => ?_) w hw⟩
  refine Weak.point_ne hk ?_
  rw [Weak.mul_normSq, eq_div_iff (by positivity), ← h]; ring

end Verif
