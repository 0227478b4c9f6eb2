import Verif.Lemmas.Riccati
import Verif.Lemmas.Riccati2
import Verif.Lemmas.Riccati3
import Verif.Spec.Riccati
import Verif.Props.CoulombDerivative

/-!
# Property C82: the expansions of the irregular Coulomb function
-/

namespace Verif

open Spec Filter Topology

/-! ### Below the turning point -/

theorem startValues_below {η ρ : ℝ} (hη : 15 ≤ η) (h1 : 16 < ρ) (h2 : ρ ≤ 5 * η / 3 - 5) :
    startValues ρ η = omGcase1 ρ η := by
  rw [startValues, if_neg (by linarith), omAsymptotic, asymptoticStart, if_pos hη, if_pos h1, if_pos h2]
  cases h : omGcase1 ρ η with
  | error e => rfl
  | ok q =>
    simp only [Bind.bind, Except.bind, pure, Except.pure, sub_self, ne_eq, not_true_eq_false, if_false,
      ite_self]

theorem below_values {η ρ : ℝ} (hη : 15 ≤ η) (h1 : 16 < ρ) (h2 : ρ ≤ 5 * η / 3 - 5)
    {w : WaveFunctions} (hw : coulombWaveFunctions 0 ρ η = .ok w) :
    (w.G = 0 ∧ w.dG = 0 ∧ 100 < riccati1Exponent η (ρ * (1 / (2 * η)))) ∨
    (w.G = Real.exp (riccati1Exponent η (ρ * (1 / (2 * η)))) ∧
      w.dG = w.G * (1 / (2 * η)) * riccati1Slope η (ρ * (1 / (2 * η)))) := by
  have ht0 : 0 < ρ * (1 / (2 * η)) := by
    have : 0 < η := by linarith
    positivity
  have ht1 : ρ * (1 / (2 * η)) < 1 := by
    rw [mul_one_div, div_lt_one (by linarith)]; linarith
  have hs := startValues_below hη h1 h2
  rw [omGcase1] at hs
  simp only [if_pos (And.intro ht0 ht1)] at hs
  by_cases hq : riccati1Exponent η (ρ * (1 / (2 * η))) > 100
  · rw [if_pos hq] at hs
    obtain ⟨a, b⟩ := coulomb_zeroth hs hw
    exact .inl ⟨a, b, hq⟩
  · rw [if_neg hq] at hs
    obtain ⟨a, b⟩ := coulomb_zeroth hs hw
    exact .inr ⟨a, by rw [b, a]⟩

/-- C82 below the turning point: for `η ≥ 15` and channel ratios between 16 and `5η/3 - 5`, wherever the
functions are not reported as zero, the returned `G'` is the derivative of the returned `G` within one part
in 5000 and `G` obeys the Coulomb wave equation within one part in 1000. -/
theorem C82_below (η ρ : ℝ) (hη : 15 ≤ η) (h1 : 16 < ρ) (h2 : ρ < 5 * η / 3 - 5)
    (w : ℝ → WaveFunctions) (hw : ∀ᶠ x in 𝓝 ρ, coulombWaveFunctions 0 x η = .ok (w x))
    (h0 : (w ρ).G ≠ 0) (hmax : (w ρ).G < Real.exp 100) :
    SolvesCoulomb (1 / 5000) (1 / 1000) η ρ w := by
  have hη0 : 0 < η := by linarith
  have hy : (0 : ℝ) < 1 / (2 * η) := by positivity
  set t : ℝ → ℝ := fun x => x * (1 / (2 * η)) with ht
  have dt (x : ℝ) : HasDerivAt t (1 / (2 * η)) x :=
    ((hasDerivAt_id x).mul_const (1 / (2 * η))).congr_deriv (one_mul _)
  have t0 {x : ℝ} (hx : 16 < x) : 0 < t x := by rw [ht]; positivity
  have t1 {x : ℝ} (hx : x < 5 * η / 3 - 5) : t x < 1 := by
    simp only [ht]
    rw [mul_one_div, div_lt_one (by linarith)]; linarith
  have t56 : t ρ ≤ 5 / 6 := by
    simp only [ht]
    rw [mul_one_div, div_le_iff₀ (by linarith)]; linarith
  have hρ := hw.self_of_nhds
  obtain ⟨hG, hD⟩ := (below_values hη h1 h2.le hρ).resolve_left fun h => h0 h.1
  have dq {x : ℝ} (hx : 16 < x) (hx' : x < 5 * η / 3 - 5) :
      HasDerivAt (fun x => riccati1Exponent η (t x)) (Riccati.W η (t x)) x := by
    refine ((Riccati.exponent_deriv hη0.ne' (t0 hx) (t1 hx')).comp x (dt x)).congr_deriv ?_
    rw [Riccati.W]; field_simp
  have region : ∀ᶠ x in 𝓝 ρ, 16 < x ∧ x < 5 * η / 3 - 5 :=
    Filter.mem_of_superset (Ioo_mem_nhds h1 h2) fun x hx => hx
  have small : ∀ᶠ x in 𝓝 ρ, riccati1Exponent η (t x) < 100 := by
    have hc := (dq h1 h2).continuousAt
    have : riccati1Exponent η (t ρ) < 100 := by
      rw [hG] at hmax
      exact Real.exp_lt_exp.mp hmax
    exact hc.eventually_lt_const this
  have form : ∀ᶠ x in 𝓝 ρ, (w x).G = Real.exp (riccati1Exponent η (t x)) := by
    filter_upwards [hw, region, small] with x hx hr hs
    rcases below_values hη hr.1 hr.2.le hx with ⟨-, -, h⟩ | ⟨h, -⟩
    · exact absurd h (not_lt.mpr hs.le)
    · exact h
  obtain ⟨W', dW, eW⟩ := Riccati.W_deriv hη0.ne' (t0 h1) (t1 h2)
  have du := Riccati.u_small hη h1.le h2.le
  have hdef := Riccati.defect_bound du.1.le du.2 (t0 h1).le t56
  have hcode := Riccati.codeSlope_near du.1.le du.2 (t0 h1).le t56
  have hlarge := Riccati.slope_large du.1.le du.2 (t0 h1).le t56
  have hv := Riccati.v_pos (t0 h1) (t1 h2)
  have ht1 : 0 < 1 - t ρ := sub_pos.mpr (t1 h2)
  have hk : 0 < Riccati.v (t ρ) / (t ρ * (1 - t ρ)) := div_pos hv (mul_pos (t0 h1) ht1)
  have hE : 0 < Real.exp (riccati1Exponent η (t ρ)) := Real.exp_pos _
  have et : 2 * η / ρ - 1 = 1 / t ρ - 1 := by
    simp only [ht]
    have : ρ ≠ 0 := by linarith
    field_simp
  have et0 : 0 < 1 / t ρ - 1 := by
    rw [sub_pos, lt_div_iff₀ (t0 h1)]; linarith
  refine ⟨fun x => Real.exp (riccati1Exponent η (t x)) * Riccati.W η (t x),
    Real.exp (riccati1Exponent η (t ρ)) * ((1 / t ρ - 1)
      * (1 + Riccati.defect (Riccati.u η (t ρ)) (t ρ))), ?_, ?_, ?_, ?_⟩
  · filter_upwards [form.eventually_nhds, region] with x hx hr
    exact (dq hr.1 hr.2).exp.congr_of_eventuallyEq hx
  · refine ((dq h1 h2).exp.fun_mul (dW.comp ρ (dt ρ))).congr_deriv ?_
    rw [← eW]
    simp only [Function.comp]
    ring
  · rw [hD, hG]
    change |Real.exp (riccati1Exponent η (t ρ)) * (1 / (2 * η)) * riccati1Slope η (t ρ) - _| ≤ _
    rw [Riccati.codeSlope_eq hη0.ne' (t0 h1) (t1 h2)]
    set E := Real.exp (riccati1Exponent η (t ρ))
    set K := Riccati.v (t ρ) / (t ρ * (1 - t ρ))
    change |E * (1 / (2 * η)) * (-(2 * η) * K * Riccati.codeSlope (Riccati.u η (t ρ)) (t ρ))
      - E * (-K * Riccati.slope (Riccati.u η (t ρ)) (t ρ))|
        ≤ 1 / 5000 * (|E| + |E * (-K * Riccati.slope (Riccati.u η (t ρ)) (t ρ))|)
    have hu' : Riccati.u η (t ρ) = Riccati.u η (ρ * (1 / (2 * η))) := rfl
    rw [← hu'] at hcode hlarge
    generalize Riccati.codeSlope (Riccati.u η (t ρ)) (t ρ) = a at *
    generalize Riccati.slope (Riccati.u η (t ρ)) (t ρ) = b at *
    have e1 : E * (1 / (2 * η)) * (-(2 * η) * K * a) - E * (-K * b) = -(E * K * (a - b)) := by
      field_simp
      ring
    have hEK : 0 < E * K := mul_pos hE hk
    rw [e1, abs_neg, abs_mul, abs_of_pos hEK, show E * (-K * b) = -(E * K * b) by ring, abs_neg,
      abs_mul (E * K), abs_of_pos hEK, abs_of_pos hE, abs_of_pos (by linarith : 0 < b)]
    have h3 : E * K * |a - b| ≤ E * K * (1 / 9000) := mul_le_mul_of_nonneg_left hcode hEK.le
    have h4 : E * K * (9 / 10) ≤ E * K * b := mul_le_mul_of_nonneg_left hlarge hEK.le
    linarith
  · rw [et, hG]
    change |_ - _ * Real.exp (riccati1Exponent η (t ρ))| ≤ _
    have e2 (E τ δ : ℝ) : E * (τ * (1 + δ)) - τ * E = τ * E * δ := by ring
    rw [e2, abs_mul, abs_of_pos (mul_pos et0 hE), abs_of_pos et0, abs_of_pos hE]
    have h3 := mul_le_mul_of_nonneg_left hdef (mul_pos et0 hE).le
    have h4 := abs_nonneg (Real.exp (riccati1Exponent η (t ρ)) * Riccati.W η (t ρ))
    have hu' : Riccati.u η (t ρ) = Riccati.u η (ρ * (1 / (2 * η))) := rfl
    rw [← hu'] at h3
    simp only at h4 ⊢
    linarith

/-! ### Above the turning point -/

theorem startValues_above {η ρ : ℝ} (h5 : 5 ≤ η) (h15 : η < 15) (hr : 2.5 * η + 7.5 < ρ) :
    startValues ρ η = omGcase4 ρ η := by
  rw [startValues, if_neg (by linarith), omAsymptotic, asymptoticStart, if_neg (by linarith),
    if_pos h5, if_pos (by linarith), if_pos hr]
  cases h : omGcase4 ρ η with
  | error e => simp [Bind.bind, Except.bind, h]
  | ok q => simp [Bind.bind, Except.bind, pure, Except.pure, h]

theorem above_values {η ρ : ℝ} (h5 : 5 ≤ η) (h15 : η < 15) (hr : 2.5 * η + 7.5 < ρ)
    {w : WaveFunctions} (hw : coulombWaveFunctions 0 ρ η = .ok w) :
    w.G = Riccati2.amp η ρ * Real.cos (riccati2Phase η (Riccati2.X η ρ)) ∧
    w.dG = -(Riccati2.S η ρ * Riccati2.codeP (Riccati2.Z η ρ) (Riccati2.X η ρ)
          * (Riccati2.amp η ρ * Real.sin (riccati2Phase η (Riccati2.X η ρ)))
        + Riccati2.X η ρ ^ 2 * (Riccati2.Z η ρ * Riccati2.S η ρ / 4
          + Riccati2.corr (Riccati2.Z η ρ) (Riccati2.X η ρ)) * w.G) := by
  have hs := startValues_above h5 h15 hr
  rw [Riccati2.case4_eq (by linarith) (by linarith)] at hs
  obtain ⟨a, b⟩ := coulomb_zeroth hs hw
  exact ⟨a, by rw [b, a]⟩

theorem above_deriv {η ρ : ℝ} (h5 : 5 ≤ η) (h15 : η < 15) (hr : 2.5 * η + 7.5 < ρ)
    {w : ℝ → WaveFunctions} (hw : ∀ᶠ x in 𝓝 ρ, coulombWaveFunctions 0 x η = .ok (w x)) :
    ∀ᶠ x in 𝓝 ρ, HasDerivAt (fun x => (w x).G) (Riccati2.g η x) x := by
  have region : ∀ᶠ x in 𝓝 ρ, 2.5 * η + 7.5 < x := Ioi_mem_nhds hr
  have form : ∀ᶠ x in 𝓝 ρ, (w x).G
      = Riccati2.amp η x * Real.cos (riccati2Phase η (Riccati2.X η x)) := by
    filter_upwards [hw, region] with x hx hr
    exact (above_values h5 h15 hr hx).1
  filter_upwards [form.eventually_nhds, region] with x hx hr
  exact (Riccati2.G_deriv (by linarith) (by linarith)).congr_of_eventuallyEq hx

/-- C82 above the turning point, the part that holds: for `5 ≤ η < 15` and channel ratios beyond
`2.5η + 7.5` the returned `G` obeys the Coulomb wave equation within one part in 1000; the returned `G'` is
the derivative of the returned `G` within one part in 80. Missing: one part in 5000, which fails
(`C82_disproved`). -/
theorem C82_partial (η ρ : ℝ) (h5 : 5 ≤ η) (h15 : η < 15) (hr : 2.5 * η + 7.5 < ρ)
    (w : ℝ → WaveFunctions) (hw : ∀ᶠ x in 𝓝 ρ, coulombWaveFunctions 0 x η = .ok (w x)) :
    SolvesCoulomb (1 / 80) (1 / 1000) η ρ w := by
  have hη : 0 < η := by linarith
  have hρ : 2 * η < ρ := by linarith
  obtain ⟨hG, hD⟩ := above_values h5 h15 hr hw.self_of_nhds
  refine ⟨Riccati2.g η, _, above_deriv h5 h15 hr hw, Riccati2.g_deriv hη hρ, ?_, ?_⟩
  all_goals
    obtain ⟨x1, z1⟩ := Riccati2.region hη hρ h5 h15.le hr.le
    have x0 := (Riccati2.X_pos hη hρ).le
    have z0 := (Riccati2.Z_pos hη hρ).le
    have s0 := Riccati2.S_pos hη hρ
    have s1 := (Riccati2.S_lt hη hρ).le
    have hsq := Riccati2.S_sq hη hρ
    have bP := abs_le.mp (Riccati2.P_bound z0 z1 x0 x1)
    have bB := Riccati2.B_bound z0 z1 x0 x1
    have key : 991 / 1000 * (Riccati2.S η ρ * |Riccati2.amp η ρ
          * Real.sin (riccati2Phase η (Riccati2.X η ρ))|)
        ≤ |Riccati2.g η ρ| + Riccati2.S η ρ * (1751 / 50000) * |(w ρ).G| := by
      have e : Riccati2.S η ρ * Riccati2.P (Riccati2.Z η ρ) (Riccati2.X η ρ)
          * (Riccati2.amp η ρ * Real.sin (riccati2Phase η (Riccati2.X η ρ)))
          = -Riccati2.g η ρ
            - Riccati2.S η ρ * Riccati2.B (Riccati2.Z η ρ) (Riccati2.X η ρ) * (w ρ).G := by
        rw [hG, Riccati2.g]; ring
      have h1 : |Riccati2.S η ρ * Riccati2.P (Riccati2.Z η ρ) (Riccati2.X η ρ)
          * (Riccati2.amp η ρ * Real.sin (riccati2Phase η (Riccati2.X η ρ)))|
          ≤ |Riccati2.g η ρ| + Riccati2.S η ρ * (1751 / 50000) * |(w ρ).G| := by
        rw [e]
        refine (abs_sub _ _).trans ?_
        rw [abs_neg, abs_mul, abs_mul, abs_of_pos s0]
        have := mul_le_mul_of_nonneg_right (mul_le_mul_of_nonneg_left bB s0.le) (abs_nonneg (w ρ).G)
        linarith
      refine le_trans ?_ h1
      rw [abs_mul (Riccati2.S η ρ * _), abs_mul (Riccati2.S η ρ), abs_of_pos s0,
        abs_of_pos (by linarith : 0 < Riccati2.P (Riccati2.Z η ρ) (Riccati2.X η ρ))]
      have h2 := mul_nonneg s0.le (abs_nonneg (Riccati2.amp η ρ
        * Real.sin (riccati2Phase η (Riccati2.X η ρ))))
      have h3 := mul_le_mul_of_nonneg_right (by linarith [bP.1] : (991 / 1000 : ℝ)
        ≤ Riccati2.P (Riccati2.Z η ρ) (Riccati2.X η ρ)) h2
      linarith
  · have bC := Riccati2.codeP_near z0 z1 x0 x1
    have bc := Riccati2.corr_bound z0 z1 x0 x1
    rw [hD, Riccati2.g]
    rw [Riccati2.g] at key
    have hB := Riccati2.B_eq (η := η) (ρ := ρ) hη hρ
    have hzs : 0 ≤ 1 - Riccati2.Z η ρ * Riccati2.S η ρ := by nlinarith
    have e : -(Riccati2.S η ρ * Riccati2.codeP (Riccati2.Z η ρ) (Riccati2.X η ρ)
          * (Riccati2.amp η ρ * Real.sin (riccati2Phase η (Riccati2.X η ρ)))
        + Riccati2.X η ρ ^ 2 * (Riccati2.Z η ρ * Riccati2.S η ρ / 4
          + Riccati2.corr (Riccati2.Z η ρ) (Riccati2.X η ρ)) * (w ρ).G)
        - Riccati2.amp η ρ * (-(Riccati2.S η ρ * Riccati2.B (Riccati2.Z η ρ) (Riccati2.X η ρ))
            * Real.cos (riccati2Phase η (Riccati2.X η ρ))
          - Riccati2.S η ρ * Riccati2.P (Riccati2.Z η ρ) (Riccati2.X η ρ)
            * Real.sin (riccati2Phase η (Riccati2.X η ρ)))
        = -((Riccati2.codeP (Riccati2.Z η ρ) (Riccati2.X η ρ)
              - Riccati2.P (Riccati2.Z η ρ) (Riccati2.X η ρ))
            * (Riccati2.S η ρ * (Riccati2.amp η ρ * Real.sin (riccati2Phase η (Riccati2.X η ρ)))))
          - Riccati2.X η ρ ^ 2 * (1 - Riccati2.Z η ρ * Riccati2.S η ρ)
            * Riccati2.corr (Riccati2.Z η ρ) (Riccati2.X η ρ) * (w ρ).G := by
      rw [hG, hB]; ring
    rw [e]
    refine (abs_sub _ _).trans ?_
    rw [abs_neg, abs_mul, abs_mul _ (w ρ).G, abs_mul _ (Riccati2.corr _ _),
      abs_of_nonneg (mul_nonneg (sq_nonneg _) hzs), abs_mul (Riccati2.S η ρ), abs_of_pos s0]
    generalize Riccati2.amp η ρ * (-(Riccati2.S η ρ * Riccati2.B (Riccati2.Z η ρ) (Riccati2.X η ρ))
            * Real.cos (riccati2Phase η (Riccati2.X η ρ))
          - Riccati2.S η ρ * Riccati2.P (Riccati2.Z η ρ) (Riccati2.X η ρ)
            * Real.sin (riccati2Phase η (Riccati2.X η ρ))) = γ at *
    have hM := abs_nonneg (Riccati2.amp η ρ * Real.sin (riccati2Phase η (Riccati2.X η ρ)))
    generalize |Riccati2.amp η ρ * Real.sin (riccati2Phase η (Riccati2.X η ρ))| = M at *
    have hγ := abs_nonneg γ
    have hG0 := abs_nonneg (w ρ).G
    have k1 : |Riccati2.codeP (Riccati2.Z η ρ) (Riccati2.X η ρ)
        - Riccati2.P (Riccati2.Z η ρ) (Riccati2.X η ρ)| * (Riccati2.S η ρ * M)
        ≤ 1 / 10000 * (Riccati2.S η ρ * M) := mul_le_mul_of_nonneg_right bC (mul_nonneg s0.le hM)
    have k2 : Riccati2.X η ρ ^ 2 * (1 - Riccati2.Z η ρ * Riccati2.S η ρ) ≤ 4 / 9 := by
      have a1 : Riccati2.X η ρ ^ 2 ≤ 4 / 9 := by nlinarith
      have a2 : 1 - Riccati2.Z η ρ * Riccati2.S η ρ ≤ 1 := by nlinarith [mul_nonneg z0 s0.le]
      nlinarith [sq_nonneg (Riccati2.X η ρ)]
    have k3 : Riccati2.X η ρ ^ 2 * (1 - Riccati2.Z η ρ * Riccati2.S η ρ)
        * |Riccati2.corr (Riccati2.Z η ρ) (Riccati2.X η ρ)| * |(w ρ).G|
        ≤ 4 / 9 * (2349 / 100000) * |(w ρ).G| :=
      mul_le_mul_of_nonneg_right (mul_le_mul k2 bc (abs_nonneg _) (by norm_num)) hG0
    have k4 : Riccati2.S η ρ * (1751 / 50000) * |(w ρ).G| ≤ 1751 / 50000 * |(w ρ).G| :=
      mul_le_mul_of_nonneg_right (by linarith) hG0
    linarith
  · have b1 := Riccati2.d1_bound z0 z1 x0 x1
    have b2 := Riccati2.d2_bound z0 z1 x0 x1
    rw [← hG]
    have hX : 2 * η / ρ = Riccati2.X η ρ := rfl
    rw [hX]
    have e : -(1 - Riccati2.X η ρ) * ((1 + Riccati2.d1 (Riccati2.Z η ρ) (Riccati2.X η ρ)) * (w ρ).G
        - Riccati2.d2 (Riccati2.Z η ρ) (Riccati2.X η ρ)
          * (Riccati2.amp η ρ * Real.sin (riccati2Phase η (Riccati2.X η ρ))))
        - (Riccati2.X η ρ - 1) * (w ρ).G
        = Riccati2.S η ρ * (Riccati2.d2 (Riccati2.Z η ρ) (Riccati2.X η ρ)
            * (Riccati2.S η ρ * (Riccati2.amp η ρ
              * Real.sin (riccati2Phase η (Riccati2.X η ρ)))))
          - Riccati2.S η ρ ^ 2 * (Riccati2.d1 (Riccati2.Z η ρ) (Riccati2.X η ρ) * (w ρ).G) := by
      rw [← hsq, show Riccati2.X η ρ = 1 - Riccati2.S η ρ ^ 2 by linarith]; ring
    rw [e, show Riccati2.X η ρ - 1 = -(Riccati2.S η ρ ^ 2) by linarith, abs_neg,
      abs_of_nonneg (sq_nonneg (Riccati2.S η ρ))]
    refine (abs_sub _ _).trans ?_
    rw [abs_mul (Riccati2.S η ρ) (_ * _), abs_mul (Riccati2.S η ρ ^ 2),
      abs_mul (Riccati2.d1 _ _), abs_mul (Riccati2.d2 _ _), abs_mul (Riccati2.S η ρ), abs_of_pos s0,
      abs_of_nonneg (sq_nonneg (Riccati2.S η ρ))]
    have hM := abs_nonneg (Riccati2.amp η ρ * Real.sin (riccati2Phase η (Riccati2.X η ρ)))
    generalize |Riccati2.amp η ρ * Real.sin (riccati2Phase η (Riccati2.X η ρ))| = M at *
    have hγ := abs_nonneg (Riccati2.g η ρ)
    have hG0 := abs_nonneg (w ρ).G
    generalize |Riccati2.g η ρ| = γ at *
    generalize |(w ρ).G| = G at *
    generalize |Riccati2.d1 (Riccati2.Z η ρ) (Riccati2.X η ρ)| = u1 at *
    have hu2 := abs_nonneg (Riccati2.d2 (Riccati2.Z η ρ) (Riccati2.X η ρ))
    generalize |Riccati2.d2 (Riccati2.Z η ρ) (Riccati2.X η ρ)| = u2 at *
    generalize Riccati2.S η ρ = σ at *
    have hσG : 0 ≤ σ ^ 2 * G := by positivity
    have k1 : σ * (u2 * (σ * M)) ≤ σ * (3 / 20000 * (σ * M)) :=
      mul_le_mul_of_nonneg_left (mul_le_mul_of_nonneg_right b2 (mul_nonneg s0.le hM)) s0.le
    have k2 : σ ^ 2 * (u1 * G) ≤ σ ^ 2 * (47 / 100000 * G) :=
      mul_le_mul_of_nonneg_left (mul_le_mul_of_nonneg_right b1 hG0) (sq_nonneg _)
    have k3 := mul_le_mul_of_nonneg_left key s0.le
    have k4 : σ * γ ≤ γ := by nlinarith
    have k5 : σ * (σ * (1751 / 50000) * G) = 1751 / 50000 * (σ ^ 2 * G) := by ring
    have k6 : σ * (991 / 1000 * (σ * M)) = 991 / 1000 * (σ * (σ * M)) := by ring
    have k7 : σ * (3 / 20000 * (σ * M)) = 3 / 20000 * (σ * (σ * M)) := by ring
    have k8 : σ ^ 2 * (47 / 100000 * G) = 47 / 100000 * (σ ^ 2 * G) := by ring
    rw [mul_add, k5, k6] at k3
    linarith

/-- The functions found around a channel ratio. -/
theorem exists_choice {η ρ : ℝ} (h : ∀ᶠ x in 𝓝 ρ, ∃ w, coulombWaveFunctions 0 x η = .ok w) :
    ∃ w : ℝ → WaveFunctions, ∀ᶠ x in 𝓝 ρ, coulombWaveFunctions 0 x η = .ok (w x) := by
  classical
  refine ⟨fun x => if hx : ∃ w, coulombWaveFunctions 0 x η = .ok w then hx.choose else ⟨0, 0, 0, 0⟩, ?_⟩
  filter_upwards [h] with x hx
  simp only [dif_pos hx]; exact hx.choose_spec

/-- The functions are found around the point `η = 13`, `ρ = 325/8`. -/
theorem witness_ok : ∀ᶠ x in 𝓝 (325 / 8 : ℝ), ∃ w, coulombWaveFunctions 0 x 13 = .ok w := by
  have hρ : (325 / 8 : ℝ) ≠ 0 := by norm_num
  have region : ∀ᶠ x in 𝓝 (325 / 8 : ℝ), 2.5 * 13 + 7.5 < x := Ioi_mem_nhds (by norm_num)
  have c1 := Riccati3.value_continuous (ρ := 325 / 8) (by norm_num)
  have c2 := Riccati3.slope_continuous (ρ := 325 / 8) (by norm_num)
  have pos : ∀ᶠ x in 𝓝 (325 / 8 : ℝ), 0 < Riccati3.value x := c1.eventually_const_lt Riccati3.value_pos
  have ne : ∀ᶠ x in 𝓝 (325 / 8 : ℝ), ∀ l ∈ Finset.Icc 12 69,
      irregular x 13 (Riccati3.value x) (Riccati3.slope x) l ≠ 0 := by
    rw [eventually_all_finset]
    intro l hl
    rw [Finset.mem_Icc] at hl
    exact (Riccati3.irregular_continuous hρ c1 c2 l).eventually_ne
      (Riccati3.irregular_ne Riccati3.value_pos Riccati3.slope_range.1 Riccati3.slope_range.2 hl.1 hl.2)
  filter_upwards [region, pos, ne] with x hx hp hn
  have hs := startValues_above (η := 13) (by norm_num) (by norm_num) hx
  rw [Riccati2.case4_eq (by norm_num) (by linarith)] at hs
  obtain ⟨L, l1, l2, -, ⟨h0, -⟩ | ⟨F, -, -, -, -, e⟩⟩ :=
    coulomb_cases 0 (by linarith) hs (Or.inr fun hz => hp.ne' hz.1)
  · exact absurd h0 (hn _ (Finset.mem_Icc.mpr ⟨by omega, by omega⟩))
  · rw [if_pos (by omega)] at e
    exact ⟨_, e⟩

/-- C82 as claimed: wherever the two expansions are used directly, the returned `G'` is the derivative of
the returned `G` within one part in 5000, and `G` obeys the Coulomb wave equation within one part in
1000. -/
def C82_claim : Prop :=
  ∀ (η ρ : ℝ) (w : ℝ → WaveFunctions),
    (15 ≤ η ∧ 16 < ρ ∧ ρ < 5 * η / 3 - 5) ∨ (5 ≤ η ∧ η < 15 ∧ 2.5 * η + 7.5 < ρ) →
    (∀ᶠ x in 𝓝 ρ, coulombWaveFunctions 0 x η = .ok (w x)) →
    (w ρ).G ≠ 0 → (w ρ).G < Real.exp 100 → SolvesCoulomb (1 / 5000) (1 / 1000) η ρ w

/-- C82 fails above the turning point: at `η = 13`, `ρ = 325/8` the returned `G'` differs from the
derivative of the returned `G` by more than one part in 5000, because `omGcase4` leaves out a factor in the
logarithmic slope of the amplitude. -/
theorem C82_disproved : ¬ C82_claim := by
  intro h
  obtain ⟨w, hok⟩ := exists_choice witness_ok
  have h5 : (5 : ℝ) ≤ 13 := by norm_num
  have h15 : (13 : ℝ) < 15 := by norm_num
  have hr : 2.5 * 13 + 7.5 < (325 / 8 : ℝ) := by norm_num
  obtain ⟨hG, hD⟩ := above_values h5 h15 hr hok.self_of_nhds
  have hv : (w (325 / 8)).G = Riccati3.value (325 / 8) := hG
  have hs : (w (325 / 8)).dG = Riccati3.slope (325 / 8) := by rw [hD, hv, Riccati3.slope]
  obtain ⟨g, g₂, d, -, err, -⟩ := h 13 (325 / 8) w (.inr ⟨h5, h15, hr⟩) hok
    (by rw [hv]; exact Riccati3.value_pos.ne')
    (by
      rw [hG]
      have hA := Riccati2.amp_pos (η := 13) (ρ := 325 / 8) (by norm_num) (by norm_num)
      refine lt_of_le_of_lt ?_ Riccati3.amp_small
      exact mul_le_of_le_one_right hA.le (Real.cos_le_one _))
  have hg : g (325 / 8) = Riccati2.g 13 (325 / 8) :=
    d.self_of_nhds.unique (above_deriv h5 h15 hr hok).self_of_nhds
  rw [hg, hs, hv] at err
  exact absurd err (not_le.mpr Riccati3.slope_wrong)

/-! ### Examples -/

/-- `C82_partial` applies at `η = 13`, `ρ = 325/8`. -/
example : ∃ w : ℝ → WaveFunctions,
    (∀ᶠ x in 𝓝 (325 / 8 : ℝ), coulombWaveFunctions 0 x 13 = .ok (w x)) ∧
    SolvesCoulomb (1 / 80) (1 / 1000) 13 (325 / 8) w := by
  obtain ⟨w, hw⟩ := exists_choice witness_ok
  exact ⟨w, hw, C82_partial 13 (325 / 8) (by norm_num) (by norm_num) (by norm_num) w hw⟩

/-- `C82_below` applies at `η = 15`, `ρ = 18`. -/
example : ∃ w : ℝ → WaveFunctions, (∀ᶠ x in 𝓝 (18 : ℝ), coulombWaveFunctions 0 x 15 = .ok (w x)) ∧
    (w 18).G ≠ 0 ∧ (w 18).G < Real.exp 100 ∧ SolvesCoulomb (1 / 5000) (1 / 1000) 15 18 w := by
  have hq : riccati1Exponent 15 (18 * (1 / (2 * 15))) < 100 := by
    rw [Riccati.exponent_eq (by norm_num) (by norm_num)]
    have h1 : Real.log (18 * (1 / (2 * 15)) / (1 - 18 * (1 / (2 * 15)))) ≤ 1 := by
      have := Real.log_le_sub_one_of_pos (x := 18 * (1 / (2 * 15)) / (1 - 18 * (1 / (2 * 15))))
        (by norm_num)
      norm_num at this ⊢
      linarith
    have h2 := Real.sqrt_nonneg (18 * (1 / (2 * 15)) * (1 - 18 * (1 / (2 * 15))))
    have h3 := Real.arcsin_nonneg.mpr (Real.sqrt_nonneg (18 * (1 / (2 * 15))))
    have h4 : PI_2 < 2 := by rw [PI_2]; norm_num
    obtain ⟨u0, u1⟩ := Riccati.u_small (η := 15) (ρ := 18) (by norm_num) (by norm_num) (by norm_num)
    have h5 : Riccati.Q (Riccati.u 15 (18 * (1 / (2 * 15)))) (18 * (1 / (2 * 15))) ≤ 10 := by
      generalize Riccati.u 15 (18 * (1 / (2 * 15))) = u at *
      have k (n : ℕ) : 0 ≤ u ^ n := by positivity
      have k' (n : ℕ) : u ^ n ≤ 1 := pow_le_one₀ u0.le (by linarith)
      rw [Riccati.Q]
      norm_num
      linarith [k 1, k 2, k 3, k 4, k 5, k 6, k' 1, k' 2, k' 3, k' 4, k' 5, k' 6]
    linarith
  have small : ∀ᶠ x in 𝓝 (18 : ℝ), riccati1Exponent 15 (x * (1 / (2 * 15))) < 100 := by
    have hc : ContinuousAt (fun x : ℝ => riccati1Exponent 15 (x * (1 / (2 * 15)))) 18 :=
      ContinuousAt.comp (g := riccati1Exponent 15) (f := fun x : ℝ => x * (1 / (2 * 15)))
        (Riccati.exponent_deriv (by norm_num) (by norm_num) (by norm_num)).continuousAt
        (continuousAt_id.mul continuousAt_const)
    exact hc.eventually_lt_const hq
  have region : ∀ᶠ x in 𝓝 (18 : ℝ), 16 < x ∧ x < 5 * 15 / 3 - 5 :=
    Filter.mem_of_superset (Ioo_mem_nhds (a := 16) (b := 19) (by norm_num) (by norm_num))
      fun x hx => ⟨hx.1, by linarith [hx.2]⟩
  have hok : ∀ᶠ x in 𝓝 (18 : ℝ), ∃ w, coulombWaveFunctions 0 x 15 = .ok w ∧ 0 < w.G := by
    filter_upwards [region, small] with x ⟨h1, h2⟩ hs
    have t0 : 0 < x * (1 / (2 * 15)) := by linarith
    have t1 : x * (1 / (2 * 15)) < 1 := by linarith
    have du := Riccati.u_small (η := 15) (by norm_num) h1.le h2.le
    have hcode := abs_le.mp (Riccati.codeSlope_near du.1.le du.2 t0.le (by linarith))
    have hlarge := Riccati.slope_large du.1.le du.2 t0.le (by linarith)
    have hst := startValues_below (η := 15) (by norm_num) h1 h2.le
    rw [omGcase1] at hst
    simp only [if_pos (And.intro t0 t1), if_neg (not_lt.mpr hs.le)] at hst
    have hneg : riccati1Slope 15 (x * (1 / (2 * 15))) < 0 := by
      rw [Riccati.codeSlope_eq (by norm_num) t0 t1]
      have hk := div_pos (Riccati.v_pos t0 t1) (mul_pos t0 (sub_pos.mpr t1))
      have hp : 0 < Riccati.codeSlope (Riccati.u 15 (x * (1 / (2 * 15)))) (x * (1 / (2 * 15))) := by
        linarith [hcode.1]
      nlinarith [mul_pos hk hp]
    have hE := Real.exp_pos (riccati1Exponent 15 (x * (1 / (2 * 15))))
    obtain ⟨w, hw, hG, -⟩ := coulomb_ok_of_pos (by linarith) (by norm_num) (by nlinarith) hst hE
      (mul_neg_of_pos_of_neg (by positivity) hneg) 0 (by norm_num)
    exact ⟨w, hw, hG⟩
  obtain ⟨w, hw⟩ := exists_choice (hok.mono fun x ⟨w, hw, _⟩ => ⟨w, hw⟩)
  obtain ⟨w', hw', hG⟩ := hok.self_of_nhds
  have e : w 18 = w' := by
    have := hw.self_of_nhds
    rw [hw'] at this
    exact (Except.ok.inj this).symm
  have hv := (below_values (η := 15) (by norm_num) (by norm_num) (by norm_num) hw').resolve_left
    fun h => hG.ne' h.1
  have hmax : (w 18).G < Real.exp 100 := by
    rw [e, hv.1]; exact Real.exp_lt_exp.mpr hq
  have h0 : (w 18).G ≠ 0 := by rw [e]; exact hG.ne'
  exact ⟨w, hw, h0, hmax, C82_below 15 18 (by norm_num) (by norm_num) (by norm_num) w hw h0 hmax⟩

end Verif
