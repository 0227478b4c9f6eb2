import Verif.Spec.CoulombIrregular
import Verif.Lemmas.CoulombIrregular
import Verif.Lemmas.WeakCoulomb5
import Verif.Props.WeakCoulomb
import Verif.Props.Newmark

/-!
# In weak fields the library's irregular function is the irregular Coulomb function (C99)
-/

namespace Verif

open Set Newmark

theorem amplitude_eq {η x : ℝ} (hη : 0 ≤ 1 - 2 * η / x) (g d : ℝ) :
    amplitude η x g d = ‖(⟨d, Real.sqrt (1 - 2 * η / x) * g⟩ : ℂ)‖ := by
  rw [Complex.norm_def, Complex.normSq_mk, amplitude]
  congr 1
  have := Real.mul_self_sqrt hη
  linear_combination -(g ^ 2) * this

theorem amplitude_add {η x : ℝ} (hη : 0 ≤ 1 - 2 * η / x) (g d g' d' : ℝ) :
    amplitude η x (g + g') (d + d') ≤ amplitude η x g d + amplitude η x g' d' := by
  rw [amplitude_eq hη, amplitude_eq hη, amplitude_eq hη]
  refine le_trans (le_of_eq ?_) (norm_add_le _ _)
  congr 1
  apply Complex.ext <;> simp [mul_add]

theorem startValues_series {η ρ : ℝ} (h0 : 0 < η) (h5 : η < 5) (hρ : 2 * η + 10 ≤ ρ) :
    startValues ρ η = .ok ((Weak.W η (coulombSigma0 η) (Weak.stop η ρ 100 0) ρ).re,
      (Weak.W' η (coulombSigma0 η) (Weak.stop η ρ 100 0) ρ).re) := by
  rw [← Weak.case3_eq h0 h5.le hρ]
  rcases hρ.lt_or_eq with h | h
  · exact startValues_weak h0 h5 h
  · rw [startValues, if_neg h0.ne', omAsymptotic, asymptoticStart, if_neg (by linarith), if_neg (by linarith)]
    cases hc : omGcase3 ρ η (coulombSigma0 η) with
    | error e => simp [Bind.bind, Except.bind, hc, h]
    | ok q => simp [Bind.bind, Except.bind, pure, Except.pure, hc, h]

/-- **C99, the series.** In a weak Coulomb field and outside of the radius of the expansion, the `G` and
`G'` that the library returns for angular momentum zero are those of the irregular Coulomb function within
one part in a million of its amplitude far from the origin. -/
theorem C99_series {η ρ : ℝ} (h0 : 0 < η) (h5 : η < 5) (hρ : 2 * η + 10 ≤ ρ) {w : WaveFunctions}
    (h : coulombWaveFunctions 0 ρ η = .ok w) {y y' : ℝ → ℝ} (hy : IrregularCoulomb η ρ y y') :
    amplitude η ρ (w.G - y ρ) (w.dG - y' ρ) ≤ 1e-6 := by
  obtain ⟨e1, e2⟩ := coulomb_zeroth (startValues_series h0 h5 hρ) h
  rw [e1, e2]
  exact Irregular.series_near h0 h5.le hρ hy

/-- The values of the series at the radius of the expansion do not vanish unless the irregular function
almost does. -/
theorem weak_start {η : ℝ} (h0 : 0 < η) (h5 : η < 5) {y y' : ℝ → ℝ}
    (hy : IrregularCoulomb η (2 * η + 10) y y') (hG : 2e-6 < |y (2 * η + 10)|) (hdG : 2e-6 < |y' (2 * η + 10)|) :
    ∃ q q', omAsymptotic (2 * η + 10) η (coulombSigma0 η) = .ok (q, q') ∧ q ≠ 0 ∧ q' ≠ 0 ∧
      amplitude η (2 * η + 10) (q - y (2 * η + 10)) (q' - y' (2 * η + 10)) ≤ 1e-6 := by
  have hs := startValues_series h0 h5 le_rfl
  rw [startValues_charged h0] at hs
  have hn := Irregular.series_near h0 h5.le le_rfl hy
  obtain ⟨n1, n2⟩ := Irregular.of_amplitude (by linarith) (by linarith) hn
  refine ⟨_, _, hs, ?_, ?_, hn⟩
  · intro hz
    rw [hz, zero_sub, abs_neg] at n2
    have hk : 0.7 ≤ Real.sqrt (1 - 2 * η / (2 * η + 10)) := by
      refine Real.le_sqrt_of_sq_le ?_
      have : 2 * η / (2 * η + 10) ≤ 1 / 2 := by
        rw [div_le_iff₀ (by linarith)]
        linarith
      norm_num at this ⊢
      linarith
    have := mul_le_mul_of_nonneg_right hk (abs_nonneg (y (2 * η + 10)))
    norm_num at *
    linarith
  · intro hz
    rw [hz, zero_sub, abs_neg] at n1
    norm_num at *
    linarith

/-- The values that the integration yields. -/
theorem C99_values {η ρ : ℝ} (h0 : 0 < η) (h5 : η < 5) (h1 : 2 * η + 1 ≤ ρ) (h2 : ρ ≤ 2 * η + 10)
    {p p' : ℝ} (h : omAsymptotic ρ η (coulombSigma0 η) = .ok (p, p')) {y y' : ℝ → ℝ}
    (hy : IrregularCoulomb η ρ y y') (hG : 2e-6 < |y (2 * η + 10)|) (hdG : 2e-6 < |y' (2 * η + 10)|) :
    p = 0 ∧ p' = 0 ∨ amplitude η ρ (p - y ρ) (p' - y' ρ) ≤ 11 / 10000 := by
  have hya : IrregularCoulomb η (2 * η + 10) y y' := ⟨fun x hx => hy.wave x (h2.trans hx), hy.value, hy.slope⟩
  obtain ⟨q, q', hs, hq, hq', hn⟩ := weak_start h0 h5 hya hG hdG
  have ea : expansionRadius η = 2 * η + 10 := by rw [expansionRadius, if_pos h5]
  obtain ⟨z, z', e1, e2, hz⟩ := exists_coulomb_solution (η := η) (ρ := ρ) (a := 2 * η + 10) (by linarith) h2 q q'
  rcases C98_values h0 (by linarith) h1 (by rw [ea]; exact h2) (by rw [ea]; exact hs) hq hq' h (by rw [ea]; exact hz)
    (by rw [ea]; exact e1) (by rw [ea]; exact e2) with h3 | h3
  · exact Or.inl h3
  right
  rw [ea] at h3
  have ka : 0 ≤ 1 - 2 * η / (2 * η + 10) := by
    rw [sub_nonneg, div_le_one (by linarith)]
    linarith
  have kρ : 0 ≤ 1 - 2 * η / ρ := by
    rw [sub_nonneg, div_le_one (by linarith)]
    linarith
  have a1 : amplitude η (2 * η + 10) q q' ≤ 1 + 1e-6 := by
    have b1 := amplitude_add ka (y (2 * η + 10)) (y' (2 * η + 10)) (q - y (2 * η + 10)) (q' - y' (2 * η + 10))
    rw [add_sub_cancel, add_sub_cancel] at b1
    have b2 := Irregular.amplitude_le_one h0.le (by linarith) hya
    linarith
  have a2 := Irregular.amplitude_sub (y := z) (y' := z') (z := y) (z' := y') h0.le (by linarith) h2 hz
    (fun x hx => hy.wave x hx.1)
  rw [e1, e2] at a2
  have a3 := amplitude_add kρ (p - z ρ) (p' - z' ρ) (z ρ - y ρ) (z' ρ - y' ρ)
  rw [sub_add_sub_cancel, sub_add_sub_cancel] at a3
  norm_num at *
  linarith

/-- **C99, the integration.** Between the radius of the expansion and one unit outside of the turning point
the `G` and `G'` that the library returns are those of the irregular Coulomb function within 11 parts in
10000 of its amplitude far from the origin, unless the integration gave up, which it shows by returning
zeros, or the irregular function or its derivative almost vanishes at the radius of the expansion. -/
theorem C99_integration {η ρ : ℝ} (h0 : 0 < η) (h5 : η < 5) (h1 : 2 * η + 1 ≤ ρ) (h2 : ρ ≤ 2 * η + 10)
    {w : WaveFunctions} (h : coulombWaveFunctions 0 ρ η = .ok w) {y y' : ℝ → ℝ}
    (hy : IrregularCoulomb η ρ y y') (hG : 2e-6 < |y (2 * η + 10)|) (hdG : 2e-6 < |y' (2 * η + 10)|) :
    w.G = 0 ∧ w.dG = 0 ∨ amplitude η ρ (w.G - y ρ) (w.dG - y' ρ) ≤ 11 / 10000 := by
  obtain ⟨p, p', hs⟩ := startValues_of_ok h
  obtain ⟨e1, e2⟩ := coulomb_zeroth hs h
  rw [startValues_charged h0] at hs
  rw [e1, e2]
  exact C99_values h0 h5 h1 h2 hs hy hG hdG

/-- **C99, the irregular function.** It exists outside of the turning point, there is only one, and its
amplitude does not exceed one. -/
theorem C99_exists {η ρ : ℝ} (hη : 0 ≤ η) (hρ : 2 * η < ρ) : ∃ y y' : ℝ → ℝ, IrregularCoulomb η ρ y y' ∧
    (∀ x ≥ ρ, amplitude η x (y x) (y' x) ≤ 1) ∧
    ∀ z z' : ℝ → ℝ, IrregularCoulomb η ρ z z' → ∀ x ≥ ρ, z x = y x ∧ z' x = y' x := by
  obtain ⟨y, y', hy⟩ := Irregular.exists_irregular hη hρ
  refine ⟨y, y', hy, fun x hx => ?_, fun z z' hz => Irregular.unique hη hρ hz hy⟩
  exact Irregular.amplitude_le_one hη (by linarith) ⟨fun t ht => hy.wave t (hx.le.trans ht), hy.value, hy.slope⟩

/-! ### Examples -/

/-- At `η = 1/100` and `ρ = 63/5` functions are returned, and there is the irregular function to compare
them with. -/
example : ∃ w y y', coulombWaveFunctions 0 (63 / 5) (1 / 100) = .ok w ∧ IrregularCoulomb (1 / 100) (63 / 5) y y' ∧
    amplitude (1 / 100) (63 / 5) (w.G - y (63 / 5)) (w.dG - y' (63 / 5)) ≤ 1e-6 := by
  obtain ⟨w, hw⟩ := weak_witness.self_of_nhds
  obtain ⟨y, y', hy, -⟩ := C99_exists (η := 1 / 100) (ρ := 63 / 5) (by norm_num) (by norm_num)
  exact ⟨w, y, y', hw, hy, C99_series (by norm_num) (by norm_num) (by norm_num) hw hy⟩

/-- At `η = 1/100` neither the irregular function nor its derivative vanishes at the radius of the
expansion, and the integration returns at all smaller channel ratios. -/
example (ρ : ℝ) (h1 : 2 * (1 / 100) + 1 ≤ ρ) (h2 : ρ ≤ 2 * (1 / 100) + 10) : ∃ p p' y y',
    omAsymptotic ρ (1 / 100) (coulombSigma0 (1 / 100)) = .ok (p, p') ∧ IrregularCoulomb (1 / 100) ρ y y' ∧
    2e-6 < |y (2 * (1 / 100) + 10)| ∧ 2e-6 < |y' (2 * (1 / 100) + 10)| ∧
    (p = 0 ∧ p' = 0 ∨ amplitude (1 / 100) ρ (p - y ρ) (p' - y' ρ) ≤ 11 / 10000) := by
  obtain ⟨y, y', hy, -⟩ := C99_exists (η := 1 / 100) (ρ := ρ) (by norm_num) (by linarith)
  obtain ⟨⟨p, p'⟩, hp⟩ := omAsymptotic_ok (ρ := ρ) (η := 1 / 100) (σ := coulombSigma0 (1 / 100)) (by linarith)
    (by linarith) (by rw [abs_of_pos] <;> norm_num)
  have ea : (2 * (1 / 100) + 10 : ℝ) = 501 / 50 := by norm_num
  have hya : IrregularCoulomb (1 / 100) (2 * (1 / 100) + 10) y y' :=
    ⟨fun x hx => hy.wave x (h2.trans hx), hy.value, hy.slope⟩
  have hn := Irregular.series_near (by norm_num) (by norm_num) le_rfl hya
  rw [ea] at hn
  obtain ⟨n1, n2⟩ := Irregular.of_amplitude (by norm_num) (by norm_num) hn
  obtain ⟨v1, v2⟩ := Weak.near_values
  change |(Weak.W' (1 / 100) (coulombSigma0 (1 / 100)) Weak.N₁ (501 / 50)).re - _| ≤ _ at n1
  change _ * |(Weak.W (1 / 100) (coulombSigma0 (1 / 100)) Weak.N₁ (501 / 50)).re - _| ≤ _ at n2
  have hk : 0.7 ≤ Real.sqrt (1 - 2 * (1 / 100) / (501 / 50)) := Real.le_sqrt_of_sq_le (by norm_num)
  have n3 := (mul_le_mul_of_nonneg_right hk (abs_nonneg _)).trans n2
  have g1 := abs_sub_abs_le_abs_sub (Weak.W (1 / 100) (coulombSigma0 (1 / 100)) Weak.N₁ (501 / 50)).re (y (501 / 50))
  have g2 := abs_sub_abs_le_abs_sub (Weak.W' (1 / 100) (coulombSigma0 (1 / 100)) Weak.N₁ (501 / 50)).re (y' (501 / 50))
  have a1 : 2e-6 < |y (2 * (1 / 100) + 10)| := by
    rw [ea]
    norm_num at n3 ⊢
    linarith
  have a2 : 2e-6 < |y' (2 * (1 / 100) + 10)| := by
    rw [ea]
    norm_num at n1 ⊢
    linarith
  exact ⟨p, p', y, y', hp, hy, a1, a2, C99_values (by norm_num) (by norm_num) h1 h2 hp hy a1 a2⟩

end Verif
