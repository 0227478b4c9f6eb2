import Verif.Props.CoulombDerivative

/-!
# Property C105: the Coulomb wave functions at the turning point
-/

namespace Verif

/-- The regular Coulomb function of angular momentum zero and its derivative at the turning point
`ρ = 2η`: the expansions 14.6.17 of Abramowitz and Stegun, with their decimals. -/
noncomputable def Spec.turningPointRegular (η : ℝ) : ℝ × ℝ :=
  (0.7063326373 * η ^ (1 / 6 : ℝ)
      * (1 - 0.04959570165 / η ^ (4 / 3 : ℝ) - 0.008888888889 / η ^ (2 : ℝ)
          - 0.002455199181 / η ^ (10 / 3 : ℝ) - 0.0009108958061 / η ^ (4 : ℝ)
          - 0.0002534684115 / η ^ (16 / 3 : ℝ)),
   0.4086957323 / η ^ (1 / 6 : ℝ)
      * (1 + 0.1728260369 / η ^ (2 / 3 : ℝ) + 0.0003174603174 / η ^ (2 : ℝ)
          + 0.003581214850 / η ^ (8 / 3 : ℝ) + 0.0003117824680 / η ^ (4 : ℝ)
          + 0.0009073966427 / η ^ (14 / 3 : ℝ)))

/-- The values that the code starts from at the turning point. -/
theorem startValues_turning {η : ℝ} (h : 5 ≤ η) : startValues (2 * η) η = .ok (omGcase2 η) := by
  have hs : asymptoticStart (2 * η) η (coulombSigma0 η) = .ok (2 * η, omGcase2 η) := by
    rw [asymptoticStart]
    by_cases h15 : η ≥ 15
    · rw [if_pos h15, if_pos (by linarith), if_neg (by linarith)]
    · rw [if_neg h15, if_pos h, if_neg (lt_irrefl _)]
  rw [startValues, if_neg (by intro h0; linarith), omAsymptotic, hs]
  simp only [Bind.bind, Except.bind, sub_self, ne_eq, not_true_eq_false, if_false]
  split_ifs <;> rfl

theorem turning_wronskian {η : ℝ} (h : 5 ≤ η) :
    |(Spec.turningPointRegular η).2 * (omGcase2 η).1
      - (Spec.turningPointRegular η).1 * (omGcase2 η).2 - 1| ≤ 1 / 10 ^ 8 := by
  have h0 : 0 < η := by linarith
  obtain ⟨s, hs⟩ : ∃ s, η ^ (-2 / 3 : ℝ) = s := ⟨_, rfl⟩
  obtain ⟨t, ht⟩ : ∃ t, η ^ (1 / 6 : ℝ) = t := ⟨_, rfl⟩
  have t0 : 0 < t := ht ▸ Real.rpow_pos_of_pos h0 _
  have s0 : 0 < s := hs ▸ Real.rpow_pos_of_pos h0 _
  have pw : ∀ n : ℕ, η ^ ((-2 / 3 : ℝ) * n) = s ^ n := fun n => by
    rw [Real.rpow_mul h0.le, hs, Real.rpow_natCast]
  have ng : ∀ (n : ℕ) (e : ℝ), e = -2 / 3 * n → η ^ e = s ^ n := fun n e he => by rw [he, pw]
  have ps : ∀ (n : ℕ) (e : ℝ), e = 2 / 3 * n → η ^ e = (s ^ n)⁻¹ := fun n e he => by
    rw [← pw n, he, ← Real.rpow_neg h0.le]
    congr 1
    ring
  have e6 : η ^ (-1 / 6 : ℝ) = t⁻¹ := by
    rw [← ht, ← Real.rpow_neg h0.le]
    norm_num
  have s3 : s ^ 3 ≤ 1 / 25 := by
    have e : s ^ 3 = (η ^ 2)⁻¹ := by
      rw [← pw 3, ← Real.rpow_natCast, ← Real.rpow_neg h0.le]
      norm_num
    rw [e, one_div]
    exact inv_anti₀ (by norm_num) (by nlinarith)
  have W : (Spec.turningPointRegular η).2 * (omGcase2 η).1
      - (Spec.turningPointRegular η).1 * (omGcase2 η).2
      = 0.4086957323 * 1.223404016
          * (1 + 0.1728260369 * s + 0.0003174603174 * s ^ 3 + 0.003581214850 * s ^ 4
            + 0.0003117824680 * s ^ 6 + 0.0009073966427 * s ^ 7)
          * (1 + 0.04959570165 * s ^ 2 - 0.008888888889 * s ^ 3 + 0.002455199181 * s ^ 5
            - 0.0009108958061 * s ^ 6 + 0.0002534684115 * s ^ 8)
        + 0.7063326373 * 0.7078817734
          * (1 - 0.04959570165 * s ^ 2 - 0.008888888889 * s ^ 3 - 0.002455199181 * s ^ 5
            - 0.0009108958061 * s ^ 6 - 0.0002534684115 * s ^ 8)
          * (1 - 0.1728260369 * s + 0.0003174603174 * s ^ 3 - 0.003581214850 * s ^ 4
            + 0.0003117824680 * s ^ 6 - 0.0009073966427 * s ^ 7) := by
    unfold Spec.turningPointRegular omGcase2
    rw [ps 2 (4 / 3) (by norm_num), ps 3 2 (by norm_num), ps 5 (10 / 3) (by norm_num),
      ps 6 4 (by norm_num), ps 8 (16 / 3) (by norm_num), ps 1 (2 / 3) (by norm_num),
      ps 4 (8 / 3) (by norm_num), ps 7 (14 / 3) (by norm_num), ng 2 (-4 / 3) (by norm_num),
      ng 3 (-2) (by norm_num), ng 5 (-10 / 3) (by norm_num), ng 6 (-4) (by norm_num),
      ng 8 (-16 / 3) (by norm_num), hs, ng 4 (-8 / 3) (by norm_num), ng 7 (-14 / 3) (by norm_num), ht, e6]
    simp only [div_inv_eq_mul, pow_one]
    field_simp
    ring
  rw [W]
  have hs1 : s ≤ 0.35 := by
    by_contra hc
    have : (0.35 : ℝ) ^ 3 < s ^ 3 := pow_lt_pow_left₀ (not_le.mp hc) (by norm_num) (by norm_num)
    norm_num at this s3
    linarith
  have up := pow_le_pow_left₀ s0.le hs1
  have lo := fun n : ℕ => (pow_pos s0 n).le
  rw [abs_le]
  constructor
  · linarith [up 1, up 2, up 3, up 4, up 5, up 6, up 7, up 8, up 9, up 10, up 11, up 12, up 13, up 14, up 15,
      lo 1, lo 2, lo 3, lo 4, lo 5, lo 6, lo 7, lo 8, lo 9, lo 10, lo 11, lo 12, lo 13, lo 14, lo 15]
  · linarith [up 1, up 2, up 3, up 4, up 5, up 6, up 7, up 8, up 9, up 10, up 11, up 12, up 13, up 14, up 15,
      lo 1, lo 2, lo 3, lo 4, lo 5, lo 6, lo 7, lo 8, lo 9, lo 10, lo 11, lo 12, lo 13, lo 14, lo 15]

/-- **C105.** At the turning point `ρ = 2η`, for Sommerfeld parameters from 5 on, where the irregular
function comes from an expansion: the library returns functions, the irregular one is positive and falls,
and together with the published expansion of the regular function it has the Wronskian of Coulomb wave
functions, `F' G - F G' = 1`, within one part in 10⁸. -/
theorem C105_turning_point {η : ℝ} (h : 5 ≤ η) :
    ∃ w, coulombWaveFunctions 0 (2 * η) η = .ok w ∧ 0 < w.G ∧ w.dG < 0 ∧
      |(Spec.turningPointRegular η).2 * w.G - (Spec.turningPointRegular η).1 * w.dG - 1| ≤ 1 / 10 ^ 8 := by
  obtain ⟨hp, hp'⟩ := omGcase2_signs (y := η) (by linarith)
  obtain ⟨w, hw, h1, h2⟩ := coulomb_ok_of_pos (by linarith) (by linarith) (by nlinarith)
    (startValues_turning h) hp hp' 0 (by omega)
  obtain ⟨e1, e2⟩ := coulomb_zeroth (startValues_turning h) hw
  refine ⟨w, hw, h1, h2, ?_⟩
  rw [e1, e2]
  exact turning_wronskian h

/-- For `η = 15` at the turning point `ρ = 30`. -/
example : ∃ w, coulombWaveFunctions 0 30 15 = .ok w ∧ 0 < w.G ∧ w.dG < 0 := by
  obtain ⟨w, hw, h1, h2, -⟩ := C105_turning_point (η := 15) (by norm_num)
  exact ⟨w, by rw [← hw]; norm_num, h1, h2⟩

end Verif
