import Verif.Lemmas.CoulombFar2
import Verif.Lemmas.FreeWave2

/-!
# Property C85: penetrabilities of charged-particle channels where the field is negligible
-/

namespace Verif

open Spec Filter Topology Complex

/-- C85, high energies: for every angular momentum up to 58 and every `0 ≤ η < 15` there are arbitrarily large
channel ratios at which the penetrability of a charged-particle channel, which should approach the channel
ratio, is less than half or more than twice that. -/
theorem C85_far (l : ℕ) (hl : l ≤ 58) (η : ℝ) (h0 : 0 ≤ η) (h15 : η < 15) (R : ℝ) :
    ∃ ρ > R, 0 < ρ ∧ ∃ P, calculatePenetrability coulombWaveFunctions .charged l ρ η = .ok P ∧
      (P < ρ / 2 ∨ 2 * ρ < P) := by
  obtain ⟨s, p, p', h, -⟩ := Far.start h0 h15
  set V := Far.U η 69 / Far.U η l with hV
  have hUl : Far.U η l ≠ 0 := norm_ne_zero_iff.mp (by rw [Far.norm_U]; exact one_ne_zero)
  have hU69 : Far.U η 69 ≠ 0 := norm_ne_zero_iff.mp (by rw [Far.norm_U]; exact one_ne_zero)
  have nV : ‖V‖ = 1 := by rw [hV, norm_div, Far.norm_U, Far.norm_U, div_one]
  have eV : Far.U η 69 = V * Far.U η l := by rw [hV, div_mul_cancel₀ _ hUl]
  -- a direction for which the limit is far from one
  have dir (y : ℂ) (hy : ‖y‖ = 1) (u : ℂ) (hu : ‖u‖ = 1) : ∃ θ : ℝ, cexp (θ * I) * u = y := by
    have hu0 : u ≠ 0 := norm_ne_zero_iff.mp (by rw [hu]; exact one_ne_zero)
    refine ⟨arg (y / u), ?_⟩
    have := norm_mul_exp_arg_mul_I (y / u)
    rw [norm_div, hy, hu, div_one, ofReal_one, one_mul] at this
    rw [this, div_mul_cancel₀ _ hu0]
  have key : ∃ θ : ℝ, (cexp (θ * I) * Far.U η 69).re ≠ 0 ∧
      (2 < ((cexp (θ * I) * Far.U η l).im - (cexp (θ * I) * Far.U η 69).im / (cexp (θ * I) * Far.U η 69).re
          * (cexp (θ * I) * Far.U η l).re) ^ 2 + (cexp (θ * I) * Far.U η l).re ^ 2 ∨
       (cexp (θ * I) * Far.U η l).re ≠ 0 ∧
       ((cexp (θ * I) * Far.U η l).im - (cexp (θ * I) * Far.U η 69).im / (cexp (θ * I) * Far.U η 69).re
          * (cexp (θ * I) * Far.U η l).re) ^ 2 + (cexp (θ * I) * Far.U η l).re ^ 2 < 1 / 2) := by
    have hVs : V.re ^ 2 + V.im ^ 2 = 1 := by
      have := normSq_eq_norm_sq V
      rw [nV, normSq_apply] at this
      linarith
    by_cases hi : V.im = 0
    · obtain ⟨θ, hθ⟩ := dir ⟨1 / 2, Real.sqrt 3 / 2⟩ (by
        rw [Complex.norm_def, normSq_apply]
        simp only
        have : (1 / 2 * (1 / 2) + Real.sqrt 3 / 2 * (Real.sqrt 3 / 2) : ℝ) = 1 := by
          have := Real.mul_self_sqrt (by norm_num : (0 : ℝ) ≤ 3)
          linarith
        rw [this, Real.sqrt_one]) (Far.U η l) (Far.norm_U η l)
      refine ⟨θ, ?_⟩
      have e69 : cexp (θ * I) * Far.U η 69 = V * ⟨1 / 2, Real.sqrt 3 / 2⟩ := by
        rw [eV, ← hθ]; ring
      have hr0 : V.re ≠ 0 := by
        intro h; rw [h, hi] at hVs; norm_num at hVs
      rw [e69, hθ]
      have r1 : (V * ⟨1 / 2, Real.sqrt 3 / 2⟩ : ℂ).re = V.re * (1 / 2) := by
        rw [mul_re, hi]; ring
      have r2 : (V * ⟨1 / 2, Real.sqrt 3 / 2⟩ : ℂ).im = V.re * (Real.sqrt 3 / 2) := by
        rw [mul_im, hi]; ring
      rw [r1, r2]
      refine ⟨mul_ne_zero hr0 (by norm_num), .inr ⟨by norm_num, ?_⟩⟩
      have : Real.sqrt 3 / 2 - V.re * (Real.sqrt 3 / 2) / (V.re * (1 / 2)) * (1 / 2) = 0 := by
        field_simp
        ring
      rw [this]
      norm_num
    · -- the denominator is made small
      set t := |V.im| / 2 with ht
      have hi' : 0 < |V.im| := abs_pos.mpr hi
      have ht0 : 0 < t := by positivity
      have ht1 : t ^ 2 ≤ 1 := by
        have : |V.im| ≤ 1 := by
          rw [← nV]; exact abs_im_le_norm V
        rw [ht]; nlinarith
      obtain ⟨θ, hθ⟩ := dir ⟨t, Real.sqrt (1 - t ^ 2)⟩ (by
        rw [Complex.norm_def, normSq_apply]
        simp only
        have : t * t + Real.sqrt (1 - t ^ 2) * Real.sqrt (1 - t ^ 2) = 1 := by
          rw [Real.mul_self_sqrt (by linarith)]; ring
        rw [this, Real.sqrt_one]) (Far.U η 69) (Far.norm_U η 69)
      refine ⟨θ, ?_⟩
      rw [hθ]
      refine ⟨ht0.ne', .inl ?_⟩
      set x := cexp (θ * I) * Far.U η l with hx
      have exy : V * x = ⟨t, Real.sqrt (1 - t ^ 2)⟩ := by rw [← hθ, eV, hx]; ring
      have hxs : x.re ^ 2 + x.im ^ 2 = 1 := by
        have := normSq_eq_norm_sq x
        rw [hx, norm_mul, Far.norm_U, norm_exp_ofReal_mul_I, ← hx, normSq_apply] at this
        linarith
      have re := congrArg re exy
      have im := congrArg im exy
      rw [mul_re] at re
      rw [mul_im] at im
      simp only at re im ⊢
      have e : x.im - Real.sqrt (1 - t ^ 2) / t * x.re = -V.im / t := by
        rw [← im, eq_div_iff ht0.ne', sub_mul, mul_right_comm, div_mul_cancel₀ _ ht0.ne', ← re]
        linear_combination -V.im * hxs
      have e2 : (-V.im / t) ^ 2 = 4 := by
        rw [div_pow, neg_sq, ht, div_pow, sq_abs]
        have : V.im ^ 2 ≠ 0 := pow_ne_zero _ hi
        field_simp
        norm_num
      rw [e, e2]
      nlinarith [sq_nonneg x.re]
  obtain ⟨θ, hθ, hlim⟩ := key
  -- the channel ratios with this phase
  set 𝓕 := atTop ⊓ 𝓟 {ρ : ℝ | cexp ((Far.phase η s ρ : ℝ) * I) = cexp (θ * I)} with h𝓕
  have hbot : 𝓕.NeBot := by
    rw [h𝓕, ← frequently_iff_neBot, frequently_atTop]
    intro a
    obtain ⟨ρ, hρ, e⟩ := exists_phase η s θ a
    exact ⟨ρ, hρ.le, e⟩
  have hle : 𝓕 ≤ atTop := inf_le_left
  have hmem : ∀ᶠ ρ in 𝓕, cexp ((Far.phase η s ρ : ℝ) * I) = cexp (θ * I) :=
    Filter.mem_of_superset (mem_inf_of_right (mem_principal_self _)) fun _ h => h
  have tG (l : ℕ) : Tendsto (fun ρ => irregular ρ η (p ρ) (p' ρ) l) 𝓕 (𝓝 (cexp (θ * I) * Far.U η l).re) := by
    have := ((Far.value_far h.2 l).mono_left hle).add_const (cexp (θ * I) * Far.U η l).re
    rw [zero_add] at this
    refine this.congr' ?_
    filter_upwards [hmem] with ρ hρ
    rw [hρ]; ring
  have tF (l : ℕ) : Tendsto (fun ρ => irregular ρ η (-p' ρ / (p ρ ^ 2 + p' ρ ^ 2))
      (p ρ / (p ρ ^ 2 + p' ρ ^ 2)) l) 𝓕 (𝓝 (cexp (θ * I) * Far.U η l).im) := by
    have := ((Far.value_far (Far.regular_waves h.2) l).mono_left hle).add_const (cexp (θ * I) * Far.U η l).im
    rw [zero_add] at this
    refine this.congr' ?_
    filter_upwards [hmem] with ρ hρ
    have e : ((Far.phase η (s - Real.pi / 2) ρ : ℝ) : ℂ) * I
        = (-Real.pi / 2 * I) + (Far.phase η s ρ : ℝ) * I := by
      rw [Far.phase, Far.phase]; push_cast; ring
    rw [e, Complex.exp_add, exp_neg_pi_div_two_mul_I, hρ]
    have : (-I * cexp (θ * I) * Far.U η l).re = (cexp (θ * I) * Far.U η l).im := by
      rw [mul_assoc, neg_mul, neg_re, I_mul_re, neg_neg]
    rw [this]; ring
  have tH := (((tF l).sub (((tF 69).div (tG 69) hθ).mul (tG l))).pow 2).add ((tG l).pow 2)
  have hne := (tG 69).eventually_ne hθ
  have hfun := (Far.functions h h0 h15 hl).filter_mono hle
  have hRρ : ∀ᶠ ρ in 𝓕, R < ρ ∧ 0 < ρ :=
    ((eventually_gt_atTop R).and (eventually_gt_atTop 0)).filter_mono hle
  rcases hlim with hlim | ⟨hx, hlim⟩
  · obtain ⟨ρ, ⟨⟨hn, hf⟩, hR⟩, hb⟩ := (((hne.and hfun).and hRρ).and (tH.eventually_const_lt hlim)).exists
    obtain ⟨w, hw, eG, eF⟩ := hf hn
    simp only [Pi.div_apply] at hb
    rw [← eF, ← eG] at hb
    refine ⟨ρ, hR.1, hR.2, ρ / (w.F * w.F + w.G * w.G), ?_, .inl ?_⟩
    · have : ¬ (w.F = 0 ∧ w.G = 0) := fun ⟨a, b⟩ => by rw [a, b] at hb; norm_num at hb
      simp only [calculatePenetrability, hw, Bind.bind, Except.bind, if_neg this, pure, Except.pure]
    · rw [div_lt_div_iff_of_pos_left hR.2 (by nlinarith) (by norm_num)]
      linarith
  · obtain ⟨ρ, ⟨⟨⟨hn, hf⟩, hR⟩, hb⟩, hx⟩ := ((((hne.and hfun).and hRρ).and
      (tH.eventually_lt_const hlim)).and ((tG l).eventually_ne hx)).exists
    obtain ⟨w, hw, eG, eF⟩ := hf hn
    simp only [Pi.div_apply] at hb
    rw [← eF, ← eG] at hb
    rw [← eG] at hx
    refine ⟨ρ, hR.1, hR.2, ρ / (w.F * w.F + w.G * w.G), ?_, .inr ?_⟩
    · have : ¬ (w.F = 0 ∧ w.G = 0) := fun ⟨_, b⟩ => hx b
      simp only [calculatePenetrability, hw, Bind.bind, Except.bind, if_neg this, pure, Except.pure]
    · have hp : 0 < w.G * w.G := mul_self_pos.mpr hx
      rw [lt_div_iff₀ (by nlinarith [mul_self_nonneg w.F])]
      have := hR.2
      nlinarith

/-- C85, claimed: without Coulomb field a charged-particle channel has the penetrability and the shift factor of a
neutron channel, up to a relative error of a hundred thousandth, for every channel ratio and every angular
momentum for which the neutron formulas are implemented. -/
def C85_claim : Prop :=
  ∀ l ≤ 4, ∀ ρ : ℝ, 0 < ρ → ∃ Pc Sc Pn Sn,
    calculatePenetrability coulombWaveFunctions .charged l ρ 0 = .ok Pc ∧
    calculateShiftFactor coulombWaveFunctions .charged l ρ 0 = .ok Sc ∧
    calculatePenetrability coulombWaveFunctions .neutron l ρ 0 = .ok Pn ∧
    calculateShiftFactor coulombWaveFunctions .neutron l ρ 0 = .ok Sn ∧
    |Pc - Pn| ≤ Pn / 10 ^ 5 ∧ |Sc - Sn| ≤ (|Sn| + Pn) / 10 ^ 5

/-- C85 fails as claimed: at large channel ratios the penetrability is wrong by a factor of two. -/
theorem C85_disproved : ¬ C85_claim := by
  intro h
  obtain ⟨ρ, -, hρ, P, hP, hb⟩ := C85_far 0 (by norm_num) 0 le_rfl (by norm_num) 0
  obtain ⟨Pc, Sc, Pn, Sn, h1, -, h3, -, h5, -⟩ := h 0 (by norm_num) ρ hρ
  rw [hP] at h1
  cases h1
  simp only [calculatePenetrability] at h3
  cases h3
  rw [abs_le] at h5
  rcases hb with hb | hb <;> linarith

/-- C85 for channel ratios up to 48: without Coulomb field the functions are always returned, and the
penetrability and the shift factor of a charged-particle channel are those of a neutron channel up to a relative
error of a hundred thousandth. -/
theorem C85_partial (l : ℕ) (hl : l ≤ 4) (ρ : ℝ) (hρ : 0 < ρ) (h48 : ρ ≤ 48) : ∃ Pc Sc Pn Sn,
    calculatePenetrability coulombWaveFunctions .charged l ρ 0 = .ok Pc ∧
    calculateShiftFactor coulombWaveFunctions .charged l ρ 0 = .ok Sc ∧
    calculatePenetrability coulombWaveFunctions .neutron l ρ 0 = .ok Pn ∧
    calculateShiftFactor coulombWaveFunctions .neutron l ρ 0 = .ok Sn ∧
    |Pc - Pn| ≤ Pn / 10 ^ 5 ∧ |Sc - Sn| ≤ (|Sn| + Pn) / 10 ^ 5 := by
  obtain ⟨w, κ, hw, hκ, eG, eG', eF, eF'⟩ := Free.functions hρ h48 (l := l) (by omega)
  obtain ⟨n1, n2⟩ := Free.neutron hρ hl coulombWaveFunctions 0
  have hwr : coulombDerivative 0 ρ (Free.reg ρ) l * Free.irr ρ l
      - coulombDerivative 0 ρ (Free.irr ρ) l * Free.reg ρ l = 1 := by
    rw [Free.derivative_eq, Free.derivative_eq]
    linear_combination Free.casoratian ρ l
  have hm : 0 < Free.reg ρ l ^ 2 + Free.irr ρ l ^ 2 := by
    by_contra hle
    have h1 : Free.reg ρ l = 0 := by nlinarith [sq_nonneg (Free.reg ρ l), sq_nonneg (Free.irr ρ l)]
    have h2 : Free.irr ρ l = 0 := by nlinarith [sq_nonneg (Free.reg ρ l), sq_nonneg (Free.irr ρ l)]
    rw [h1, h2] at hwr
    norm_num at hwr
  obtain ⟨e1, e2⟩ := Free.estimate hwr hκ (by norm_num)
  rw [← eF] at e1
  rw [← eF, ← eF'] at e2
  obtain ⟨q0, q1, q2⟩ := Free.quotients hρ hm (by norm_num) (by norm_num) e1 e2
  have hz : ¬ (w.F = 0 ∧ w.G = 0) := fun ⟨z1, z2⟩ => by
    rw [← eG, z1, z2] at q0; norm_num at q0
  refine ⟨ρ / (w.F ^ 2 + Free.irr ρ l ^ 2), ρ / (w.F ^ 2 + Free.irr ρ l ^ 2)
    * (w.F * w.dF + Free.irr ρ l * coulombDerivative 0 ρ (Free.irr ρ) l), _, _, ?_, ?_, n1, n2, ?_, ?_⟩
  · simp only [calculatePenetrability, hw, Bind.bind, Except.bind, if_neg hz, pure, Except.pure]
    rw [eG, sq, sq]
  · simp only [calculateShiftFactor, hw, Bind.bind, Except.bind, if_neg hz, pure, Except.pure]
    rw [eG, eG', sq, sq]
  · rw [Free.modulus]
    refine q1.trans ?_
    have : 0 < ρ / (Free.reg ρ l ^ 2 + Free.irr ρ l ^ 2) := by positivity
    linarith
  · rw [Free.modulus, Free.modulus']
    refine q2.trans ?_
    have : 0 < ρ / (Free.reg ρ l ^ 2 + Free.irr ρ l ^ 2) := by positivity
    have := abs_nonneg (ρ / (Free.reg ρ l ^ 2 + Free.irr ρ l ^ 2)
      * (Free.reg ρ l * coulombDerivative 0 ρ (Free.reg ρ) l + Free.irr ρ l * coulombDerivative 0 ρ (Free.irr ρ) l))
    linarith

/-- A case: the d wave at `ρ = 2`, where the neutron penetrability is `32 / 37`. -/
example : ∃ P, calculatePenetrability coulombWaveFunctions .charged 2 2 0 = .ok P ∧
    |P - 32 / 37| ≤ 1 / 10 ^ 5 := by
  obtain ⟨Pc, Sc, Pn, Sn, h1, -, h3, -, h5, -⟩ := C85_partial 2 (by norm_num) 2 (by norm_num) (by norm_num)
  refine ⟨Pc, h1, ?_⟩
  have e : calculatePenetrability coulombWaveFunctions .neutron 2 2 0 = .ok (32 / 37) := by
    norm_num [calculatePenetrability, horner]
  rw [e] at h3
  cases h3
  exact h5.trans (by norm_num)

end Verif
