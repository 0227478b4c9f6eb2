import Verif.Lemmas.CoulombFar

/-!
# Property C84: the irregular Coulomb function at large distance
-/

namespace Verif

open Spec Filter Topology Complex Phase

/-- C84, limit: for `0 ≤ η < 15` and every angular momentum up to 58 the returned `G` and `G'` are, at all
sufficiently large channel ratios, the real part and minus the imaginary part of the outgoing Coulomb wave,
within one part in a million. -/
theorem C84_limit (l : ℕ) (hl : l ≤ 58) (η : ℝ) (h0 : 0 ≤ η) (h15 : η < 15) :
    ∃ R : ℝ, ∀ ρ > R, ∀ w, coulombWaveFunctions l ρ η = .ok w →
      |w.G - (outgoing l η ρ).re| ≤ 1 / 1000000 ∧ |w.dG + (outgoing l η ρ).im| ≤ 1 / 1000000 := by
  obtain ⟨s, p, p', h, hs⟩ := Far.start h0 h15
  have t1 := (Far.value_far h.2 l).abs.eventually_le_const (u := 1 / 10000000) (by norm_num)
  have t2 := (Far.slope_far h.2 l).abs.eventually_le_const (u := 1 / 10000000) (by norm_num)
  obtain ⟨R, hR⟩ := eventually_atTop.mp ((h.1.and t1).and t2)
  refine ⟨R, fun ρ hρ w hw => ?_⟩
  obtain ⟨⟨hv, a1⟩, a2⟩ := hR ρ hρ.le
  obtain ⟨e1, e2⟩ := coulomb_irregular hl hv hw
  rw [← e1] at a1
  rw [← e2] at a2
  set x := cexp ((Far.phase η s ρ : ℝ) * I) * Far.U η l with hx
  have hn : ‖x - outgoing l η ρ‖ ≤ 1 / 1800000 := by
    have e : x - outgoing l η ρ = cexp (((ρ - η * Real.log (2 * ρ) : ℝ) : ℂ) * I)
        * (cexp (s * I) - unit (Gamma (1 + η * I))) * Far.U η l := by
      rw [hx, Far.outgoing_eq, Far.phase, mul_sub, ← Complex.exp_add, ← sub_mul]
      congr 4
      push_cast; ring
    rw [e, norm_mul, norm_mul, Far.norm_U, norm_exp_ofReal_mul_I, one_mul, mul_one]
    exact hs
  have b1 := (abs_re_le_norm (x - outgoing l η ρ)).trans hn
  have b2 := (abs_im_le_norm (x - outgoing l η ρ)).trans hn
  rw [sub_re] at b1
  rw [sub_im] at b2
  rw [abs_le] at a1 a2 b1 b2
  refine ⟨abs_le.mpr ?_, abs_le.mpr ?_⟩ <;> constructor <;> linarith

/-- Some direction is not orthogonal to any of finitely many. -/
theorem exists_direction (u : ℕ → ℂ) (hu : ∀ l, u l ≠ 0) (n : ℕ) :
    ∃ θ : ℝ, ∀ l < n, (cexp (θ * I) * u l).re ≠ 0 := by
  classical
  obtain ⟨t, ht⟩ := Infinite.exists_notMem_finset ((Finset.range n).image fun l => (u l).re / (u l).im)
  have hz : ((1 : ℝ) + t * I : ℂ) ≠ 0 := by
    intro h
    have := congrArg re h
    simp at this
  refine ⟨arg ((1 : ℝ) + t * I), fun l hl h => ht ?_⟩
  have e : (((1 : ℝ) + t * I) * u l).re = 0 := by
    rw [← norm_mul_exp_arg_mul_I ((1 : ℝ) + t * I : ℂ), mul_assoc, re_ofReal_mul, h, mul_zero]
  have e2 : (((1 : ℝ) + t * I) * u l).re = (u l).re - t * (u l).im := by
    rw [add_mul, add_re, re_ofReal_mul, mul_assoc, re_ofReal_mul, I_mul_re]
    ring
  rw [e2] at e
  refine Finset.mem_image.mpr ⟨l, Finset.mem_range.mpr hl, ?_⟩
  have him : (u l).im ≠ 0 := by
    intro him
    rw [him, mul_zero, sub_zero] at e
    exact hu l (Complex.ext e him)
  rw [div_eq_iff him]
  linarith

/-- The phase takes every value, modulo whole turns, at arbitrarily large distances. -/
theorem exists_phase (η s θ R : ℝ) : ∃ ρ > R, cexp ((Far.phase η s ρ : ℝ) * I) = cexp (θ * I) := by
  have hc : ContinuousOn (Far.phase η s) (Set.Ioi 0) := by
    unfold Far.phase
    refine ContinuousOn.add (ContinuousOn.sub continuousOn_id (ContinuousOn.mul continuousOn_const
      (ContinuousOn.log (by fun_prop) fun x hx => ?_))) continuousOn_const
    have : 0 < x := hx
    positivity
  have ht : Tendsto (Far.phase η s) atTop atTop := by
    have h1 : Tendsto (fun ρ : ℝ => ρ * (1 - (η * (Real.log (2 * ρ) / ρ)))) atTop atTop := by
      refine Tendsto.atTop_mul_pos (C := 1) one_pos tendsto_id ?_
      have h2 : Tendsto (fun ρ : ℝ => Real.log (2 * ρ) / (2 * ρ)) atTop (𝓝 0) := by
        have := (Real.isLittleO_log_id_atTop.tendsto_div_nhds_zero).comp
          (tendsto_id.const_mul_atTop (by norm_num : (0 : ℝ) < 2))
        exact this
      have h3 := ((h2.const_mul 2).const_mul η).const_sub 1
      simp only [mul_zero, sub_zero] at h3
      refine h3.congr fun ρ => ?_
      rcases eq_or_ne ρ 0 with rfl | hρ
      · simp
      · field_simp
    refine (tendsto_atTop_add_const_right _ s h1).congr' ?_
    filter_upwards [eventually_gt_atTop 0] with ρ hρ
    rw [Far.phase]
    field_simp
  set a := max R 1 + 1 with ha
  have ha0 : 0 < a := by have := le_max_right R 1; linarith
  have haR : R < a := by have := le_max_left R 1; linarith
  obtain ⟨n, hn⟩ := exists_nat_gt ((Far.phase η s a - θ) / (2 * Real.pi))
  have hpi := Real.pi_pos
  rw [div_lt_iff₀ (by positivity)] at hn
  obtain ⟨b, hb1, hb2⟩ := ((ht.eventually_ge_atTop (θ + n * (2 * Real.pi))).and
    (eventually_ge_atTop a)).exists
  obtain ⟨ρ, hρ, e⟩ := intermediate_value_Icc hb2
    (hc.mono fun x hx => lt_of_lt_of_le ha0 hx.1) (show θ + n * (2 * Real.pi) ∈ Set.Icc _ _ from
      ⟨by linarith, hb1⟩)
  refine ⟨ρ, lt_of_lt_of_le haR hρ.1, ?_⟩
  rw [e]
  have e2 : ((θ + n * (2 * Real.pi) : ℝ) : ℂ) * I = θ * I + n * (2 * Real.pi * I) := by push_cast; ring
  rw [e2, Complex.exp_add, Complex.exp_nat_mul_two_pi_mul_I, mul_one]

/-- C84, values: the functions of `C84_limit` exist at arbitrarily large channel ratios. -/
theorem C84_values (l : ℕ) (hl : l ≤ 58) (η : ℝ) (h0 : 0 ≤ η) (h15 : η < 15) (R : ℝ) :
    ∃ ρ > R, ∃ w, coulombWaveFunctions l ρ η = .ok w := by
  obtain ⟨s, p, p', h, -⟩ := Far.start h0 h15
  have hU : ∀ l, Far.U η l ≠ 0 := fun l h => by
    have := Far.norm_U η l
    rw [h, norm_zero] at this
    exact zero_ne_one this
  obtain ⟨θ, hθ⟩ := exists_direction (Far.U η) hU 70
  have t : ∀ᶠ ρ in atTop, ∀ l ∈ Finset.range 70, |irregular ρ η (p ρ) (p' ρ) l
      - (cexp ((Far.phase η s ρ : ℝ) * I) * Far.U η l).re| < |(cexp (θ * I) * Far.U η l).re| := by
    rw [eventually_all_finset]
    intro l hl
    refine (Far.value_far h.2 l).abs.eventually_lt_const ?_
    rw [abs_zero]
    exact abs_pos.mpr (hθ l (Finset.mem_range.mp hl))
  obtain ⟨R', hR'⟩ := eventually_atTop.mp ((h.1.and t).and (eventually_gt_atTop 0))
  obtain ⟨ρ, hρ, e⟩ := exists_phase η s θ (max R R')
  obtain ⟨⟨hv, hn⟩, hρ0⟩ := hR' ρ ((le_max_right _ _).trans hρ.le)
  rw [e] at hn
  have ne : ∀ l < 70, irregular ρ η (p ρ) (p' ρ) l ≠ 0 := by
    intro l hl h
    have := hn l (Finset.mem_range.mpr hl)
    rw [h, zero_sub, abs_neg] at this
    exact lt_irrefl _ this
  refine ⟨ρ, (le_max_left _ _).trans_lt hρ, ?_⟩
  have hp : p ρ ≠ 0 := ne 0 (by norm_num)
  obtain ⟨L, l1, l2, -, ⟨hz, -⟩ | ⟨F, -, -, -, -, e⟩⟩ :=
    coulomb_cases l hρ0.ne' hv (Or.inr fun hz => hp hz.1)
  · exact absurd hz (ne _ (by omega))
  · rw [if_pos hl] at e
    exact ⟨_, e⟩

/-- `C84_limit` applies: for `l = 3` and `η = 7` there are functions with these values. -/
example : ∃ ρ w, coulombWaveFunctions 3 ρ 7 = .ok w ∧
    |w.G - (outgoing 3 7 ρ).re| ≤ 1 / 1000000 ∧ |w.dG + (outgoing 3 7 ρ).im| ≤ 1 / 1000000 := by
  obtain ⟨R, hR⟩ := C84_limit 3 (by norm_num) 7 (by norm_num) (by norm_num)
  obtain ⟨ρ, hρ, w, hw⟩ := C84_values 3 (by norm_num) 7 (by norm_num) (by norm_num) R
  exact ⟨ρ, w, hw, hR ρ hρ w hw⟩

end Verif
