import Verif.Props.CoulombFar

/-!
# The regular Coulomb function at large distance
-/

namespace Verif.Far

open Complex Filter Topology Verif.Phase Spec

section
variable {η s : ℝ} {p p' : ℝ → ℝ} (h : Waves η s p p')
include h

theorem square_tendsto : Tendsto (fun ρ => p ρ ^ 2 + p' ρ ^ 2) atTop (𝓝 1) := by
  obtain ⟨h1, h2⟩ := h
  have hs : Tendsto (fun ρ => |p ρ - Real.cos (phase η s ρ)| * (|p ρ - Real.cos (phase η s ρ)| + 2)
      + |p' ρ + Real.sin (phase η s ρ)| * (|p' ρ + Real.sin (phase η s ρ)| + 2)) atTop (𝓝 0) := by
    have := (h1.abs.mul (h1.abs.add_const 2)).add (h2.abs.mul (h2.abs.add_const 2))
    simpa using this
  have hz : Tendsto (fun ρ => p ρ ^ 2 + p' ρ ^ 2 - 1) atTop (𝓝 0) := by
    refine squeeze_zero_norm' (Eventually.of_forall fun ρ => ?_) hs
    have c1 := Real.abs_cos_le_one (phase η s ρ)
    have c2 := Real.abs_sin_le_one (phase η s ρ)
    have c3 := Real.sin_sq_add_cos_sq (phase η s ρ)
    generalize Real.cos (phase η s ρ) = c at *
    generalize Real.sin (phase η s ρ) = t at *
    have e : p ρ ^ 2 + p' ρ ^ 2 - 1 = (p ρ - c) * ((p ρ - c) + 2 * c) + (p' ρ + t) * ((p' ρ + t) - 2 * t) := by
      linear_combination c3
    rw [e, Real.norm_eq_abs]
    refine (abs_add_le _ _).trans (add_le_add ?_ ?_)
    · rw [abs_mul]
      refine mul_le_mul_of_nonneg_left ((abs_add_le _ _).trans ?_) (abs_nonneg _)
      rw [abs_mul, abs_two]; linarith
    · rw [abs_mul]
      refine mul_le_mul_of_nonneg_left ((abs_sub _ _).trans ?_) (abs_nonneg _)
      rw [abs_mul, abs_two]; linarith
  have := hz.add_const 1
  rw [zero_add] at this
  exact this.congr fun ρ => by ring

/-- Another solution, of Wronskian one with the given one. -/
theorem regular_waves : Waves η (s - Real.pi / 2) (fun ρ => -p' ρ / (p ρ ^ 2 + p' ρ ^ 2))
    (fun ρ => p ρ / (p ρ ^ 2 + p' ρ ^ 2)) := by
  have hD := square_tendsto h
  obtain ⟨h1, h2⟩ := h
  have e (ρ : ℝ) : phase η (s - Real.pi / 2) ρ = phase η s ρ - Real.pi / 2 := by rw [phase, phase]; ring
  have hpos : ∀ᶠ ρ in atTop, 1 / 2 < p ρ ^ 2 + p' ρ ^ 2 := hD.eventually_const_lt (by norm_num)
  have hD1 : Tendsto (fun ρ => |p ρ ^ 2 + p' ρ ^ 2 - 1|) atTop (𝓝 0) := by
    have := (hD.sub_const 1).abs
    simpa using this
  constructor
  · have hs : Tendsto (fun ρ => 2 * (|p' ρ + Real.sin (phase η s ρ)| + |p ρ ^ 2 + p' ρ ^ 2 - 1|)) atTop
        (𝓝 0) := by
      have := (h2.abs.add hD1).const_mul 2
      simpa using this
    refine squeeze_zero_norm' ?_ hs
    filter_upwards [hpos] with ρ hp
    rw [e, Real.cos_sub_pi_div_two]
    have c2 := Real.abs_sin_le_one (phase η s ρ)
    generalize Real.sin (phase η s ρ) = t at *
    generalize p ρ ^ 2 + p' ρ ^ 2 = D at *
    have hD0 : 0 < D := by linarith
    have e2 : -p' ρ / D - t = (-(p' ρ + t) - t * (D - 1)) / D := by
      field_simp
      ring
    rw [e2, Real.norm_eq_abs, abs_div, abs_of_pos hD0, div_le_iff₀ hD0]
    have b := (abs_sub (-(p' ρ + t)) (t * (D - 1)))
    rw [abs_neg, abs_mul t] at b
    have b2 : |t| * |D - 1| ≤ |D - 1| := mul_le_of_le_one_left (abs_nonneg _) c2
    have b3 : 0 ≤ |p' ρ + t| + |D - 1| := by positivity
    nlinarith
  · have hs : Tendsto (fun ρ => 2 * (|p ρ - Real.cos (phase η s ρ)| + |p ρ ^ 2 + p' ρ ^ 2 - 1|)) atTop
        (𝓝 0) := by
      have := (h1.abs.add hD1).const_mul 2
      simpa using this
    refine squeeze_zero_norm' ?_ hs
    filter_upwards [hpos] with ρ hp
    rw [e, Real.sin_sub_pi_div_two]
    have c2 := Real.abs_cos_le_one (phase η s ρ)
    generalize Real.cos (phase η s ρ) = t at *
    generalize p ρ ^ 2 + p' ρ ^ 2 = D at *
    have hD0 : 0 < D := by linarith
    have e2 : p ρ / D + -t = ((p ρ - t) - t * (D - 1)) / D := by
      field_simp
      ring
    rw [e2, Real.norm_eq_abs, abs_div, abs_of_pos hD0, div_le_iff₀ hD0]
    have b := (abs_sub (p ρ - t) (t * (D - 1)))
    rw [abs_mul t] at b
    have b2 : |t| * |D - 1| ≤ |D - 1| := mul_le_of_le_one_left (abs_nonneg _) c2
    have b3 : 0 ≤ |p ρ - t| + |D - 1| := by positivity
    nlinarith

/-- The loop upwards does not stop early. -/
theorem not_stopped (h0 : 0 ≤ η) (h15 : η < 15) : ∀ᶠ ρ in atTop, ∀ L ∈ Finset.range 60,
    ¬ ((if η = 0 then 1 else max (p ρ * p ρ)
        (irregular ρ η (p ρ) (p' ρ) 1 * irregular ρ η (p ρ) (p' ρ) 1))
      / (irregular ρ η (p ρ) (p' ρ) L * irregular ρ η (p ρ) (p' ρ) L) < 1e-10
      ∧ irregular ρ η (p ρ) (p' ρ) L ≠ 0) := by
  have hG : ∀ᶠ ρ in atTop, ∀ L ∈ Finset.range 60, |irregular ρ η (p ρ) (p' ρ) L| ≤ 2 := by
    rw [eventually_all_finset]
    intro L _
    filter_upwards [(value_far h L).abs.eventually_le_const (u := 1) (by simp)] with ρ hρ
    have hn : |(cexp ((phase η s ρ : ℝ) * I) * U η L).re| ≤ 1 := by
      refine (abs_re_le_norm _).trans ?_
      rw [norm_mul, norm_U, norm_exp_ofReal_mul_I, one_mul]
    have e : irregular ρ η (p ρ) (p' ρ) L = (irregular ρ η (p ρ) (p' ρ) L
      - (cexp ((phase η s ρ : ℝ) * I) * U η L).re) + (cexp ((phase η s ρ : ℝ) * I) * U η L).re := by ring
    rw [e]
    exact (abs_add_le _ _).trans (by linarith)
  have hp := h.1.abs.eventually_le_const (u := 1 / 1000) (by norm_num)
  have hg := (value_far h 1).abs.eventually_le_const (u := 1 / 1000) (by norm_num)
  filter_upwards [hG, hp, hg] with ρ hG hp hg L hL ⟨hc, hne⟩
  have ha : 1 / 1000000 ≤ (if η = 0 then 1 else max (p ρ * p ρ)
      (irregular ρ η (p ρ) (p' ρ) 1 * irregular ρ η (p ρ) (p' ρ) 1)) := by
    split_ifs with hz
    · norm_num
    · by_contra hlt
      push Not at hlt
      rw [max_lt_iff] at hlt
      obtain ⟨m1, m2⟩ := hlt
      have q1 : |p ρ| < 1 / 1000 := by
        rw [← abs_of_pos (by norm_num : (0 : ℝ) < 1 / 1000)]
        exact sq_lt_sq.mp (by linarith)
      have q2 : |irregular ρ η (p ρ) (p' ρ) 1| < 1 / 1000 := by
        rw [← abs_of_pos (by norm_num : (0 : ℝ) < 1 / 1000)]
        exact sq_lt_sq.mp (by linarith)
      have hc1 := (cs_pos η (l := 1) le_rfl)
      have hcs : cs η 1 ≤ 16 := by
        rw [cs, Real.sqrt_le_left (by norm_num)]
        push_cast
        nlinarith
      have hre : cs η 1 * (cexp ((phase η s ρ : ℝ) * I) * U η 1).re
          = η * Real.cos (phase η s ρ) + Real.sin (phase η s ρ) := by
        have := J_succ η (Real.cos (phase η s ρ)) (-Real.sin (phase η s ρ)) 0
        have e1 : ((Real.cos (phase η s ρ) : ℂ) - ((-Real.sin (phase η s ρ) : ℝ) : ℂ) * I)
            = cexp ((phase η s ρ : ℝ) * I) := by
          rw [exp_mul_I]; push_cast; ring
        rw [J, e1] at this
        simp only [U, mul_one, exp_re, exp_im, Nat.cast_zero, zero_add, one_mul] at this ⊢
        exact this
      have hsc := Real.sin_sq_add_cos_sq (phase η s ρ)
      generalize Real.cos (phase η s ρ) = c at *
      generalize Real.sin (phase η s ρ) = t at *
      generalize (cexp ((phase η s ρ : ℝ) * I) * U η 1).re = r at *
      rw [abs_le] at hp hg
      rw [abs_lt] at q1 q2
      have c1 : |c| ≤ 2 / 1000 := abs_le.mpr ⟨by linarith, by linarith⟩
      have r1 : |r| ≤ 2 / 1000 := abs_le.mpr ⟨by linarith, by linarith⟩
      have t1 : |t| ≤ 1 / 10 := by
        have : t = cs η 1 * r - η * c := by linarith
        rw [this]
        refine (abs_sub _ _).trans ?_
        rw [abs_mul, abs_mul, abs_of_pos hc1, abs_of_nonneg h0]
        have d1 : cs η 1 * |r| ≤ 16 * (2 / 1000) := mul_le_mul hcs r1 (abs_nonneg _) (by norm_num)
        have d2 : η * |c| ≤ 15 * (2 / 1000) := mul_le_mul h15.le c1 (abs_nonneg _) (by norm_num)
        linarith
      have s1 := sq_le_sq' (abs_le.mp c1).1 (abs_le.mp c1).2
      have s2 := sq_le_sq' (abs_le.mp t1).1 (abs_le.mp t1).2
      linarith
  have hb := hG L hL
  have hpos : 0 < irregular ρ η (p ρ) (p' ρ) L * irregular ρ η (p ρ) (p' ρ) L :=
    mul_self_pos.mpr hne
  have h4 : irregular ρ η (p ρ) (p' ρ) L * irregular ρ η (p ρ) (p' ρ) L ≤ 4 := by
    rw [← abs_mul_abs_self]
    nlinarith [abs_nonneg (irregular ρ η (p ρ) (p' ρ) L)]
  rw [div_lt_iff₀ hpos] at hc
  linarith

end

/-- What is returned at large distances. -/
theorem functions {η s : ℝ} {p p' : ℝ → ℝ} (h : Start η s p p') (h0 : 0 ≤ η) (h15 : η < 15)
    {l : ℕ} (hl : l ≤ 58) : ∀ᶠ ρ in atTop, irregular ρ η (p ρ) (p' ρ) 69 ≠ 0 →
      ∃ w, coulombWaveFunctions l ρ η = .ok w ∧ w.G = irregular ρ η (p ρ) (p' ρ) l ∧
        w.F = irregular ρ η (-p' ρ / (p ρ ^ 2 + p' ρ ^ 2)) (p ρ / (p ρ ^ 2 + p' ρ ^ 2)) l
          - irregular ρ η (-p' ρ / (p ρ ^ 2 + p' ρ ^ 2)) (p ρ / (p ρ ^ 2 + p' ρ ^ 2)) 69
            / irregular ρ η (p ρ) (p' ρ) 69 * irregular ρ η (p ρ) (p' ρ) l := by
  have hpos : ∀ᶠ ρ in atTop, 1 / 2 < p ρ ^ 2 + p' ρ ^ 2 :=
    (square_tendsto h.2).eventually_const_lt (by norm_num)
  filter_upwards [h.1, hpos, not_stopped h.2 h0 h15, eventually_gt_atTop 0] with ρ hv hD hns hρ hne
  have hz : ¬ (p ρ = 0 ∧ p' ρ = 0) := fun ⟨z1, z2⟩ => by
    rw [z1, z2] at hD; norm_num at hD
  obtain ⟨L, l1, l2, l3, l4, hcase⟩ := coulomb_cases' l hρ.ne' hv (.inr hz)
  have hL : L = 58 := by
    by_contra hL
    have := l4.resolve_left hL
    exact hns (L + 1) (Finset.mem_range.mpr (by omega)) ⟨this.2, this.1⟩
  subst hL
  rcases hcase with ⟨hc, -⟩ | ⟨F, g1, g2, g3, g4, e⟩
  · exact absurd hc hne
  rw [if_pos hl] at e
  refine ⟨_, e, rfl, ?_⟩
  refine regular_error g1 g2 g3 g4 (fun i hi => irregular_recurrence _ _ _ _ hi) ?_ l (by omega)
  rw [irregular_derivative_zero, irregular_derivative_zero, irregular_zero, irregular_zero]
  have : p ρ ^ 2 + p' ρ ^ 2 ≠ 0 := by linarith
  field_simp
  ring

end Verif.Far
