import Verif.Spec.CoulombWave
import Verif.Lemmas.Newmark
import Verif.Lemmas.CoulombSolution
import Verif.Props.CoulombDerivative
import Mathlib.Analysis.Complex.ExponentialBounds
import Mathlib.Analysis.Real.Pi.Bounds

/-!
# The numerical integration of the irregular Coulomb function is accurate (C98)
-/

namespace Verif

open Set Newmark

/-- The radius at which the values come from an expansion and from which the integration starts. -/
noncomputable def expansionRadius (η : ℝ) : ℝ := if η < 5 then 2 * η + 10 else 2.5 * η + 7.5

theorem asymptoticStart_inside {η ρ σ : ℝ} (h15 : η < 15) (h1 : 2 * η + 1 ≤ ρ) (h2 : ρ ≤ expansionRadius η) :
    asymptoticStart ρ η σ =
      (if η < 5 then omGcase3 (expansionRadius η) η σ else omGcase4 (expansionRadius η) η) >>=
        fun p => .ok (expansionRadius η, p) := by
  unfold expansionRadius at *
  by_cases h5 : η < 5
  · rw [if_pos h5] at h2
    rw [if_pos h5, if_pos h5, asymptoticStart, if_neg (by linarith), if_neg (by linarith)]
    dsimp only
    rw [if_neg (by linarith)]
    rfl
  · rw [if_neg h5] at h2
    rw [if_neg h5, if_neg h5, asymptoticStart, if_neg (by linarith), if_pos (by linarith),
      if_pos (by linarith)]
    dsimp only
    rw [if_neg (by linarith)]
    rfl

theorem asymptoticStart_radius {η ρ σ : ℝ} (h15 : η < 15) (h1 : 2 * η + 1 ≤ ρ) (h2 : ρ ≤ expansionRadius η)
    {ra p0 p1 : ℝ} (h : asymptoticStart ρ η σ = .ok (ra, p0, p1)) : ra = expansionRadius η := by
  rw [asymptoticStart_inside h15 h1 h2] at h
  cases hc : (if η < 5 then omGcase3 (expansionRadius η) η σ else omGcase4 (expansionRadius η) η) with
  | error e => rw [hc] at h; cases h
  | ok p => rw [hc] at h; cases h; rfl

theorem expansionRadius_bounds {η : ℝ} (h15 : η < 15) :
    2 * η + 9 ≤ expansionRadius η ∧ expansionRadius η ≤ 2 * η + 15 := by
  unfold expansionRadius
  split_ifs with h <;> constructor <;> linarith

/-- The values at the radius of the expansion are those of the expansion. -/
theorem startValues_expansion {η : ℝ} (h0 : 0 < η) (h15 : η < 15) {p : ℝ × ℝ}
    (h : startValues (expansionRadius η) η = .ok p) :
    asymptoticStart (expansionRadius η) η (coulombSigma0 η) = .ok (expansionRadius η, p.1, p.2) := by
  have hb := expansionRadius_bounds h15
  rw [startValues, if_neg h0.ne', omAsymptotic] at h
  cases hs : asymptoticStart (expansionRadius η) η (coulombSigma0 η) with
  | error e => rw [hs] at h; cases h
  | ok q =>
    obtain ⟨ra, p0, p1⟩ := q
    have hra := asymptoticStart_radius h15 (by linarith) le_rfl hs
    rw [hs] at h
    simp only [bind, Except.bind, pure, Except.pure] at h
    rw [hra] at h ⊢
    simp only [sub_self, ne_eq, not_true_eq_false, if_false, ite_self] at h
    cases h
    rfl

/-- What the integration from the radius of the expansion yields. -/
theorem startValues_integrated {η ρ : ℝ} (h0 : 0 < η) (h15 : η < 15) (h1 : 2 * η + 1 ≤ ρ)
    (h2 : ρ < expansionRadius η) {pa p : ℝ × ℝ} (ha : startValues (expansionRadius η) η = .ok pa)
    (hp0 : pa.1 ≠ 0) (hp1 : pa.2 ≠ 0) (h : startValues ρ η = .ok p) :
    ∃ n : ℕ, 0 < n ∧ (expansionRadius η - ρ) / n ≤ 0.01 ∧
      newmarkLoop (2 * η) (-((expansionRadius η - ρ) / n)) (expansionRadius η) n 1 pa.1 pa.2
        ((2 * η / expansionRadius η - 1) * pa.1) = .ok p := by
  have hs := startValues_expansion h0 h15 ha
  have hb := expansionRadius_bounds h15
  have he : asymptoticStart ρ η (coulombSigma0 η) = asymptoticStart (expansionRadius η) η (coulombSigma0 η) := by
    rw [asymptoticStart_inside h15 h1 h2.le, asymptoticStart_inside h15 (by linarith) le_rfl]
  rw [startValues, if_neg h0.ne', omAsymptotic, he, hs] at h
  simp only [bind, Except.bind] at h
  rw [if_pos ⟨hp0, hp1⟩, if_pos (by linarith : expansionRadius η - ρ ≠ 0)] at h
  set dr := expansionRadius η - ρ with hdr
  have hdr0 : 0 < dr := by linarith
  have hq : 0 ≤ dr / 0.01 := by positivity
  rw [toInt, if_pos hq] at h
  split_ifs at h with hr
  simp only at h
  split_ifs at h with hz
  have hfl : 0 ≤ ⌊dr / 0.01⌋ := Int.floor_nonneg.mpr hq
  have hcast : (((⌊dr / 0.01⌋ + 1).natAbs : ℕ) : ℝ) = (⌊dr / 0.01⌋ : ℝ) + 1 := by
    rw [Nat.cast_natAbs, abs_of_nonneg (by omega)]
    push_cast
    rfl
  refine ⟨(⌊dr / 0.01⌋ + 1).natAbs, by omega, ?_, ?_⟩
  · rw [hcast, div_le_iff₀ (by have : (0 : ℝ) ≤ ⌊dr / 0.01⌋ := by exact_mod_cast hfl
                               linarith)]
    have := Int.lt_floor_add_one (dr / 0.01)
    rw [div_lt_iff₀ (by norm_num)] at this
    linarith
  · rw [omNewmark, if_neg (by linarith)] at h
    rw [mul_comm 2 η]
    exact h

theorem startValues_charged {η : ℝ} (h0 : 0 < η) (ρ : ℝ) : startValues ρ η = omAsymptotic ρ η (coulombSigma0 η) := by
  rw [startValues, if_neg h0.ne']

/-- **C98, the values of the integration.** The numerical integration of the wave equation is accurate: at
every channel ratio between one unit outside of the turning point and the radius of the expansion, the
value and the derivative are those of the exact solution through the values at that radius, within one part
in 1000 (and 1e-8), unless the integration gave up, which it shows by returning zeros. -/
theorem C98_values {η ρ : ℝ} (h0 : 0 < η) (h15 : η < 15) (h1 : 2 * η + 1 ≤ ρ) (h2 : ρ ≤ expansionRadius η)
    {q q' p p' : ℝ} (ha : omAsymptotic (expansionRadius η) η (coulombSigma0 η) = .ok (q, q')) (hq : q ≠ 0)
    (hq' : q' ≠ 0) (h : omAsymptotic ρ η (coulombSigma0 η) = .ok (p, p')) {y y' : ℝ → ℝ}
    (hy : CoulombSolution η ρ (expansionRadius η) y y') (hya : y (expansionRadius η) = q)
    (hya' : y' (expansionRadius η) = q') :
    p = 0 ∧ p' = 0 ∨
    amplitude η ρ (p - y ρ) (p' - y' ρ) ≤ 1 / 1000 * amplitude η (expansionRadius η) q q' + 1e-8 := by
  rw [← startValues_charged h0] at ha h
  have hb := expansionRadius_bounds h15
  rcases h2.lt_or_eq with hlt | heq
  · obtain ⟨n, hn, hmesh, hl⟩ := startValues_integrated h0 h15 h1 hlt ha hq hq' h
    set a := expansionRadius η with haa
    set H := (a - ρ) / n with hH
    have hn' : (0 : ℝ) < n := by exact_mod_cast hn
    have hH0 : 0 ≤ H := div_nonneg (by linarith) hn'.le
    have homa : 0 ≤ 1 - 2 * η / a := by
      rw [sub_nonneg, div_le_one (by linarith)]
      linarith
    have X : Exact (2 * η) a (a - ρ) (amplitude η a q q') (fun s => y (a - s)) (fun s => -y' (a - s)) :=
      { hz := by linarith
        hL := by linarith
        hS := Real.sqrt_nonneg _
        dY := by
          intro s hs
          have := (hy (a - s) ⟨by linarith [hs.2], by linarith [hs.1]⟩).1
          have h' : HasDerivAt (fun s => a - s) (-1) s := by simpa using (hasDerivAt_id s).const_sub a
          exact (this.comp s h').congr_deriv (by ring)
        dU := by
          intro s hs
          have := (hy (a - s) ⟨by linarith [hs.2], by linarith [hs.1]⟩).2
          have h' : HasDerivAt (fun s => a - s) (-1) s := by simpa using (hasDerivAt_id s).const_sub a
          refine (this.comp s h').neg.congr_deriv ?_
          unfold om
          ring
        start := by
          rw [amplitude, Real.sq_sqrt (by positivity)]
          simp only [sub_zero, om, hya, hya']
          ring }
    have herr : err (2 * η) a H (fun s => y (a - s)) (fun s => -y' (a - s)) ((0 : ℕ) * H) q q'
        ≤ 1.05 * (0.54e-4 * amplitude η a q q' + 1e-10) * ((0 : ℕ) * H) := by
      have : err (2 * η) a H (fun s => y (a - s)) (fun s => -y' (a - s)) ((0 : ℕ) * H) q q' = 0 := by
        simp [err, hya, hya']
      rw [this]
      simp
    have hnH : n * H = a - ρ := by rw [hH]; field_simp
    have hfin := err_loop X hH0 hmesh (T := a - ρ) le_rfl (by linarith) n 0 (g0 := q) (f0 := q')
      (v := (p, p')) (by rw [← hnH]; push_cast; ring) herr (by simpa using hl)
    rcases hfin with hz | hz
    · exact Or.inl (Prod.mk.inj hz)
    · right
      have hpl := err_plain X hH0 hmesh (s := a - ρ) ⟨by linarith, le_rfl⟩ p p'
      have hamp : amplitude η ρ (p - y ρ) (p' - y' ρ)
          = Real.sqrt ((-p' - -y' (a - (a - ρ))) ^ 2 + om (2 * η) a (a - ρ) * (p - y (a - (a - ρ))) ^ 2) := by
        rw [amplitude, om, sub_sub_cancel]
        congr 1
        ring
      rw [hamp]
      refine hpl.trans ?_
      have hA : 0 ≤ amplitude η a q q' := Real.sqrt_nonneg _
      have h3 : a - ρ ≤ 14 := by linarith
      have h4 : 1.05 * (0.54e-4 * amplitude η a q q' + 1e-10) * (a - ρ)
          ≤ 1.05 * (0.54e-4 * amplitude η a q q' + 1e-10) * 14 :=
        mul_le_mul_of_nonneg_left h3 (by positivity)
      simp only at hz
      linarith
  · right
    subst heq
    rw [ha] at h
    cases h
    rw [hya, hya']
    have hA : 0 ≤ amplitude η (expansionRadius η) q q' := Real.sqrt_nonneg _
    have : amplitude η (expansionRadius η) (q - q) (q' - q') = 0 := by simp [amplitude]
    rw [this]
    linarith

/-- **C98, the wave functions.** The same for the functions `G` and `G'` that the library returns for
angular momentum zero. -/
theorem C98_integration {η ρ : ℝ} (h0 : 0 < η) (h15 : η < 15) (h1 : 2 * η + 1 ≤ ρ) (h2 : ρ ≤ expansionRadius η)
    {wa w : WaveFunctions} (ha : coulombWaveFunctions 0 (expansionRadius η) η = .ok wa) (hG : wa.G ≠ 0)
    (hdG : wa.dG ≠ 0) (h : coulombWaveFunctions 0 ρ η = .ok w) {y y' : ℝ → ℝ}
    (hy : CoulombSolution η ρ (expansionRadius η) y y') (hya : y (expansionRadius η) = wa.G)
    (hya' : y' (expansionRadius η) = wa.dG) :
    w.G = 0 ∧ w.dG = 0 ∨
    amplitude η ρ (w.G - y ρ) (w.dG - y' ρ)
      ≤ 1 / 1000 * amplitude η (expansionRadius η) wa.G wa.dG + 1e-8 := by
  obtain ⟨p, p', hs⟩ := startValues_of_ok h
  obtain ⟨q, q', hsa⟩ := startValues_of_ok ha
  obtain ⟨e1, e2⟩ := coulomb_zeroth hs h
  obtain ⟨e3, e4⟩ := coulomb_zeroth hsa ha
  rw [startValues_charged h0] at hs hsa
  rw [e1, e2, e3, e4]
  rw [e3] at hG hya
  rw [e4] at hdG hya'
  exact C98_values h0 h15 h1 h2 hsa hG hdG hs hy hya hya'

/-- **C98, without a given solution.** There is an exact solution of the wave equation that has the values
of the library at the radius of the expansion and, unless zeros are returned, is approximated by them at
all smaller channel ratios. -/
theorem C98_exists {η : ℝ} (h0 : 0 < η) (h15 : η < 15) {wa : WaveFunctions}
    (ha : coulombWaveFunctions 0 (expansionRadius η) η = .ok wa) (hG : wa.G ≠ 0) (hdG : wa.dG ≠ 0) :
    ∃ y y' : ℝ → ℝ, CoulombSolution η (2 * η + 1) (expansionRadius η) y y' ∧
      y (expansionRadius η) = wa.G ∧ y' (expansionRadius η) = wa.dG ∧
      ∀ (ρ : ℝ) (w : WaveFunctions), 2 * η + 1 ≤ ρ → ρ ≤ expansionRadius η →
        coulombWaveFunctions 0 ρ η = .ok w →
        w.G = 0 ∧ w.dG = 0 ∨
        amplitude η ρ (w.G - y ρ) (w.dG - y' ρ)
          ≤ 1 / 1000 * amplitude η (expansionRadius η) wa.G wa.dG + 1e-8 := by
  have hb := expansionRadius_bounds h15
  obtain ⟨y, y', e1, e2, hy⟩ := exists_coulomb_solution (η := η) (ρ := 2 * η + 1) (a := expansionRadius η)
    (by linarith) (by linarith) wa.G wa.dG
  exact ⟨y, y', hy, e1, e2, fun ρ w h1 h2 h => C98_integration h0 h15 h1 h2 ha hG hdG h
    (fun x hx => hy x ⟨h1.trans hx.1, hx.2⟩) e1 e2⟩

/-! ### Example -/

/-- `75/11`, where `1 - 2η/a` is a square. -/
theorem newmark_log_five : 65 / 28 * Real.log 2 ≤ Real.log 5 ∧ Real.log 5 ≤ 7 / 3 * Real.log 2 := by
  constructor
  · have : Real.log ((2 : ℝ) ^ 65) ≤ Real.log ((5 : ℝ) ^ 28) := Real.log_le_log (by norm_num) (by norm_num)
    rw [Real.log_pow, Real.log_pow] at this
    push_cast at this
    linarith
  · have : Real.log ((5 : ℝ) ^ 3) ≤ Real.log ((2 : ℝ) ^ 7) := Real.log_le_log (by norm_num) (by norm_num)
    rw [Real.log_pow, Real.log_pow] at this
    push_cast at this
    linarith

theorem newmark_sqrt : Real.sqrt (1 - 5 / 9) = 2 / 3 := by
  rw [show (1 - 5 / 9 : ℝ) = (2 / 3) ^ 2 by norm_num, Real.sqrt_sq (by norm_num)]

theorem newmark_phase : 2 * Real.pi - 0.2 ≤ riccati2Phase (75 / 11) (5 / 9) ∧
    riccati2Phase (75 / 11) (5 / 9) ≤ 2 * Real.pi - 0.1 := by
  have h1 := newmark_log_five
  have h2 := Real.log_two_gt_d9
  have h3 := Real.log_two_lt_d9
  have h4 := Real.pi_gt_d6
  have h5 := Real.pi_lt_d6
  have e : Real.sqrt (1 / (2 * (75 / 11)) * (1 / (2 * (75 / 11))) * (1 / (1 - 5 / 9)) * (1 / (1 - 5 / 9))
      * (1 / (1 - 5 / 9))) = 99 / 400 := by
    rw [show (1 / (2 * (75 / 11)) * (1 / (2 * (75 / 11))) * (1 / (1 - 5 / 9)) * (1 / (1 - 5 / 9))
      * (1 / (1 - 5 / 9)) : ℝ) = (99 / 400) ^ 2 by norm_num, Real.sqrt_sq (by norm_num)]
  have el : Real.log ((1 - 2 / 3) / (1 + 2 / 3)) = -Real.log 5 := by
    rw [← Real.log_inv]
    norm_num
  rw [riccati2Phase]
  rw [e, newmark_sqrt, el, PI_4]
  norm_num
  constructor <;> linarith

theorem newmark_slope : 2 ≤ riccati2A (75 / 11) (5 / 9) ∧ 0 ≤ riccati2B (75 / 11) (5 / 9) ∧
    riccati2B (75 / 11) (5 / 9) ≤ 0.1 := by
  rw [riccati2A, riccati2B]
  rw [newmark_sqrt]
  norm_num

/-- At `η = 75/11` the expansion yields values other than zero at `a = 270/11`, and the integration
succeeds at all smaller channel ratios, so `C98_values` applies. -/
example (ρ : ℝ) (h1 : 150 / 11 + 1 ≤ ρ) (h2 : ρ ≤ 270 / 11) : ∃ q q' p p' : ℝ, ∃ y y' : ℝ → ℝ,
    omAsymptotic (expansionRadius (75 / 11)) (75 / 11) (coulombSigma0 (75 / 11)) = .ok (q, q') ∧
    q ≠ 0 ∧ q' ≠ 0 ∧ omAsymptotic ρ (75 / 11) (coulombSigma0 (75 / 11)) = .ok (p, p') ∧
    CoulombSolution (75 / 11) ρ (expansionRadius (75 / 11)) y y' ∧ y (expansionRadius (75 / 11)) = q ∧
    y' (expansionRadius (75 / 11)) = q' := by
  have ea : expansionRadius (75 / 11) = 270 / 11 := by
    rw [expansionRadius, if_neg (by norm_num)]
    norm_num
  have h15 : (75 / 11 : ℝ) < 15 := by norm_num
  have hs := asymptoticStart_inside (η := 75 / 11) (ρ := 270 / 11) (σ := coulombSigma0 (75 / 11)) h15 (by norm_num)
    (by rw [ea])
  rw [if_neg (by norm_num), ea, omGcase4] at hs
  dsimp only at hs
  rw [show (2 * (75 / 11) / (270 / 11) : ℝ) = 5 / 9 by norm_num, if_pos (by norm_num)] at hs
  obtain ⟨f1, f2⟩ := newmark_phase
  obtain ⟨s1, s2, s3⟩ := newmark_slope
  set φ := riccati2Phase (75 / 11) (5 / 9) with hφ
  set m := 1 / Real.sqrt (Real.sqrt (1 - 5 / 9)) * Real.exp (riccati2Exponent (75 / 11) (5 / 9)) with hm
  have hm0 : 0 < m := by rw [hm, newmark_sqrt]; positivity
  have hsin : Real.sin φ ≤ -0.099 := by
    have h := Real.sin_gt_sub_cube (x := 2 * Real.pi - φ) (by linarith)
    rw [Real.sin_two_pi_sub] at h
    have h3 : (2 * Real.pi - φ) ^ 3 ≤ 0.04 * (2 * Real.pi - φ) := by
      have : (2 * Real.pi - φ) ^ 2 ≤ 0.04 := by nlinarith
      nlinarith
    linarith
  have hcos : 0 < Real.cos φ := by
    rw [← Real.cos_sub_two_pi]
    exact Real.cos_pos_of_mem_Ioo ⟨by linarith [Real.pi_gt_three], by linarith [Real.pi_gt_three]⟩
  obtain ⟨⟨p, p'⟩, hp⟩ := omAsymptotic_ok (ρ := ρ) (η := 75 / 11) (σ := coulombSigma0 (75 / 11)) (by linarith)
    (by linarith) (by rw [abs_of_pos] <;> norm_num)
  obtain ⟨y, y', e1, e2, hy⟩ := exists_coulomb_solution (η := 75 / 11) (ρ := ρ) (a := 270 / 11) (by linarith) h2
    (m * Real.cos φ) (-(5 / 9) * (5 / 9) * (riccati2A (75 / 11) (5 / 9) * m * Real.sin φ
      + riccati2B (75 / 11) (5 / 9) * (m * Real.cos φ)))
  refine ⟨m * Real.cos φ, _, p, p', y, y', ?_, ?_, ?_, hp, ea.symm ▸ hy, ea.symm ▸ e1, ea.symm ▸ e2⟩
  · rw [ea, omAsymptotic, hs]
    simp only [bind, Except.bind, sub_self, ne_eq, not_true_eq_false, if_false, ite_self]
    rfl
  · positivity
  · have hc1 := Real.cos_le_one φ
    have h3 : riccati2A (75 / 11) (5 / 9) * Real.sin φ + riccati2B (75 / 11) (5 / 9) * Real.cos φ < 0 := by
      nlinarith
    have : (-(5 / 9) * (5 / 9) * (riccati2A (75 / 11) (5 / 9) * m * Real.sin φ
      + riccati2B (75 / 11) (5 / 9) * (m * Real.cos φ)))
      = -(25 / 81) * m * (riccati2A (75 / 11) (5 / 9) * Real.sin φ + riccati2B (75 / 11) (5 / 9) * Real.cos φ) := by
      ring
    rw [this]
    exact mul_ne_zero (mul_ne_zero (by norm_num) hm0.ne') h3.ne

end Verif
