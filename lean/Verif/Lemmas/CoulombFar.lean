import Verif.Lemmas.CoulombPhase
import Verif.Lemmas.WeakCoulomb3
import Verif.Lemmas.Riccati2
import Verif.Props.WeakCoulomb
import Verif.Props.CoulombDerivative
import Verif.Lemmas.CoulombWave
import Verif.Spec.CoulombFar

/-!
# The Coulomb functions at large distance
-/

namespace Verif.Far

open Complex Filter Topology Verif.Phase Spec

/-! ### The ladder of angular momenta at large distance -/

/-- The turn from the wave of angular momentum zero to that of angular momentum `l`. -/
noncomputable def U (η : ℝ) : ℕ → ℂ
  | 0 => 1
  | l + 1 => -I * (((l + 1 : ℕ) : ℝ) + η * I) / cs η (l + 1) * U η l

/-- The limit of the irregular functions. -/
noncomputable def J (η p p' : ℝ) (l : ℕ) : ℝ := ((p - p' * I) * U η l).re

theorem norm_eq (η : ℝ) (l : ℕ) : ‖((l : ℝ) : ℂ) + η * I‖ = cs η l := by
  rw [Complex.norm_def, normSq_apply, cs]
  congr 1
  simp [sq]

theorem norm_U (η : ℝ) (l : ℕ) : ‖U η l‖ = 1 := by
  induction l with
  | zero => simp [U]
  | succ l ih =>
    have h := cs_pos η (l := l + 1) (by omega)
    rw [U, norm_mul, ih, norm_div, norm_mul, norm_eq, norm_neg, norm_I, Complex.norm_real,
      Real.norm_of_nonneg h.le]
    field_simp

theorem J_bound (η p p' : ℝ) (l : ℕ) : |J η p p' l| ≤ |p| + |p'| := by
  rw [J]
  refine (abs_re_le_norm _).trans ?_
  rw [norm_mul, norm_U, mul_one]
  refine (norm_sub_le _ _).trans ?_
  rw [norm_mul, norm_I, mul_one, Complex.norm_real, Complex.norm_real]
  rfl

theorem J_zero (η p p' : ℝ) : J η p p' 0 = p := by
  simp [J, U]

theorem J_succ (η p p' : ℝ) (l : ℕ) : cs η (l + 1) * J η p p' (l + 1)
    = η * ((p - p' * I) * U η l).re + (l + 1) * ((p - p' * I) * U η l).im := by
  have h := (cs_pos η (l := l + 1) (by omega)).ne'
  have e : (p - p' * I : ℂ) * U η (l + 1) = ((1 / cs η (l + 1) : ℝ) : ℂ)
      * ((η - ((l + 1 : ℝ) : ℂ) * I) * ((p - p' * I) * U η l)) := by
    rw [U]
    push_cast
    ring_nf
    simp only [I_sq, I_pow_three]
    ring
  have e2 (v : ℂ) : ((η - ((l + 1 : ℝ) : ℂ) * I) * v).re = η * v.re + (l + 1) * v.im := by
    rw [Complex.mul_re, sub_re, sub_im, re_ofReal_mul, im_ofReal_mul, ofReal_re, ofReal_im, I_re, I_im]
    ring
  rw [J, e, re_ofReal_mul, e2]
  field_simp

theorem J_recurrence (η p p' : ℝ) (l : ℕ) : (l + 1) * cs η (l + 2) * J η p p' (l + 2)
    = (2 * l + 3) * η * J η p p' (l + 1) - (l + 2) * cs η (l + 1) * J η p p' l := by
  have h := (cs_pos η (l := l + 1) (by omega)).ne'
  have h1 := J_succ η p p' l
  have h2 := J_succ η p p' (l + 1)
  have hq : cs η (l + 1) ^ 2 = (l + 1 : ℝ) ^ 2 + η ^ 2 := by
    rw [cs, Real.sq_sqrt (by positivity)]; push_cast; ring
  set v := (p - p' * I : ℂ) * U η l with hv
  have e : (p - p' * I : ℂ) * U η (l + 1) = ((1 / cs η (l + 1) : ℝ) : ℂ)
      * ((η - ((l + 1 : ℝ) : ℂ) * I) * v) := by
    rw [U, hv]
    push_cast
    ring_nf
    simp only [I_sq, I_pow_three]
    ring
  have e3 : ((p - p' * I : ℂ) * U η (l + 1)).im = (η * v.im - (l + 1) * v.re) / cs η (l + 1) := by
    rw [e, im_ofReal_mul, Complex.mul_im, sub_re, sub_im, re_ofReal_mul, im_ofReal_mul, ofReal_re,
      ofReal_im, I_re, I_im]
    ring
  have h3 : ((p - p' * I : ℂ) * U η (l + 1)).re = J η p p' (l + 1) := rfl
  have h4 : v.re = J η p p' l := rfl
  rw [h3, e3] at h2
  push_cast at h2
  rw [h4] at h1 h2
  have h5 : v.im = (cs η (l + 1) * J η p p' (l + 1) - η * J η p p' l) / (l + 1) := by
    field_simp
    linarith
  rw [mul_assoc, h2, h5]
  field_simp
  linear_combination (l + 2 : ℝ) * J η p p' l * hq

theorem irregular_far (η : ℝ) (l : ℕ) : ∃ K : ℝ, 0 ≤ K ∧ ∀ ρ p p' : ℝ, 1 ≤ ρ →
    |irregular ρ η p p' l - J η p p' l| ≤ K / ρ * (|p| + |p'|) := by
  suffices h : ∀ l, (∃ K : ℝ, 0 ≤ K ∧ ∀ ρ p p' : ℝ, 1 ≤ ρ →
      |irregular ρ η p p' l - J η p p' l| ≤ K / ρ * (|p| + |p'|)) ∧
      (∃ K : ℝ, 0 ≤ K ∧ ∀ ρ p p' : ℝ, 1 ≤ ρ →
        |irregular ρ η p p' (l + 1) - J η p p' (l + 1)| ≤ K / ρ * (|p| + |p'|)) from (h l).1
  intro l
  induction l with
  | zero =>
    refine ⟨⟨0, le_rfl, fun ρ p p' h => ?_⟩, ⟨1 / cs η 1, ?_, fun ρ p p' h => ?_⟩⟩
    · rw [irregular_zero, J_zero]; simp
    · have := cs_pos η (l := 1) le_rfl
      positivity
    · have hc := cs_pos η (l := 1) le_rfl
      have h1 := J_succ η p p' 0
      have e0 : (p - p' * I : ℂ) * U η 0 = p - p' * I := by simp [U]
      have e1 : (p - p' * I : ℂ).re = p := by simp
      have e2 : (p - p' * I : ℂ).im = -p' := by simp
      rw [e0, e1, e2] at h1
      have e : irregular ρ η p p' (0 + 1) - J η p p' (0 + 1) = 1 / cs η 1 / ρ * p := by
        have h2 : J η p p' (0 + 1) = (η * p - p') / cs η 1 := by
          rw [eq_div_iff hc.ne']
          norm_num at h1 ⊢
          linarith
        rw [h2, irregular]
        change ((η + 1 / ρ) * p - p') / Real.sqrt (1 + η * η) - _ = _
        rw [← cs_one]
        field_simp
        ring
      rw [e, abs_mul, abs_of_nonneg (by positivity)]
      refine mul_le_mul_of_nonneg_left ?_ (by positivity)
      linarith [abs_nonneg p']
  | succ l ih =>
    refine ⟨ih.2, ?_⟩
    obtain ⟨⟨K, hK, h1⟩, ⟨K', hK', h2⟩⟩ := ih
    have c1 := cs_pos η (l := l + 1) (by omega)
    have c2 := cs_pos η (l := l + 2) (by omega)
    refine ⟨((2 * l + 3) * |η| * K' + (2 * l + 3) * (l + 1) * (l + 2) * (K' + 1)
      + (l + 2) * cs η (l + 1) * K) / ((l + 1) * cs η (l + 2)), by positivity, fun ρ p p' hρ => ?_⟩
    have hρ0 : 0 < ρ := by linarith
    have r1 := recurrence_iff.mp (irregular_recurrence ρ η p p' (l := l + 1) (by omega))
    have r2 := J_recurrence η p p' l
    have a1 := h1 ρ p p' hρ
    have a2 := h2 ρ p p' hρ
    have a3 := J_bound η p p' (l + 1)
    set M := |p| + |p'| with hM
    have hM0 : 0 ≤ M := by positivity
    simp only [Nat.add_sub_cancel] at r1
    push_cast at r1
    change |irregular ρ η p p' (l + 2) - J η p p' (l + 2)| ≤ _
    change (l + 1 : ℝ) * cs η (l + 2) * irregular ρ η p p' (l + 2) = _ at r1
    generalize irregular ρ η p p' (l + 2) = g2 at *
    generalize irregular ρ η p p' (l + 1) = g1 at *
    generalize irregular ρ η p p' l = g0 at *
    generalize J η p p' (l + 2) = j2 at *
    generalize J η p p' (l + 1) = j1 at *
    generalize J η p p' l = j0 at *
    have hd : 0 < (l + 1 : ℝ) * cs η (l + 2) := by positivity
    have e : ((l + 1 : ℝ) * cs η (l + 2)) * (g2 - j2) = (2 * l + 3) * η * (g1 - j1)
        + (2 * l + 3) * (l + 1) * (l + 2) * (1 / ρ) * g1 - (l + 2) * cs η (l + 1) * (g0 - j0) := by
      rw [mul_sub, r1, r2]
      ring
    have b1 : |g1| ≤ (K' + 1) * M := by
      have : g1 = (g1 - j1) + j1 := by ring
      rw [this]
      refine (abs_add_le _ _).trans ?_
      have : K' / ρ * M ≤ K' * M := mul_le_mul_of_nonneg_right (div_le_self hK' hρ) hM0
      linarith
    have b2 : ((l + 1 : ℝ) * cs η (l + 2)) * |g2 - j2|
        ≤ ((2 * l + 3) * |η| * K' + (2 * l + 3) * (l + 1) * (l + 2) * (K' + 1)
          + (l + 2) * cs η (l + 1) * K) / ρ * M := by
      rw [← abs_of_pos hd, ← abs_mul, e]
      refine (abs_sub _ _).trans ((add_le_add_left (abs_add_le _ _) _).trans ?_)
      rw [abs_mul, abs_mul (_ * _) g1, abs_mul (_ * _) (g0 - j0), abs_mul (_ : ℝ) η,
        abs_of_pos (by positivity : 0 < (2 * l + 3 : ℝ)),
        abs_of_pos (by positivity : 0 < (2 * l + 3 : ℝ) * (l + 1) * (l + 2) * (1 / ρ)),
        abs_of_pos (by positivity : 0 < (l + 2 : ℝ) * cs η (l + 1))]
      have d1 := mul_le_mul_of_nonneg_left a2 (by positivity : 0 ≤ (2 * l + 3 : ℝ) * |η|)
      have d2 := mul_le_mul_of_nonneg_left b1
        (by positivity : 0 ≤ (2 * l + 3 : ℝ) * (l + 1) * (l + 2) * (1 / ρ))
      have d3 := mul_le_mul_of_nonneg_left a1 (by positivity : 0 ≤ (l + 2 : ℝ) * cs η (l + 1))
      refine (add_le_add (add_le_add d1 d2) d3).trans (le_of_eq ?_)
      field_simp
    rw [mul_comm, ← le_div_iff₀ hd] at b2
    refine b2.trans (le_of_eq ?_)
    field_simp

/-- The turn is that of the argument of the gamma function. -/
theorem outgoing_eq (l : ℕ) (η ρ : ℝ) : outgoing l η ρ
    = cexp (((ρ - η * Real.log (2 * ρ) : ℝ) : ℂ) * I) * unit (Gamma (1 + η * I)) * U η l := by
  have hG : ∀ l : ℕ, cexp (((-(l * (Real.pi / 2)) : ℝ) : ℂ) * I) * unit (Gamma (l + 1 + η * I))
      = unit (Gamma (1 + η * I)) * U η l := by
    intro l
    induction l with
    | zero => simp [U]
    | succ l ih =>
      have e1 : ((l + 1 : ℕ) + 1 + η * I : ℂ) = (l + 1 + η * I) + 1 := by push_cast; ring
      have h0 : (l + 1 + η * I : ℂ) ≠ 0 := by
        intro h
        have := congrArg re h
        simp at this
        have h2 : (0 : ℝ) ≤ l := by positivity
        linarith
      have e2 : cexp (((-((l + 1 : ℕ) * (Real.pi / 2)) : ℝ) : ℂ) * I)
          = -I * cexp (((-(l * (Real.pi / 2)) : ℝ) : ℂ) * I) := by
        have : (((-((l + 1 : ℕ) * (Real.pi / 2)) : ℝ) : ℂ) * I)
            = (-Real.pi / 2 * I) + ((-(l * (Real.pi / 2)) : ℝ) : ℂ) * I := by
          push_cast; ring
        rw [this, Complex.exp_add, exp_neg_pi_div_two_mul_I]
      have e3 : unit (l + 1 + η * I : ℂ) = (((l + 1 : ℕ) : ℝ) + η * I) / cs η (l + 1) := by
        have : (l + 1 + η * I : ℂ) = (((l + 1 : ℕ) : ℝ) : ℂ) + η * I := by push_cast; ring
        rw [this, unit, norm_eq]
      rw [e1, Gamma_add_one _ h0, unit_mul, e2, e3, U]
      linear_combination (-I * ((((l + 1 : ℕ) : ℝ) + η * I) / cs η (l + 1))) * ih
  have e : ((ρ - η * Real.log (2 * ρ) - l * (Real.pi / 2) : ℝ) : ℂ) * I
      = ((ρ - η * Real.log (2 * ρ) : ℝ) : ℂ) * I + ((-(l * (Real.pi / 2)) : ℝ) : ℂ) * I := by
    push_cast; ring
  rw [outgoing, e, Complex.exp_add]
  have := hG l
  rw [unit] at this
  rw [mul_assoc, this, mul_assoc]

/-! ### The values that the ladder starts from -/

/-- The phase at large distance. -/
noncomputable def phase (η s ρ : ℝ) : ℝ := ρ - η * Real.log (2 * ρ) + s

/-- The functions approach a cosine and minus a sine of the phase. -/
def Waves (η s : ℝ) (p p' : ℝ → ℝ) : Prop :=
  Tendsto (fun ρ => p ρ - Real.cos (phase η s ρ)) atTop (𝓝 0) ∧
  Tendsto (fun ρ => p' ρ + Real.sin (phase η s ρ)) atTop (𝓝 0)

/-- The ladder starts from such functions. -/
def Start (η s : ℝ) (p p' : ℝ → ℝ) : Prop :=
  (∀ᶠ ρ in atTop, startValues ρ η = .ok (p ρ, p' ρ)) ∧ Waves η s p p'

theorem E_eq (η s ρ : ℝ) : Weak.E η s ρ = cexp ((phase η s ρ : ℝ) * I) := by
  rw [Weak.E, mul_comm]; rfl

theorem exp_re (x : ℝ) : (cexp (x * I)).re = Real.cos x := by
  rw [exp_ofReal_mul_I_re]

theorem exp_im (x : ℝ) : (cexp (x * I)).im = Real.sin x := by
  rw [exp_ofReal_mul_I_im]

theorem start_zero : Start 0 0 (fun ρ => Real.cos ρ) fun ρ => -Real.sin ρ := by
  have h (ρ : ℝ) : phase 0 0 ρ = ρ := by rw [phase]; ring
  refine ⟨Eventually.of_forall fun ρ => by rw [startValues, if_pos rfl], ?_, ?_⟩
  · simp only [h, sub_self]; exact tendsto_const_nhds
  · simp only [h, neg_add_cancel]; exact tendsto_const_nhds

theorem stop_le {η ρ : ℝ} (h1 : 0 ≤ η) (h2 : η ≤ 5) (hρ : 2 * η + 10 < ρ) :
    Weak.stop η ρ 100 0 ∈ Finset.range 101 :=
  Finset.mem_range.mpr (by have := (Weak.count h1 h2 hρ.le).high; omega)

theorem start_weak {η : ℝ} (h0 : 0 < η) (h5 : η < 5) : Start η (coulombSigma0 η)
    (fun ρ => (Weak.W η (coulombSigma0 η) (Weak.stop η ρ 100 0) ρ).re)
    (fun ρ => (Weak.W' η (coulombSigma0 η) (Weak.stop η ρ 100 0) ρ).re) := by
  refine ⟨?_, ?_, ?_⟩
  · filter_upwards [eventually_gt_atTop (2 * η + 10)] with ρ hρ
    rw [startValues_weak h0 h5 hρ, Weak.case3_eq h0 h5.le hρ.le]
  · have hs : Tendsto (fun ρ => ∑ N ∈ Finset.range 101, ‖Weak.F η ρ N - 1‖) atTop (𝓝 0) := by
      have := tendsto_finsetSum (Finset.range 101) fun N _ =>
        ((Weak.F_tendsto η N).sub_const 1).norm
      simpa using this
    refine squeeze_zero_norm' ?_ hs
    filter_upwards [eventually_gt_atTop (2 * η + 10)] with ρ hρ
    refine le_trans ?_ (Finset.single_le_sum (f := fun N => ‖Weak.F η ρ N - 1‖)
      (fun _ _ => norm_nonneg _) (stop_le h0.le h5.le hρ))
    rw [← exp_re, ← E_eq, Weak.W, ← sub_re, ← mul_sub_one]
    refine (abs_re_le_norm _).trans ?_
    rw [norm_mul, Weak.norm_E, one_mul]
  · have hs : Tendsto (fun ρ => ∑ N ∈ Finset.range 101, ‖Weak.D η ρ N - I‖) atTop (𝓝 0) := by
      have := tendsto_finsetSum (Finset.range 101) fun N _ =>
        ((Weak.D_tendsto η N).sub_const I).norm
      simpa using this
    refine squeeze_zero_norm' ?_ hs
    filter_upwards [eventually_gt_atTop (2 * η + 10)] with ρ hρ
    refine le_trans ?_ (Finset.single_le_sum (f := fun N => ‖Weak.D η ρ N - I‖)
      (fun _ _ => norm_nonneg _) (stop_le h0.le h5.le hρ))
    have e : (Weak.E η (coulombSigma0 η) ρ * I).re = -Real.sin (phase η (coulombSigma0 η) ρ) := by
      rw [E_eq, mul_I_re, exp_im]
    rw [← neg_neg (Real.sin _), ← e, Weak.W', ← sub_eq_add_neg, ← sub_re, ← mul_sub]
    refine (abs_re_le_norm _).trans ?_
    rw [norm_mul, Weak.norm_E, one_mul]

section high
open Riccati2
variable {η : ℝ} (hη : 0 < η)

omit hη in
theorem X_tendsto : Tendsto (X η) atTop (𝓝 0) := by
  have : Tendsto (fun ρ : ℝ => 2 * η * ρ⁻¹) atTop (𝓝 (2 * η * 0)) := tendsto_inv_atTop_zero.const_mul _
  rw [mul_zero] at this
  exact this.congr fun ρ => by rw [X, div_eq_mul_inv]

omit hη in
theorem S_tendsto : Tendsto (S η) atTop (𝓝 1) := by
  have h : Continuous fun x : ℝ => Real.sqrt (1 - x) := by fun_prop
  have := (h.tendsto 0).comp (X_tendsto (η := η))
  rw [sub_zero, Real.sqrt_one] at this
  exact this

omit hη in
theorem Z_tendsto : Tendsto (Z η) atTop (𝓝 (1 / (2 * η))) := by
  have := ((tendsto_const_nhds (x := 1 / (2 * η))).div ((S_tendsto (η := η)).pow 3) (by norm_num))
  rw [one_pow, div_one] at this
  exact this

omit hη in
theorem poly_tendsto {f : ℝ → ℝ → ℝ} (hf : Continuous fun q : ℝ × ℝ => f q.1 q.2) :
    Tendsto (fun ρ => f (Z η ρ) (X η ρ)) atTop (𝓝 (f (1 / (2 * η)) 0)) :=
  (hf.tendsto (1 / (2 * η), 0)).comp ((Z_tendsto (η := η)).prodMk_nhds X_tendsto)

theorem start_high (h5 : 5 ≤ η) (h15 : η < 15) : Start η (high η - Real.pi / 4 + PI_4)
    (fun ρ => amp η ρ * Real.cos (riccati2Phase η (X η ρ)))
    (fun ρ => -(S η ρ * codeP (Z η ρ) (X η ρ) * (amp η ρ * Real.sin (riccati2Phase η (X η ρ)))
       + X η ρ ^ 2 * (Z η ρ * S η ρ / 4 + corr (Z η ρ) (X η ρ))
         * (amp η ρ * Real.cos (riccati2Phase η (X η ρ))))) := by
  have hη : 0 < η := by linarith
  have far : ∀ᶠ ρ : ℝ in atTop, 2 * η < ρ := eventually_gt_atTop _
  have tamp : Tendsto (amp η) atTop (𝓝 1) := by
    have h1 : Tendsto (fun ρ => 1 / Real.sqrt (S η ρ) * Real.exp (psi (Z η ρ) (X η ρ))) atTop
        (𝓝 (1 / Real.sqrt 1 * Real.exp (psi (1 / (2 * η)) 0))) := by
      refine Tendsto.mul (Tendsto.div tendsto_const_nhds
        ((Real.continuous_sqrt.tendsto 1).comp S_tendsto) (by norm_num)) ?_
      refine (Real.continuous_exp.tendsto _).comp (poly_tendsto ?_)
      unfold psi
      fun_prop
    have e : 1 / Real.sqrt 1 * Real.exp (psi (1 / (2 * η)) 0) = 1 := by simp [psi]
    rw [e] at h1
    refine h1.congr' ?_
    filter_upwards [far] with ρ hρ
    rw [amp, exponent_eq' hη hρ]
  have tcode : Tendsto (fun ρ => codeP (Z η ρ) (X η ρ)) atTop (𝓝 1) := by
    have := poly_tendsto (η := η) (f := codeP) (by unfold codeP; fun_prop)
    have e : codeP (1 / (2 * η)) 0 = 1 := by simp [codeP]
    rwa [e] at this
  have tcorr : Tendsto (fun ρ => corr (Z η ρ) (X η ρ)) atTop (𝓝 0) := by
    have := poly_tendsto (η := η) (f := corr) (by unfold corr; fun_prop)
    have e : corr (1 / (2 * η)) 0 = 0 := by simp [corr]
    rwa [e] at this
  have tphi : Tendsto (fun ρ => phi (Z η ρ) (X η ρ)) atTop
      (𝓝 (-1 / (12 * η) - 1 / (360 * η ^ 3) - 1 / (1260 * η ^ 5))) := by
    have := poly_tendsto (η := η) (f := phi) (by unfold phi; fun_prop)
    have e : phi (1 / (2 * η)) 0 = -1 / (12 * η) - 1 / (360 * η ^ 3) - 1 / (1260 * η ^ 5) := by
      simp only [phi]
      field_simp
      ring
    rwa [e] at this
  have tphase : Tendsto (fun ρ => riccati2Phase η (X η ρ) - phase η (high η - Real.pi / 4 + PI_4) ρ)
      atTop (𝓝 0) := by
    have h1 : Tendsto (fun ρ => -(2 * η) / (1 + S η ρ) + η + 2 * η * Real.log 2
        - 2 * η * Real.log (1 + S η ρ) + phi (Z η ρ) (X η ρ)
        - (-1 / (12 * η) - 1 / (360 * η ^ 3) - 1 / (1260 * η ^ 5))) atTop
        (𝓝 (-(2 * η) / (1 + 1) + η + 2 * η * Real.log 2 - 2 * η * Real.log (1 + 1)
          + (-1 / (12 * η) - 1 / (360 * η ^ 3) - 1 / (1260 * η ^ 5))
          - (-1 / (12 * η) - 1 / (360 * η ^ 3) - 1 / (1260 * η ^ 5)))) := by
      have t1 : Tendsto (fun ρ => 1 + S η ρ) atTop (𝓝 (1 + 1)) := S_tendsto.const_add 1
      have t2 : Tendsto (fun ρ => Real.log (1 + S η ρ)) atTop (𝓝 (Real.log (1 + 1))) :=
        t1.log (by norm_num)
      exact ((((((tendsto_const_nhds.div t1 (by norm_num)).add_const η).add_const _).sub
        (t2.const_mul _)).add tphi).sub_const _)
    have e : -(2 * η) / (1 + 1) + η + 2 * η * Real.log 2 - 2 * η * Real.log (1 + 1)
          + (-1 / (12 * η) - 1 / (360 * η ^ 3) - 1 / (1260 * η ^ 5))
          - (-1 / (12 * η) - 1 / (360 * η ^ 3) - 1 / (1260 * η ^ 5)) = 0 := by
      rw [one_add_one_eq_two]; ring
    rw [e] at h1
    refine h1.congr' ?_
    filter_upwards [far] with ρ hρ
    have hρ0 : 0 < ρ := by linarith
    have hs := S_pos hη hρ
    have hs2 := S_sq hη hρ
    have hx := X_pos hη hρ
    have e1 : (1 - S η ρ) / (1 + S η ρ) = 2 * η / ρ / (1 + S η ρ) ^ 2 := by
      have : 2 * η / ρ = (1 - S η ρ) * (1 + S η ρ) := by
        have : (1 - S η ρ) * (1 + S η ρ) = 1 - S η ρ ^ 2 := by ring
        rw [this, hs2, X]; ring
      rw [this]
      field_simp
    have e2 : Real.log ((1 - S η ρ) / (1 + S η ρ))
        = Real.log 2 + Real.log η - Real.log ρ - 2 * Real.log (1 + S η ρ) := by
      rw [e1, Real.log_div (by positivity) (by positivity), Real.log_div (by positivity) (by positivity),
        Real.log_mul (by norm_num) hη.ne', Real.log_pow]
      push_cast; ring
    have e3 : 2 * η * (S η ρ / X η ρ) = ρ - 2 * η / (1 + S η ρ) := by
      have h2 : ρ * (1 - S η ρ ^ 2) = 2 * η := by rw [hs2, X]; field_simp; ring
      rw [X]
      field_simp
      linear_combination -h2
    rw [phase_eq hη hρ, phase, high, e2, Real.log_mul (by norm_num) hρ0.ne']
    norm_num
    linear_combination -e3
  refine ⟨?_, ?_, ?_⟩
  · filter_upwards [eventually_gt_atTop (2.5 * η + 7.5)] with ρ hρ
    rw [startValues_above h5 h15 hρ, case4_eq hη (by linarith)]
  · have hs : Tendsto (fun ρ => |amp η ρ - 1|
        + |riccati2Phase η (X η ρ) - phase η (high η - Real.pi / 4 + PI_4) ρ|) atTop (𝓝 0) := by
      have := ((tamp.sub_const 1).abs).add tphase.abs
      simpa using this
    refine squeeze_zero_norm' (Eventually.of_forall fun ρ => ?_) hs
    beta_reduce
    generalize riccati2Phase η (X η ρ) = a
    generalize phase η (high η - Real.pi / 4 + PI_4) ρ = b
    have e : amp η ρ * Real.cos a - Real.cos b
        = (amp η ρ - 1) * Real.cos a + (Real.cos a - Real.cos b) := by ring
    rw [e, Real.norm_eq_abs]
    refine (abs_add_le _ _).trans (add_le_add ?_ (Real.abs_cos_sub_cos_le a b))
    rw [abs_mul]
    exact mul_le_of_le_one_right (abs_nonneg _) (Real.abs_cos_le_one _)
  · have hs : Tendsto (fun ρ => |S η ρ * codeP (Z η ρ) (X η ρ) * amp η ρ - 1|
        + |riccati2Phase η (X η ρ) - phase η (high η - Real.pi / 4 + PI_4) ρ|
        + |X η ρ ^ 2 * (Z η ρ * S η ρ / 4 + corr (Z η ρ) (X η ρ)) * amp η ρ|) atTop (𝓝 0) := by
      have t1 := ((((S_tendsto (η := η)).mul tcode).mul tamp).sub_const 1).abs
      have t2 := ((((X_tendsto (η := η)).pow 2).mul ((((Z_tendsto (η := η)).mul (S_tendsto (η := η))).div_const 4).add
        tcorr)).mul tamp).abs
      have := (t1.add tphase.abs).add t2
      simpa using this
    refine squeeze_zero_norm' (Eventually.of_forall fun ρ => ?_) hs
    beta_reduce
    generalize riccati2Phase η (X η ρ) = a
    generalize phase η (high η - Real.pi / 4 + PI_4) ρ = b
    generalize S η ρ * codeP (Z η ρ) (X η ρ) = u
    generalize X η ρ ^ 2 * (Z η ρ * S η ρ / 4 + corr (Z η ρ) (X η ρ)) = v
    generalize amp η ρ = m
    have e : -(u * (m * Real.sin a) + v * (m * Real.cos a)) + Real.sin b
        = -((u * m - 1) * Real.sin a) + (Real.sin b - Real.sin a) + -(v * m * Real.cos a) := by ring
    rw [e, Real.norm_eq_abs]
    refine (abs_add_le _ _).trans (add_le_add ((abs_add_le _ _).trans (add_le_add ?_ ?_)) ?_)
    · rw [abs_neg, abs_mul]
      exact mul_le_of_le_one_right (abs_nonneg _) (Real.abs_sin_le_one _)
    · rw [abs_sub_comm]; exact Real.abs_sin_sub_sin_le a b
    · rw [abs_neg, abs_mul]
      exact mul_le_of_le_one_right (abs_nonneg _) (Real.abs_cos_le_one _)

end high

/-- The ladder starts from functions with the phase of the gamma function. -/
theorem start {η : ℝ} (h0 : 0 ≤ η) (h15 : η < 15) : ∃ (s : ℝ) (p p' : ℝ → ℝ), Start η s p p' ∧
    ‖cexp (s * I) - unit (Gamma (1 + η * I))‖ ≤ 1 / 1800000 := by
  rcases eq_or_lt_of_le h0 with rfl | h0
  · refine ⟨0, _, _, start_zero, ?_⟩
    have : unit (Gamma (1 + (0 : ℝ) * I)) = 1 := by
      rw [ofReal_zero, zero_mul, add_zero, Gamma_one, unit]; simp
    rw [this]
    simp
  rcases lt_or_ge η 5 with h5 | h5
  · exact ⟨_, _, _, start_weak h0 h5, sigma_phase η⟩
  · refine ⟨_, _, _, start_high h5 h15, ?_⟩
    have h1 := exp_near (high η - Real.pi / 4 + PI_4) (high η)
    have h2 : |high η - Real.pi / 4 + PI_4 - high η| ≤ 1 / 100000000 := by
      have a1 := Real.pi_gt_d20
      have a2 := Real.pi_lt_d20
      rw [PI_4, abs_le]
      constructor <;> norm_num at a1 a2 ⊢ <;> linarith
    have h3 := high_phase h5
    have := norm_sub_le_norm_sub_add_norm_sub (cexp (((high η - Real.pi / 4 + PI_4 : ℝ) : ℂ) * I))
      (cexp (high η * I)) (unit (Gamma (1 + η * I)))
    linarith

/-! ### The functions at large distance -/

section ladder
variable {η s : ℝ} {p p' : ℝ → ℝ} (h : Waves η s p p')
include h

theorem J_far (l : ℕ) : Tendsto (fun ρ => ‖(p ρ - p' ρ * I : ℂ) * U η l
    - cexp ((phase η s ρ : ℝ) * I) * U η l‖) atTop (𝓝 0) := by
  obtain ⟨h1, h2⟩ := h
  have hs : Tendsto (fun ρ => |p ρ - Real.cos (phase η s ρ)| + |p' ρ + Real.sin (phase η s ρ)|) atTop
      (𝓝 0) := by simpa using h1.abs.add h2.abs
  refine squeeze_zero (fun _ => norm_nonneg _) (fun ρ => ?_) hs
  rw [← sub_mul, norm_mul, norm_U, mul_one]
  have e : (p ρ - p' ρ * I : ℂ) - cexp ((phase η s ρ : ℝ) * I)
      = ((p ρ - Real.cos (phase η s ρ) : ℝ) : ℂ) - ((p' ρ + Real.sin (phase η s ρ) : ℝ) : ℂ) * I := by
    rw [exp_mul_I]
    push_cast
    ring
  rw [e]
  refine (norm_sub_le _ _).trans ?_
  rw [norm_mul, norm_I, mul_one, Complex.norm_real, Complex.norm_real]
  rfl

theorem bounded : ∀ᶠ ρ in atTop, |p ρ| + |p' ρ| ≤ 4 := by
  obtain ⟨h1, h2⟩ := h
  have a1 := h1.abs.eventually_le_const (u := 1) (by simp)
  have a2 := h2.abs.eventually_le_const (u := 1) (by simp)
  filter_upwards [a1, a2] with ρ b1 b2
  have := Real.abs_cos_le_one (phase η s ρ)
  have := Real.abs_sin_le_one (phase η s ρ)
  rw [abs_le] at *
  have c1 : |p ρ| ≤ 2 := abs_le.mpr ⟨by linarith, by linarith⟩
  have c2 : |p' ρ| ≤ 2 := abs_le.mpr ⟨by linarith, by linarith⟩
  linarith

theorem irregular_J (l : ℕ) : Tendsto (fun ρ => irregular ρ η (p ρ) (p' ρ) l - J η (p ρ) (p' ρ) l) atTop
    (𝓝 0) := by
  obtain ⟨K, hK, hb⟩ := irregular_far η l
  have hs : Tendsto (fun ρ : ℝ => K * ρ⁻¹ * 4) atTop (𝓝 0) := by
    have := (tendsto_inv_atTop_zero (𝕜 := ℝ)).const_mul K |>.mul_const 4
    simpa using this
  refine squeeze_zero_norm' ?_ hs
  filter_upwards [bounded h, eventually_ge_atTop 1] with ρ h4 h1
  refine (hb ρ _ _ h1).trans ?_
  rw [div_eq_mul_inv]
  have : 0 ≤ ρ⁻¹ := by positivity
  exact mul_le_mul_of_nonneg_left h4 (by positivity)

theorem value_far (l : ℕ) : Tendsto (fun ρ => irregular ρ η (p ρ) (p' ρ) l
    - (cexp ((phase η s ρ : ℝ) * I) * U η l).re) atTop (𝓝 0) := by
  have h2 : Tendsto (fun ρ => J η (p ρ) (p' ρ) l - (cexp ((phase η s ρ : ℝ) * I) * U η l).re) atTop (𝓝 0) := by
    refine squeeze_zero_norm' (Eventually.of_forall fun ρ => ?_) (J_far h l)
    rw [J, ← sub_re]
    exact abs_re_le_norm _
  have := (irregular_J h l).add h2
  rw [add_zero] at this
  exact this.congr fun ρ => by ring

theorem slope_far (l : ℕ) : Tendsto (fun ρ => coulombDerivative η ρ (irregular ρ η (p ρ) (p' ρ)) l
    + (cexp ((phase η s ρ : ℝ) * I) * U η l).im) atTop (𝓝 0) := by
  have t1 := irregular_J h l
  have t2 := irregular_J h (l + 1)
  have t3 : Tendsto (fun ρ => (cexp ((phase η s ρ : ℝ) * I) * U η l).im
      - ((p ρ - p' ρ * I : ℂ) * U η l).im) atTop (𝓝 0) := by
    refine squeeze_zero_norm' (Eventually.of_forall fun ρ => ?_) (J_far h l)
    rw [← sub_im, norm_sub_rev]
    exact abs_im_le_norm _
  have t4 : Tendsto (fun ρ : ℝ => (l + 1 : ℝ) * ρ⁻¹ * irregular ρ η (p ρ) (p' ρ) l) atTop (𝓝 0) := by
    have hs : Tendsto (fun ρ : ℝ => (l + 1 : ℝ) * ρ⁻¹
        * (|irregular ρ η (p ρ) (p' ρ) l - J η (p ρ) (p' ρ) l| + 4)) atTop (𝓝 0) := by
      have := ((tendsto_inv_atTop_zero (𝕜 := ℝ)).const_mul (l + 1 : ℝ)).mul (t1.abs.add_const 4)
      simpa using this
    refine squeeze_zero_norm' ?_ hs
    filter_upwards [bounded h, eventually_ge_atTop 1] with ρ h4 h1
    have : 0 ≤ ρ⁻¹ := by positivity
    rw [norm_mul, Real.norm_of_nonneg (by positivity)]
    refine mul_le_mul_of_nonneg_left ?_ (by positivity)
    have e : irregular ρ η (p ρ) (p' ρ) l = (irregular ρ η (p ρ) (p' ρ) l - J η (p ρ) (p' ρ) l)
      + J η (p ρ) (p' ρ) l := by ring
    rw [Real.norm_eq_abs]
    nth_rw 1 [e]
    refine (abs_add_le _ _).trans ?_
    linarith [J_bound η (p ρ) (p' ρ) l]
  have hc := (cs_pos η (l := l + 1) (by omega)).ne'
  have := ((t4.add (t1.const_mul (η / (l + 1)))).sub (t2.const_mul (cs η (l + 1) / (l + 1)))).add t3
  simp only [mul_zero, add_zero, sub_zero] at this
  refine this.congr fun ρ => ?_
  have hJ := J_succ η (p ρ) (p' ρ) l
  have hJ0 : ((p ρ - p' ρ * I : ℂ) * U η l).re = J η (p ρ) (p' ρ) l := rfl
  rw [hJ0] at hJ
  have hcs : Real.sqrt ((l + 1 : ℝ) ^ 2 + η ^ 2) = cs η (l + 1) := by rw [cs]; push_cast; rfl
  rw [coulombDerivative, hcs]
  have hl : (l + 1 : ℝ) ≠ 0 := by positivity
  have him : ((p ρ - p' ρ * I : ℂ) * U η l).im
      = (cs η (l + 1) * J η (p ρ) (p' ρ) (l + 1) - η * J η (p ρ) (p' ρ) l) / (l + 1) := by
    field_simp
    linarith
  rw [him]
  field_simp
  ring

end ladder

end Verif.Far
