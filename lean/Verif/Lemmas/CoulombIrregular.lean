import Verif.Spec.CoulombIrregular
import Verif.Lemmas.Newmark
import Verif.Lemmas.CoulombSolution
import Verif.Lemmas.CoulombFar
import Verif.Lemmas.CoulombPhase
import Mathlib.Analysis.Calculus.UniformLimitsDeriv

/-!
# Lemmas about the irregular Coulomb function

Outside of the turning point the amplitude of a solution of the wave equation does not grow inward.
-/

namespace Verif.Irregular

open Filter Topology Set Newmark
open Verif.Phase (unit sigma_phase)

/-! ## The amplitude of a function with a small remainder -/

theorem amplitude_inward {η ρ R c : ℝ} {n : ℕ} {d d' r : ℝ → ℝ} (hη : 0 ≤ η) (h : 2 * η < ρ) (hR : ρ ≤ R)
    (h1 : ∀ x ∈ Icc ρ R, HasDerivAt d (d' x) x)
    (h2 : ∀ x ∈ Icc ρ R, HasDerivAt d' ((2 * η / x - 1) * d x + r x) x)
    (hr : ∀ x ∈ Icc ρ R, |r x| ≤ (n + 1) * c / x ^ (n + 2)) (hc : 0 ≤ c) :
    amplitude η ρ (d ρ) (d' ρ) ≤ amplitude η R (d R) (d' R) + c / ρ ^ (n + 1) := by
  have hρ : 0 < ρ := by linarith
  have pos : ∀ x ∈ Icc ρ R, 0 < x := fun x hx => by linarith [hx.1]
  set En : ℝ → ℝ := fun x => d' x ^ 2 + (1 - 2 * η / x) * d x ^ 2 with hEn
  have hE : ∀ x ∈ Icc ρ R, 0 ≤ (1 - 2 * η / x) * d x ^ 2 := fun x hx => by
    refine mul_nonneg ?_ (sq_nonneg _)
    rw [sub_nonneg, div_le_one (pos x hx)]
    linarith [hx.1]
  have hD : ∀ x ∈ Icc ρ R, HasDerivAt En (2 * d' x * r x + 2 * η / x ^ 2 * d x ^ 2) x := by
    intro x hx
    have hx0 := (pos x hx).ne'
    have e1 := ((h2 x hx).pow 2).add
      ((((hasDerivAt_id x).inv hx0).const_mul (2 * η)).const_sub 1 |>.mul ((h1 x hx).pow 2))
    refine (e1.congr_deriv ?_).congr_of_eventuallyEq ?_
    · simp only [id, Pi.inv_apply, Pi.pow_apply]
      push_cast
      field_simp
      ring
    · exact Eventually.of_forall fun t => by
        simp only [hEn, Pi.add_apply, Pi.mul_apply, Pi.pow_apply, Pi.inv_apply, id, div_eq_mul_inv]
  have key : ∀ ε > 0, amplitude η ρ (d ρ) (d' ρ) ≤ amplitude η R (d R) (d' R) + c / ρ ^ (n + 1) + ε := by
    intro ε hε
    have hB : ∀ x ∈ Icc ρ R, HasDerivAt (fun x : ℝ => c * (x ^ (n + 1))⁻¹) (-((n + 1) * c / x ^ (n + 2))) x := by
      intro x hx
      have hx0 := (pos x hx).ne'
      refine (((hasDerivAt_pow (n + 1) x).inv (pow_ne_zero _ hx0)).const_mul c).congr_deriv ?_
      rw [Nat.add_sub_cancel]
      push_cast
      field_simp
      ring
    have hS : ∀ x ∈ Icc ρ R, HasDerivAt (fun x => Real.sqrt (En x + ε ^ 2))
        ((2 * d' x * r x + 2 * η / x ^ 2 * d x ^ 2) / (2 * Real.sqrt (En x + ε ^ 2))) x := by
      intro x hx
      have hp : 0 < En x + ε ^ 2 := by
        have := hE x hx
        simp only [hEn]
        positivity
      exact ((hD x hx).add_const (ε ^ 2)).sqrt hp.ne'
    have hm := nonneg_of_deriv (p := ρ) (T := R)
      (f := fun x => Real.sqrt (En x + ε ^ 2) - c * (x ^ (n + 1))⁻¹
        - (Real.sqrt (En ρ + ε ^ 2) - c * (ρ ^ (n + 1))⁻¹))
      (fun x hx => ((hS x hx).sub (hB x hx)).sub_const _) (by simp)
      (fun x hx => by
        have hp : 0 < En x + ε ^ 2 := by
          have := hE x hx
          simp only [hEn]
          positivity
        set s := Real.sqrt (En x + ε ^ 2) with hs
        have hs0 : 0 < s := Real.sqrt_pos.mpr hp
        have hd : |d' x| ≤ s := by
          refine Real.abs_le_sqrt ?_
          have := hE x hx
          simp only [hEn]
          nlinarith
        have h3 : -|r x| ≤ (2 * d' x * r x + 2 * η / x ^ 2 * d x ^ 2) / (2 * s) := by
          rw [le_div_iff₀ (by positivity)]
          have h4 : |d' x * r x| ≤ s * |r x| := by
            rw [abs_mul]
            exact mul_le_mul_of_nonneg_right hd (abs_nonneg _)
          have h5 := (abs_le.mp h4).1
          have h6 : 0 ≤ 2 * η / x ^ 2 * d x ^ 2 := by positivity
          linarith
        have h7 := hr x hx
        linarith) (right_mem_Icc.mpr hR)
    have e1 : amplitude η ρ (d ρ) (d' ρ) ≤ Real.sqrt (En ρ + ε ^ 2) := by
      refine Real.sqrt_le_sqrt ?_
      simp only [hEn]
      have := sq_nonneg ε
      linarith
    have e2 : Real.sqrt (En R + ε ^ 2) ≤ amplitude η R (d R) (d' R) + ε := by
      have hE0 : 0 ≤ En R := by
        have := hE R (right_mem_Icc.mpr hR)
        simp only [hEn]
        positivity
      rw [Real.sqrt_le_left (by unfold amplitude; positivity)]
      have e3 : amplitude η R (d R) (d' R) ^ 2 = En R := Real.sq_sqrt hE0
      have e4 : 0 ≤ amplitude η R (d R) (d' R) := Real.sqrt_nonneg _
      nlinarith
    have e5 : 0 ≤ c * (R ^ (n + 1))⁻¹ := by
      have : 0 < R := by linarith
      positivity
    rw [div_eq_mul_inv]
    linarith
  exact le_of_forall_pos_le_add key

/-- The amplitude is at most the norm of the value and the derivative. -/
theorem amplitude_le {η x : ℝ} (hη : 0 ≤ η) (hx : 0 < x) (g d : ℝ) : amplitude η x g d ≤ ‖(⟨g, -d⟩ : ℂ)‖ := by
  rw [Complex.norm_def, Complex.normSq_mk, amplitude]
  refine Real.sqrt_le_sqrt ?_
  have h1 : 0 ≤ 2 * η / x * g ^ 2 := by positivity
  nlinarith

/-- A bound from the behaviour far from the origin. -/
theorem amplitude_of_limit {η ρ b δ : ℝ} {d d' : ℝ → ℝ} {z : ℝ → ℂ} (hη : 0 ≤ η) (h : 2 * η < ρ)
    (hb : ∀ R ≥ ρ, amplitude η ρ (d ρ) (d' ρ) ≤ amplitude η R (d R) (d' R) + b)
    (hz : ∀ R, ‖z R‖ ≤ δ) (l1 : Tendsto (fun R => d R - (z R).re) atTop (𝓝 0))
    (l2 : Tendsto (fun R => d' R + (z R).im) atTop (𝓝 0)) :
    amplitude η ρ (d ρ) (d' ρ) ≤ δ + b := by
  have l : Tendsto (fun R => |d R - (z R).re| + |d' R + (z R).im| + δ + b) atTop (𝓝 (|0| + |0| + δ + b)) :=
    ((l1.abs.add l2.abs).add_const δ).add_const b
  simp only [abs_zero, zero_add] at l
  refine ge_of_tendsto l ?_
  filter_upwards [eventually_ge_atTop ρ] with R hR
  refine (hb R hR).trans (add_le_add_left ?_ b)
  refine (amplitude_le hη (by linarith) _ _).trans ?_
  have e : (⟨d R, -d' R⟩ : ℂ) = (⟨d R - (z R).re, -(d' R + (z R).im)⟩ : ℂ) + z R := by
    apply Complex.ext <;> simp
  rw [e]
  refine (norm_add_le _ _).trans (add_le_add ?_ (hz R))
  refine (Complex.norm_le_abs_re_add_abs_im _).trans ?_
  rw [abs_neg]

/-- The value and the derivative from the amplitude. -/
theorem of_amplitude {η x g d B : ℝ} (hx : 2 * η < x) (hx0 : 0 < x) (h : amplitude η x g d ≤ B) :
    |d| ≤ B ∧ Real.sqrt (1 - 2 * η / x) * |g| ≤ B := by
  have hk : 0 < 1 - 2 * η / x := by
    rw [sub_pos, div_lt_one hx0]
    exact hx
  constructor
  · refine le_trans (Real.abs_le_sqrt ?_) h
    have := mul_nonneg hk.le (sq_nonneg g)
    linarith
  · refine le_trans ?_ h
    rw [← Real.sqrt_sq_eq_abs, ← Real.sqrt_mul hk.le]
    refine Real.sqrt_le_sqrt ?_
    have := sq_nonneg d
    linarith

/-! ## The irregular function -/

theorem norm_outgoing (η x : ℝ) : ‖Spec.outgoing 0 η x‖ = 1 := by
  have hg : Complex.Gamma (((0 : ℕ) : ℂ) + 1 + η * Complex.I) ≠ 0 := by
    refine Complex.Gamma_ne_zero_of_re_pos ?_
    simp
  rw [Spec.outgoing, norm_mul, Complex.norm_exp_ofReal_mul_I, one_mul, norm_div, Complex.norm_real, norm_norm,
    div_self (norm_ne_zero_iff.mpr hg)]

/-- Its amplitude is at most one. -/
theorem amplitude_le_one {η ρ : ℝ} (hη : 0 ≤ η) (h : 2 * η < ρ) {y y' : ℝ → ℝ} (hy : IrregularCoulomb η ρ y y') :
    amplitude η ρ (y ρ) (y' ρ) ≤ 1 := by
  have := amplitude_of_limit (b := 0) (δ := 1) (z := Spec.outgoing 0 η) hη h (fun R hR => by
    have := amplitude_inward (n := 0) (c := 0) (r := 0) hη h hR (fun x hx => (hy.wave x hx.1).1)
      (fun x hx => by simpa using (hy.wave x hx.1).2) (by simp) le_rfl
    simpa using this) (fun R => (norm_outgoing η R).le) hy.value hy.slope
  simpa using this

/-- The amplitude of the difference of two solutions does not grow inward. -/
theorem amplitude_sub {η ρ R : ℝ} (hη : 0 ≤ η) (h : 2 * η < ρ) (hR : ρ ≤ R) {y y' z z' : ℝ → ℝ}
    (hy : CoulombSolution η ρ R y y') (hz : CoulombSolution η ρ R z z') :
    amplitude η ρ (y ρ - z ρ) (y' ρ - z' ρ) ≤ amplitude η R (y R - z R) (y' R - z' R) := by
  have := amplitude_inward (n := 0) (c := 0) (r := 0) (d := fun x => y x - z x) (d' := fun x => y' x - z' x)
    hη h hR (fun x hx => (hy x hx).1.sub (hz x hx).1)
    (fun x hx => ((hy x hx).2.sub (hz x hx).2).congr_deriv (by simp; ring)) (by simp) le_rfl
  simpa using this

/-- There is at most one. -/
theorem unique {η ρ : ℝ} (hη : 0 ≤ η) (h : 2 * η < ρ) {y y' z z' : ℝ → ℝ} (hy : IrregularCoulomb η ρ y y')
    (hz : IrregularCoulomb η ρ z z') : ∀ x ≥ ρ, y x = z x ∧ y' x = z' x := by
  intro x hx
  have := amplitude_of_limit (ρ := x) (b := 0) (δ := 0) (z := fun _ => 0) (d := fun x => y x - z x)
    (d' := fun x => y' x - z' x) hη (by linarith) (fun R hR => by
      have := amplitude_sub hη (by linarith) hR (fun t ht => hy.wave t (hx.le.trans ht.1))
        (fun t ht => hz.wave t (hx.le.trans ht.1))
      simpa using this) (by simp)
    (by simpa using hy.value.sub hz.value) (by simpa using hy.slope.sub hz.slope)
  rw [add_zero] at this
  obtain ⟨h1, h2⟩ := of_amplitude (by linarith) (by linarith) this
  have hk : 0 < Real.sqrt (1 - 2 * η / x) := by
    rw [Real.sqrt_pos, sub_pos, div_lt_one (by linarith)]
    linarith
  have h3 := nonpos_of_mul_nonpos_right h2 hk
  exact ⟨sub_eq_zero.mp (abs_nonpos_iff.mp h3), sub_eq_zero.mp (abs_nonpos_iff.mp h1)⟩

/-! ## The series of the code -/

/-- The phase of the outgoing wave. -/
noncomputable def angle (η : ℝ) : ℝ := (Complex.Gamma (1 + η * Complex.I)).arg

theorem outgoing_eq (η x : ℝ) : Spec.outgoing 0 η x
    = Complex.exp (((x - η * Real.log (2 * x) : ℝ) : ℂ) * Complex.I) * unit (Complex.Gamma (1 + η * Complex.I)) := by
  rw [Spec.outgoing, unit]
  simp

theorem unit_eq (η : ℝ) : unit (Complex.Gamma (1 + η * Complex.I)) = Complex.exp (angle η * Complex.I) := by
  have hg : Complex.Gamma (1 + η * Complex.I) ≠ 0 := by
    refine Complex.Gamma_ne_zero_of_re_pos ?_
    simp
  have hn : (‖Complex.Gamma (1 + η * Complex.I)‖ : ℂ) ≠ 0 := by
    exact_mod_cast norm_ne_zero_iff.mpr hg
  rw [unit, div_eq_iff hn, angle, mul_comm (Complex.exp _), Complex.norm_mul_exp_arg_mul_I]

theorem E_split (η s x : ℝ) : Weak.E η s x
    = Complex.exp (((x - η * Real.log (2 * x) : ℝ) : ℂ) * Complex.I) * Complex.exp (s * Complex.I) := by
  rw [Weak.E, Weak.phase, ← Complex.exp_add]
  congr 1
  push_cast
  ring

theorem outgoing_E (η x : ℝ) : Spec.outgoing 0 η x = Weak.E η (angle η) x := by
  rw [outgoing_eq, unit_eq, E_split]

theorem W_limit (η s : ℝ) (N : ℕ) :
    Tendsto (fun x => (Weak.W η s N x).re - (Weak.E η s x).re) atTop (𝓝 0) ∧
    Tendsto (fun x => (Weak.W' η s N x).re + (Weak.E η s x).im) atTop (𝓝 0) := by
  constructor
  · have h := ((Weak.F_tendsto η N).sub_const 1).norm
    rw [sub_self, norm_zero] at h
    refine squeeze_zero_norm (fun x => ?_) h
    rw [Real.norm_eq_abs, ← Complex.sub_re, Weak.W, ← mul_sub_one]
    refine (Complex.abs_re_le_norm _).trans ?_
    rw [norm_mul, Weak.norm_E, one_mul]
  · have h := ((Weak.D_tendsto η N).sub_const Complex.I).norm
    rw [sub_self, norm_zero] at h
    refine squeeze_zero_norm (fun x => ?_) h
    have e : (Weak.W' η s N x).re + (Weak.E η s x).im = (Weak.E η s x * (Weak.D η x N - Complex.I)).re := by
      rw [Weak.W', mul_sub, Complex.sub_re, Complex.mul_I_re]
      ring
    rw [Real.norm_eq_abs, e]
    refine (Complex.abs_re_le_norm _).trans ?_
    rw [norm_mul, Weak.norm_E, one_mul]

/-- The remainder of the series in the wave equation. -/
noncomputable def rest (η s : ℝ) (N : ℕ) (x : ℝ) : ℝ :=
  (Weak.E η s x * (2 * Complex.I * (N + 1) / x * Weak.term η x (N + 1))).re

theorem rest_le {η s x : ℝ} (hx : 0 < x) (N : ℕ) :
    |rest η s N x| ≤ (N + 1) * (2 * ‖Weak.coef η (N + 1)‖) / x ^ (N + 2) := by
  refine (Complex.abs_re_le_norm _).trans ?_
  have hN : ‖(N : ℂ) + 1‖ = N + 1 := by
    have : ((N : ℂ) + 1) = ((N + 1 : ℝ) : ℂ) := by push_cast; ring
    rw [this, Complex.norm_real, Real.norm_of_nonneg (by positivity)]
  rw [norm_mul, Weak.norm_E, one_mul, norm_mul, norm_div, norm_mul, norm_mul, Complex.norm_I, hN,
    Weak.term_norm_eq hx, Complex.norm_real, Real.norm_of_nonneg hx.le]
  norm_num
  rw [div_mul_div_comm, ← pow_succ']
  exact le_of_eq (by ring_nf)

theorem W_wave {η s x : ℝ} (hx : 0 < x) (N : ℕ) : HasDerivAt (fun x => (Weak.W η s N x).re) (Weak.W' η s N x).re x ∧
    HasDerivAt (fun x => (Weak.W' η s N x).re) ((2 * η / x - 1) * (Weak.W η s N x).re + rest η s N x) x := by
  refine ⟨Weak.re_deriv (Weak.W_deriv hx N), (Weak.re_deriv (Weak.W'_deriv hx N)).congr_deriv ?_⟩
  have hq : ((2 * η / x - 1 : ℂ)) = ((2 * η / x - 1 : ℝ) : ℂ) := by push_cast; ring
  rw [hq, Complex.add_re, Complex.re_ofReal_mul, rest]

/-- The sum of the series is close to the irregular function. -/
theorem series_near {η ρ : ℝ} (h0 : 0 < η) (h5 : η ≤ 5) (hρ : 2 * η + 10 ≤ ρ) {y y' : ℝ → ℝ}
    (hy : IrregularCoulomb η ρ y y') :
    amplitude η ρ ((Weak.W η (coulombSigma0 η) (Weak.stop η ρ 100 0) ρ).re - y ρ)
      ((Weak.W' η (coulombSigma0 η) (Weak.stop η ρ 100 0) ρ).re - y' ρ) ≤ 1e-6 := by
  have hN := Weak.count h0.le h5 hρ
  set N := Weak.stop η ρ 100 0
  set s := coulombSigma0 η
  have hρ0 : 0 < ρ := by linarith
  obtain ⟨w1, w2⟩ := W_limit η s N
  have hlim := amplitude_of_limit (η := η) (ρ := ρ) (b := 2 * ‖Weak.coef η (N + 1)‖ / ρ ^ (N + 1))
    (δ := 1 / 1800000) (d := fun x => (Weak.W η s N x).re - y x) (d' := fun x => (Weak.W' η s N x).re - y' x)
    (z := fun x => Weak.E η s x - Spec.outgoing 0 η x) h0.le (by linarith)
    (fun R hR => amplitude_inward (r := rest η s N) h0.le (by linarith) hR
      (fun x hx => (W_wave (by linarith [hx.1]) N).1.sub (hy.wave x hx.1).1)
      (fun x hx => ((W_wave (by linarith [hx.1]) N).2.sub (hy.wave x hx.1).2).congr_deriv (by simp only [Pi.sub_apply]; ring))
      (fun x hx => rest_le (by linarith [hx.1]) N) (by positivity))
    (fun R => by
      rw [E_split, outgoing_eq, ← mul_sub, norm_mul, Complex.norm_exp_ofReal_mul_I, one_mul]
      exact sigma_phase η)
    (by
      have := w1.sub hy.value
      rw [sub_zero] at this
      refine this.congr fun x => ?_
      rw [Complex.sub_re]
      ring)
    (by
      have := w2.sub hy.slope
      rw [sub_zero] at this
      refine this.congr fun x => ?_
      rw [Complex.sub_im]
      ring)
  have hn := hN.next
  rw [Weak.term_norm_eq hρ0] at hn
  refine hlim.trans ?_
  rw [mul_div_assoc]
  norm_num
  linarith

/-! ## Existence -/

/-- There is such a function. -/
theorem exists_irregular {η b : ℝ} (hη : 0 ≤ η) (hb : 2 * η < b) : ∃ y y' : ℝ → ℝ, IrregularCoulomb η b y y' := by
  obtain ⟨a, ha1, ha2⟩ := exists_between hb
  have ha0 : 0 < a := by linarith
  set s := angle η
  set C := 2 * ‖Weak.coef η (0 + 1)‖ with hC
  have hC0 : 0 ≤ C := by positivity
  set w : ℝ → ℝ := fun x => (Weak.W η s 0 x).re with hw
  set w' : ℝ → ℝ := fun x => (Weak.W' η s 0 x).re with hw'
  have hsol (n : ℕ) := exists_coulomb_solution (η := η) (ρ := a) (a := a + n) ha0 (by simp) (w (a + n)) (w' (a + n))
  choose z z' hz1 hz2 hz3 using hsol
  set κ := Real.sqrt (1 - 2 * η / a) with hκ
  have hk0 : 0 < κ := by
    rw [hκ, Real.sqrt_pos, sub_pos, div_lt_one ha0]
    exact ha1
  -- each solution is close to the leading term of the series
  have near : ∀ (n : ℕ) (x : ℝ), x ∈ Icc a (a + n) → amplitude η x (z n x - w x) (z' n x - w' x) ≤ C / x := by
    intro n x hx
    have := amplitude_inward (n := 0) (c := C) (r := fun x => -rest η s 0 x) (d := fun x => z n x - w x)
      (d' := fun x => z' n x - w' x) hη (by linarith [hx.1]) hx.2
      (fun t ht => (hz3 n t ⟨hx.1.trans ht.1, ht.2⟩).1.sub (W_wave (by linarith [hx.1, ht.1]) 0).1)
      (fun t ht => ((hz3 n t ⟨hx.1.trans ht.1, ht.2⟩).2.sub
        (W_wave (by linarith [hx.1, ht.1]) 0).2).congr_deriv (by simp only [hw]; ring))
      (fun t ht => by
        rw [abs_neg]
        exact rest_le (by linarith [hx.1, ht.1]) 0) hC0
    rw [hz1, hz2] at this
    simpa [amplitude] using this
  -- two of them are close to each other
  have cauchy : ∀ n m : ℕ, n ≤ m → ∀ x ∈ Icc a (a + n),
      amplitude η x (z m x - z n x) (z' m x - z' n x) ≤ C / (a + n) := by
    intro n m hnm x hx
    have hnm' : (n : ℝ) ≤ m := by exact_mod_cast hnm
    have h1 := amplitude_sub (y := z m) (y' := z' m) (z := z n) (z' := z' n) hη (by linarith [hx.1]) hx.2
      (fun t ht => hz3 m t ⟨hx.1.trans ht.1, by linarith [ht.2]⟩)
      (fun t ht => hz3 n t ⟨hx.1.trans ht.1, ht.2⟩)
    rw [hz1 n, hz2 n] at h1
    exact h1.trans (near m (a + n) ⟨by simp, by linarith⟩)
  have bound : ∀ {x g d B : ℝ}, a ≤ x → amplitude η x g d ≤ B → |d| ≤ B ∧ |g| ≤ B / κ := by
    intro x g d B hx h
    obtain ⟨h1, h2⟩ := of_amplitude (by linarith) (by linarith) h
    refine ⟨h1, ?_⟩
    rw [le_div_iff₀ hk0, mul_comm]
    refine le_trans (mul_le_mul_of_nonneg_right (Real.sqrt_le_sqrt ?_) (abs_nonneg g)) h2
    have : 2 * η / x ≤ 2 * η / a := div_le_div_of_nonneg_left (by linarith) ha0 hx
    linarith
  have hlim : Tendsto (fun n : ℕ => C / (a + n)) atTop (𝓝 0) :=
    tendsto_const_nhds.div_atTop (tendsto_atTop_add_const_left atTop a tendsto_natCast_atTop_atTop)
  have hlimκ : Tendsto (fun n : ℕ => C / (a + n) / κ) atTop (𝓝 0) := by
    have := hlim.div_const κ
    rwa [zero_div] at this
  have large (x : ℝ) : ∃ n₀ : ℕ, ∀ n ≥ n₀, x ≤ a + n := by
    obtain ⟨n₀, h⟩ := exists_nat_ge (x - a)
    refine ⟨n₀, fun n hn => ?_⟩
    have : (n₀ : ℝ) ≤ n := by exact_mod_cast hn
    linarith
  have conv (f : ℕ → ℝ → ℝ) (B : ℕ → ℝ) (hB : Tendsto B atTop (𝓝 0))
      (h : ∀ n m : ℕ, n ≤ m → ∀ x ∈ Icc a (a + n), |f m x - f n x| ≤ B n) :
      ∃ y : ℝ → ℝ, (∀ x ≥ a, Tendsto (fun n => f n x) atTop (𝓝 (y x))) ∧
        ∀ n : ℕ, ∀ x ∈ Icc a (a + n), |y x - f n x| ≤ B n := by
    have hc : ∀ x : ℝ, ∃ l, a ≤ x → Tendsto (fun n => f n x) atTop (𝓝 l) := by
      intro x
      by_cases hx : a ≤ x
      · obtain ⟨n₀, hn₀⟩ := large x
        have : CauchySeq fun n => f n x := by
          rw [Metric.cauchySeq_iff']
          intro ε hε
          obtain ⟨n₁, h₁⟩ := (hB.eventually_lt_const hε).exists_forall_of_atTop
          refine ⟨max n₀ n₁, fun n hn => ?_⟩
          rw [Real.dist_eq]
          exact (h _ n hn x ⟨hx, hn₀ _ (le_max_left _ _)⟩).trans_lt (h₁ _ (le_max_right _ _))
        obtain ⟨l, hl⟩ := cauchySeq_tendsto_of_complete this
        exact ⟨l, fun _ => hl⟩
      · exact ⟨0, fun h => absurd h hx⟩
    choose y hy using hc
    refine ⟨y, fun x hx => hy x hx, fun n x hx => ?_⟩
    refine le_of_tendsto (((hy x hx.1).sub_const (f n x)).abs) ?_
    filter_upwards [eventually_ge_atTop n] with m hm
    exact h n m hm x hx
  obtain ⟨y, y1, y2⟩ := conv z _ hlimκ fun n m hnm x hx => (bound hx.1 (cauchy n m hnm x hx)).2
  obtain ⟨y', y1', y2'⟩ := conv z' _ hlim fun n m hnm x hx => (bound hx.1 (cauchy n m hnm x hx)).1
  have unif (f : ℕ → ℝ → ℝ) (B : ℕ → ℝ) (hB : Tendsto B atTop (𝓝 0)) (g : ℝ → ℝ)
      (h : ∀ n : ℕ, ∀ x ∈ Icc a (a + n), |g x - f n x| ≤ B n) (X : ℝ) :
      TendstoUniformlyOn f g atTop (Ioo a X) := by
    rw [Metric.tendstoUniformlyOn_iff]
    intro ε hε
    obtain ⟨n₀, hn₀⟩ := large X
    filter_upwards [hB.eventually_lt_const hε, eventually_ge_atTop n₀] with n hn hnn x hx
    rw [Real.dist_eq]
    exact (h n x ⟨hx.1.le, hx.2.le.trans (hn₀ n hnn)⟩).trans_lt hn
  have onIoo (X : ℝ) : ∀ᶠ n : ℕ in atTop, ∀ x ∈ Ioo a X, x ∈ Icc a (a + n) := by
    obtain ⟨n₀, hn₀⟩ := large X
    filter_upwards [eventually_ge_atTop n₀] with n hn x hx
    exact ⟨hx.1.le, hx.2.le.trans (hn₀ n hn)⟩
  refine ⟨y, y', ⟨fun x hx => ⟨?_, ?_⟩, ?_, ?_⟩⟩
  · refine hasDerivAt_of_tendstoUniformlyOn (isOpen_Ioo (a := a) (b := x + 1)) (unif z' _ hlim y' y2' (x + 1)) ?_
      (fun t ht => y1 t ht.1.le) ⟨by linarith [hx], by linarith⟩
    filter_upwards [onIoo (x + 1)] with n hn t ht
    exact (hz3 n t (hn t ht)).1
  · refine hasDerivAt_of_tendstoUniformlyOn (isOpen_Ioo (a := a) (b := x + 1))
      (f' := fun n x => (2 * η / x - 1) * z n x) (g' := fun x => (2 * η / x - 1) * y x)
      (unif _ (fun n => 1 * (C / (a + n) / κ)) (by simpa using hlimκ) _ ?_ (x + 1)) ?_
      (fun t ht => y1' t ht.1.le) ⟨by linarith [hx], by linarith⟩
    · intro n t ht
      rw [← mul_sub, abs_mul]
      refine mul_le_mul ?_ (y2 n t ht) (abs_nonneg _) zero_le_one
      have ht0 : 0 < t := by linarith [ht.1]
      have h1 : 2 * η / t ≤ 1 := by
        rw [div_le_one ht0]
        linarith [ht.1]
      have h2 : 0 ≤ 2 * η / t := by positivity
      rw [abs_le]
      constructor <;> linarith
    · filter_upwards [onIoo (x + 1)] with n hn t ht
      exact (hz3 n t (hn t ht)).2
  · have h1 : Tendsto (fun x : ℝ => C / x / κ) atTop (𝓝 0) := by
      have := (tendsto_const_nhds (x := C)).div_atTop (tendsto_id (α := ℝ) (x := atTop)) |>.div_const κ
      rw [zero_div] at this
      exact this
    have h2 : Tendsto (fun x => y x - w x) atTop (𝓝 0) := by
      refine squeeze_zero_norm' ?_ h1
      filter_upwards [eventually_ge_atTop a] with x hx
      refine le_of_tendsto (((y1 x hx).sub_const (w x)).abs) ?_
      obtain ⟨n₀, hn₀⟩ := large x
      filter_upwards [eventually_ge_atTop n₀] with n hn
      exact (bound hx (near n x ⟨hx, hn₀ n hn⟩)).2
    have := h2.add (W_limit η s 0).1
    rw [add_zero] at this
    refine this.congr fun x => ?_
    rw [outgoing_E]
    simp only [hw]
    ring
  · have h1 : Tendsto (fun x : ℝ => C / x) atTop (𝓝 0) :=
      (tendsto_const_nhds (x := C)).div_atTop (tendsto_id (α := ℝ) (x := atTop))
    have h2 : Tendsto (fun x => y' x - w' x) atTop (𝓝 0) := by
      refine squeeze_zero_norm' ?_ h1
      filter_upwards [eventually_ge_atTop a] with x hx
      refine le_of_tendsto (((y1' x hx).sub_const (w' x)).abs) ?_
      obtain ⟨n₀, hn₀⟩ := large x
      filter_upwards [eventually_ge_atTop n₀] with n hn
      exact (bound hx (near n x ⟨hx, hn₀ n hn⟩)).1
    have := h2.add (W_limit η s 0).2
    rw [add_zero] at this
    refine this.congr fun x => ?_
    rw [outgoing_E]
    simp only [hw']
    ring

end Verif.Irregular
