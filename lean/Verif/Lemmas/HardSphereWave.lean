import Verif.Lemmas.HardSphere
import Mathlib.Analysis.Calculus.Deriv.Polynomial
import Mathlib.Topology.Algebra.Polynomial
import Mathlib.Analysis.Calculus.Deriv.Inv
import Mathlib.Analysis.Calculus.Deriv.Mul
import Mathlib.Analysis.SpecialFunctions.ExpDeriv

namespace Verif

open Spec Complex Polynomial Filter Topology

/-- Polynomial part of the outgoing wave. -/
noncomputable def hsQ (l : ℕ) : ℂ[X] :=
  match l with
  | 0 => 1
  | 1 => 1 - C I * X
  | 2 => C 3 - X ^ 2 - C (3 * I) * X
  | 3 => C 15 - C 6 * X ^ 2 - C I * X * (C 15 - X ^ 2)
  | _ => C 105 - C 45 * X ^ 2 + X ^ 4 - C I * X * (C 105 - C 10 * X ^ 2)

/-- Polynomial part of its derivative. -/
noncomputable def hsW (l : ℕ) : ℂ[X] := X * (C I * hsQ l + derivative (hsQ l)) - C (l : ℂ) * hsQ l

theorem hsW_step {l : ℕ} (hl : l ≤ 4) :
    X * (C I * hsW l + derivative (hsW l)) - C (l + 1 : ℂ) * hsW l
      = (C (l * (l + 1) : ℂ) - X ^ 2) * hsQ l := by
  have hI : (C I : ℂ[X]) ^ 2 = -1 := by rw [← C_pow, I_sq]; simp
  have h3 : (C (3 * I) : ℂ[X]) = 3 * C I := by rw [C_mul]; rfl
  obtain h | h | h | h | h : l = 0 ∨ l = 1 ∨ l = 2 ∨ l = 3 ∨ l = 4 := by omega
  all_goals subst h; simp only [hsQ, hsW, h3, derivative_sub, derivative_mul,
    derivative_C, derivative_X, derivative_X_pow, derivative_one, Nat.cast_zero, Nat.cast_one,
    Nat.cast_ofNat, map_zero, map_one, map_mul, map_add, map_ofNat, derivative_ofNat]
  · grind
  · grind
  · grind
  · grind
  · grind


/-- The outgoing wave and its derivative. -/
noncomputable def hsU (l : ℕ) (r : ℝ) : ℂ := exp (I * r) * ((hsQ l).eval (r : ℂ) / (r : ℂ) ^ l)

noncomputable def hsU' (l : ℕ) (r : ℝ) : ℂ :=
  exp (I * r) * ((hsW l).eval (r : ℂ) / (r : ℂ) ^ (l + 1))

theorem hasDerivAt_wave (q : ℂ[X]) (l : ℕ) {r : ℝ} (hr : 0 < r) :
    HasDerivAt (fun r : ℝ => exp (I * r) * (q.eval (r : ℂ) / (r : ℂ) ^ l))
      (exp (I * r) * ((X * (C I * q + derivative q) - C (l : ℂ) * q).eval (r : ℂ)
        / (r : ℂ) ^ (l + 1))) r := by
  have hr' : (r : ℂ) ≠ 0 := by exact_mod_cast hr.ne'
  have h1 : HasDerivAt (fun z : ℂ => exp (I * z)) (exp (I * r) * I) (r : ℂ) := by
    have := ((hasDerivAt_id (r : ℂ)).const_mul I).cexp
    simpa using this
  have h2 := q.hasDerivAt (r : ℂ)
  have h3 : HasDerivAt (fun z : ℂ => z ^ l) ((l : ℂ) * (r : ℂ) ^ (l - 1)) (r : ℂ) :=
    hasDerivAt_pow l (r : ℂ)
  have h := (h1.mul (h2.div h3 (pow_ne_zero l hr'))).comp_ofReal
  refine HasDerivAt.congr_deriv h ?_
  simp only [eval_sub, eval_mul, eval_add, eval_X, eval_C]
  have hp : (l : ℂ) * (r : ℂ) ^ (l - 1) * r = l * (r : ℂ) ^ l := by
    rcases l with _ | l
    · simp
    · rw [mul_assoc, ← pow_succ]; rfl
  have hp' : (l : ℂ) * (r : ℂ) ^ (l - 1) = l * (r : ℂ) ^ l / r := by
    rw [eq_div_iff hr', hp]
  have hval : ((fun x : ℂ => eval x q) / fun z : ℂ => z ^ l) (r : ℂ)
      = eval (r : ℂ) q / (r : ℂ) ^ l := rfl
  rw [hp', hval]
  clear h hval h3
  have hl := pow_ne_zero l hr'
  rw [pow_succ (r : ℂ) l]
  generalize (r : ℂ) ^ l = p at *
  field_simp
  ring

theorem hsQ_eval {l : ℕ} (hl : l ≤ 4) (r : ℝ) :
    (hsQ l).eval (r : ℂ) = hsY l r - I * hsX l r := by
  interval_cases l <;> simp [hsQ, hsX, hsY] <;> ring

theorem quotient_aux (a b d : ℝ) (q w : ℂ) (hd : 0 < d) (h : w * (d : ℂ) = (a + I * b) * q) :
    w = (((a / d : ℝ) : ℂ) + I * ((b / d : ℝ) : ℂ)) * q := by
  have hd' : (d : ℂ) ≠ 0 := by exact_mod_cast hd.ne'
  apply mul_right_cancel₀ hd'
  rw [h]
  push_cast
  field_simp

theorem hsW_eval {l : ℕ} (hl : l ≤ 4) (r : ℝ) :
    (hsW l).eval (r : ℂ) = (hsS l r + I * hsP l r) * (hsQ l).eval (r : ℂ) := by
  have hI := I_sq
  obtain h | h | h | h | h : l = 0 ∨ l = 1 ∨ l = 2 ∨ l = 3 ∨ l = 4 := by omega
  · subst h; simp [hsQ, hsW, hsP, hsS]
  · subst h
    refine quotient_aux _ _ _ _ _ (d1_pos r) ?_
    simp [hsQ, hsW]
    grind
  · subst h
    refine quotient_aux _ _ _ _ _ (d2_pos r) ?_
    simp [hsQ, hsW]
    grind
  · subst h
    refine quotient_aux _ _ _ _ _ (d3_pos r) ?_
    simp [hsQ, hsW]
    grind
  · subst h
    refine quotient_aux _ _ _ _ _ (d4_pos r) ?_
    simp [hsQ, hsW]
    grind


theorem tendsto_of_inv (f : ℝ → ℂ) (p : ℂ[X]) (h : ∀ r : ℝ, 0 < r → f r = p.eval ((r : ℂ)⁻¹)) :
    Tendsto f atTop (𝓝 (p.eval 0)) := by
  have h1 : Tendsto (fun r : ℝ => ((r : ℂ))⁻¹) atTop (𝓝 0) := by
    have := (Complex.continuous_ofReal.tendsto 0).comp tendsto_inv_atTop_zero
    simpa [Function.comp_def] using this
  refine ((p.continuous.tendsto 0).comp h1).congr' ?_
  filter_upwards [eventually_gt_atTop (0 : ℝ)] with r hr
  exact (h r hr).symm

theorem hsU_tendsto {l : ℕ} (hl : l ≤ 4) :
    Tendsto (fun r : ℝ => hsU l r * exp (-(I * r))) atTop (𝓝 ((-I) ^ l)) := by
  have e : ∀ r : ℝ, hsU l r * exp (-(I * r)) = (hsQ l).eval (r : ℂ) / (r : ℂ) ^ l := by
    intro r
    rw [hsU, mul_comm, ← mul_assoc, ← exp_add]
    simp
  simp only [e]
  have hI := I_sq
  obtain h | h | h | h | h : l = 0 ∨ l = 1 ∨ l = 2 ∨ l = 3 ∨ l = 4 := by omega
  · subst h
    simp [hsQ]
  · subst h
    convert tendsto_of_inv _ (X - C I) ?_ using 2
    · simp
    · intro r hr
      have hr' : (r : ℂ) ≠ 0 := by exact_mod_cast hr.ne'
      simp [hsQ]
      field_simp
  · subst h
    convert tendsto_of_inv _ (C 3 * X ^ 2 - 1 - C (3 * I) * X) ?_ using 2
    · simp
    · intro r hr
      have hr' : (r : ℂ) ≠ 0 := by exact_mod_cast hr.ne'
      simp [hsQ]
      field_simp
  · subst h
    convert tendsto_of_inv _ (C 15 * X ^ 3 - C 6 * X - C I * (C 15 * X ^ 2 - 1)) ?_ using 2
    · simp [pow_succ]
    · intro r hr
      have hr' : (r : ℂ) ≠ 0 := by exact_mod_cast hr.ne'
      simp [hsQ]
      field_simp
  · subst h
    convert tendsto_of_inv _
      (C 105 * X ^ 4 - C 45 * X ^ 2 + 1 - C I * (C 105 * X ^ 3 - C 10 * X)) ?_ using 2
    · simp [pow_succ]
    · intro r hr
      have hr' : (r : ℂ) ≠ 0 := by exact_mod_cast hr.ne'
      simp [hsQ]
      field_simp

theorem exp_two_I_arccos (G F N : ℝ) (hN : 0 < N) (hsq : N ^ 2 = F * F + G * G) :
    exp (2 * I * Real.arccos (G / N)) = (G + I * |F|) ^ 2 / (N : ℂ) ^ 2 := by
  have hN' : (N : ℂ) ≠ 0 := by exact_mod_cast hN.ne'
  have h1 : -1 ≤ G / N := by rw [le_div_iff₀ hN]; nlinarith [sq_nonneg F, sq_nonneg (G + N)]
  have h2 : G / N ≤ 1 := by rw [div_le_iff₀ hN]; nlinarith [sq_nonneg F, sq_nonneg (G - N)]
  have hsin : Real.sin (Real.arccos (G / N)) = |F| / N := by
    rw [Real.sin_arccos, show 1 - (G / N) ^ 2 = (F / N) ^ 2 by field_simp; nlinarith,
      Real.sqrt_sq_eq_abs, abs_div, abs_of_pos hN]
  rw [show (2 : ℂ) * I * Real.arccos (G / N)
      = Real.arccos (G / N) * I + Real.arccos (G / N) * I by ring, exp_add, exp_mul_I,
    ← ofReal_cos, ← ofReal_sin, hsin, Real.cos_arccos h1 h2]
  push_cast
  field_simp

end Verif
