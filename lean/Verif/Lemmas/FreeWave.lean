import Mathlib.Analysis.SpecialFunctions.Integrals.Basic
import Mathlib.Analysis.SpecialFunctions.Exponential
import Verif.Props.Coulomb

/-!
# The wave functions without a field

The regular functions are bounded in the angular momentum, by Poisson's integral. The integral and its recurrence
are those of the proof that `π` is irrational in Mathlib.
-/

namespace Verif.Free

open intervalIntegral MeasureTheory.MeasureSpace Set Real

/-- Poisson's integral, without its factor. -/
noncomputable def poisson (n : ℕ) (ρ : ℝ) : ℝ := ∫ x in (-1)..1, (1 - x ^ 2) ^ n * cos (x * ρ)

theorem poisson_zero (ρ : ℝ) : poisson 0 ρ * ρ = 2 * sin ρ := by
  rw [mul_comm, poisson]
  simp [mul_integral_comp_mul_right, two_mul]

theorem poisson_step (n : ℕ) (θ : ℝ) :
    poisson (n + 1) θ * θ ^ 2 = - (2 * 2 * ((n + 1) * (0 ^ n * cos θ))) +
      2 * (n + 1) * (2 * n + 1) * poisson n θ - 4 * (n + 1) * n * poisson (n - 1) θ := by
  rw [poisson]
  let f (x : ℝ) : ℝ := 1 - x ^ 2
  let u₁ (x : ℝ) : ℝ := f x ^ (n + 1)
  let u₁' (x : ℝ) : ℝ := - (2 * (n + 1) * x * f x ^ n)
  let v₁ (x : ℝ) : ℝ := sin (x * θ)
  let v₁' (x : ℝ) : ℝ := cos (x * θ) * θ
  let u₂ (x : ℝ) : ℝ := x * (f x) ^ n
  let u₂' (x : ℝ) : ℝ := (f x) ^ n - 2 * n * x ^ 2 * (f x) ^ (n - 1)
  let v₂ (x : ℝ) : ℝ := cos (x * θ)
  let v₂' (x : ℝ) : ℝ := -sin (x * θ) * θ
  have hfd : Continuous f := by fun_prop
  have hu₁d : Continuous u₁' := by fun_prop
  have hv₁d : Continuous v₁' := by fun_prop
  have hu₂d : Continuous u₂' := by fun_prop
  have hv₂d : Continuous v₂' := by fun_prop
  have hu₁_eval_one : u₁ 1 = 0 := by simp only [u₁, f]; simp
  have hu₁_eval_neg_one : u₁ (-1) = 0 := by simp only [u₁, f]; simp
  have t : u₂ 1 * v₂ 1 - u₂ (-1) * v₂ (-1) = 2 * (0 ^ n * cos θ) := by simp [u₂, v₂, f, ← two_mul]
  have hf (x) : HasDerivAt f (- 2 * x) x := by
    convert! (hasDerivAt_pow 2 x).const_sub 1 using 1
    simp
  have hu₁ (x) : HasDerivAt u₁ (u₁' x) x := by
    convert! (hf x).pow _ using 1
    simp only [Nat.add_succ_sub_one, u₁', Nat.cast_add_one]
    ring
  have hv₁ (x) : HasDerivAt v₁ (v₁' x) x := (hasDerivAt_mul_const θ).sin
  have hu₂ (x) : HasDerivAt u₂ (u₂' x) x := by
    convert! (hasDerivAt_id' x).fun_mul ((hf x).fun_pow _) using 1
    simp only [u₂']
    ring
  have hv₂ (x) : HasDerivAt v₂ (v₂' x) x := (hasDerivAt_mul_const θ).cos
  convert_to (∫ (x : ℝ) in (-1)..1, u₁ x * v₁' x) * θ = _ using 1
  · simp_rw [u₁, v₁', f, ← intervalIntegral.integral_mul_const, sq θ, mul_assoc]
  rw [integral_mul_deriv_eq_deriv_mul (fun x _ => hu₁ x) (fun x _ => hv₁ x)
    (hu₁d.intervalIntegrable _ _) (hv₁d.intervalIntegrable _ _), hu₁_eval_one, hu₁_eval_neg_one,
    zero_mul, zero_mul, sub_zero, zero_sub, ← integral_neg, ← integral_mul_const]
  convert_to ((-2 : ℝ) * (n + 1)) * ∫ (x : ℝ) in (-1)..1, (u₂ x * v₂' x) = _ using 1
  · rw [← integral_const_mul]
    congr 1 with x
    dsimp [u₁', v₁, u₂, v₂']
    ring
  rw [integral_mul_deriv_eq_deriv_mul (fun x _ => hu₂ x) (fun x _ => hv₂ x)
    (hu₂d.intervalIntegrable _ _) (hv₂d.intervalIntegrable _ _),
    mul_sub, t, neg_mul, neg_mul, neg_mul, sub_neg_eq_add]
  have (x : _) : u₂' x = (2 * n + 1) * f x ^ n - 2 * n * f x ^ (n - 1) := by
    cases n with
    | zero => simp [u₂']
    | succ n => ring!
  simp_rw [this, sub_mul, mul_assoc _ _ (v₂ _)]
  have : Continuous v₂ := by fun_prop
  rw [mul_mul_mul_comm, integral_sub, mul_sub, add_sub_assoc]
  · congr 1
    simp_rw [integral_const_mul]
    ring!
  all_goals exact Continuous.intervalIntegrable (by fun_prop) _ _

theorem poisson_le (n : ℕ) (ρ : ℝ) : |poisson n ρ| ≤ 2 := by
  have h : ∀ x ∈ Set.uIoc (-1 : ℝ) 1, ‖(1 - x ^ 2) ^ n * cos (x * ρ)‖ ≤ 1 := by
    intro x hx
    rw [uIoc_of_le (by norm_num)] at hx
    obtain ⟨h1, h2⟩ := hx
    rw [norm_mul, norm_pow]
    have a : ‖1 - x ^ 2‖ ≤ 1 := by
      rw [Real.norm_eq_abs, abs_le]
      constructor <;> nlinarith
    exact mul_le_one₀ (pow_le_one₀ (norm_nonneg _) a) (norm_nonneg _) (abs_cos_le_one _)
  have := norm_integral_le_of_norm_le_const h
  rw [Real.norm_eq_abs] at this
  calc |poisson n ρ| ≤ 1 * |1 - (-1)| := this
    _ = 2 := by norm_num

/-- The regular functions. -/
noncomputable def reg (ρ : ℝ) : ℕ → ℝ := irregular ρ 0 (sin ρ) (cos ρ)

/-- The irregular functions. -/
noncomputable def irr (ρ : ℝ) : ℕ → ℝ := irregular ρ 0 (cos ρ) (-sin ρ)

theorem step {ρ p p' : ℝ} (n : ℕ) : irregular ρ 0 p p' (n + 2)
    = (2 * n + 3) / ρ * irregular ρ 0 p p' (n + 1) - irregular ρ 0 p p' n := by
  have h := recurrence_iff.mp (irregular_recurrence ρ 0 p p' (l := n + 1) (by omega))
  have hc (k : ℕ) : cs 0 k = k := by
    rw [cs, zero_pow two_ne_zero, add_zero, Real.sqrt_sq (by positivity)]
  simp only [hc, Nat.add_sub_cancel] at h
  push_cast at h
  have h1 : (n + 1 : ℝ) ≠ 0 := by positivity
  have h2 : (n + 2 : ℝ) ≠ 0 := by positivity
  have e : irregular ρ 0 p p' (n + 1 + 1) = irregular ρ 0 p p' (n + 2) := rfl
  rw [e] at h
  apply mul_left_cancel₀ (mul_ne_zero h1 h2)
  linear_combination h

theorem at_zero (ρ p p' : ℝ) : irregular ρ 0 p p' 0 = p := rfl

theorem at_one (ρ p p' : ℝ) : irregular ρ 0 p p' 1 = p / ρ - p' := by
  change ((0 + 1 / ρ) * p - p') / Real.sqrt (1 + 0 * 0) = _
  rw [mul_zero, add_zero, Real.sqrt_one]
  ring

theorem reg_eq {ρ : ℝ} (hρ : 0 < ρ) : ∀ n, reg ρ n = ρ ^ (n + 1) / (2 ^ (n + 1) * n.factorial) * poisson n ρ := by
  have h0 : reg ρ 0 = ρ ^ 1 / (2 ^ 1 * Nat.factorial 0) * poisson 0 ρ := by
    have := poisson_zero ρ
    rw [reg, at_zero, Nat.factorial_zero]
    push_cast
    linear_combination -this / 2
  have h1 : reg ρ 1 = ρ ^ 2 / (2 ^ 2 * Nat.factorial 1) * poisson 1 ρ := by
    have a := poisson_zero ρ
    have b := poisson_step 0 ρ
    simp only [CharP.cast_eq_zero, pow_zero, mul_zero, zero_mul, zero_add] at b
    rw [reg, at_one, Nat.factorial_one]
    push_cast
    field_simp
    linear_combination -ρ * b - 2 * a
  intro n
  induction n using Nat.twoStepInduction with
  | zero => exact h0
  | one => exact h1
  | more n ih1 ih2 =>
    have b := poisson_step (n + 1) ρ
    rw [zero_pow (by omega), Nat.add_sub_cancel] at b
    push_cast at b
    rw [reg, step, ← reg, ih1, ih2, Nat.factorial_succ (n + 1), Nat.factorial_succ n]
    push_cast
    have h : (n.factorial : ℝ) ≠ 0 := by positivity
    have h1 : (n + 1 : ℝ) ≠ 0 := by positivity
    have h2 : (n + 1 + 1 : ℝ) ≠ 0 := by positivity
    set c : ℝ := ρ ^ (n + 1) / (2 ^ (n + 1) * n.factorial) with hc
    have e1 : ρ ^ (n + 1 + 1) / (2 ^ (n + 1 + 1) * ((n + 1 : ℝ) * n.factorial)) = c * (ρ / (2 * (n + 1))) := by
      rw [hc, pow_succ ρ (n + 1), pow_succ (2 : ℝ) (n + 1)]
      field_simp
    have e2 : ρ ^ (n + 2 + 1) / (2 ^ (n + 2 + 1) * ((n + 1 + 1 : ℝ) * ((n + 1 : ℝ) * n.factorial)))
        = c * (ρ ^ 2 / (4 * (n + 1) * (n + 1 + 1))) := by
      rw [hc, pow_succ ρ (n + 2), pow_succ ρ (n + 1), pow_succ (2 : ℝ) (n + 2), pow_succ (2 : ℝ) (n + 1)]
      field_simp
      ring
    rw [e1, e2]
    clear_value c
    rw [show n + 1 + 1 = n + 2 from rfl] at b
    have e3 : c * (ρ ^ 2 / (4 * ((n : ℝ) + 1) * (n + 1 + 1))) * poisson (n + 2) ρ
        = c / (4 * ((n : ℝ) + 1) * (n + 1 + 1)) * (poisson (n + 2) ρ * ρ ^ 2) := by ring
    rw [e3, b]
    field_simp
    ring

theorem reg_bounded {ρ : ℝ} (hρ : 0 < ρ) (n : ℕ) : |reg ρ n| ≤ ρ * exp (ρ / 2) := by
  rw [reg_eq hρ, abs_mul, abs_of_pos (by positivity)]
  have h := pow_div_factorial_le_exp (ρ / 2) (by positivity) n
  have e : ρ ^ (n + 1) / (2 ^ (n + 1) * n.factorial) = ρ / 2 * ((ρ / 2) ^ n / n.factorial) := by
    rw [div_pow, pow_succ ρ, pow_succ (2 : ℝ)]
    field_simp
  rw [e]
  have h2 : ρ / 2 * ((ρ / 2) ^ n / n.factorial) ≤ ρ / 2 * exp (ρ / 2) :=
    mul_le_mul_of_nonneg_left h (by positivity)
  calc _ ≤ ρ / 2 * exp (ρ / 2) * 2 := mul_le_mul h2 (poisson_le n ρ) (abs_nonneg _) (by positivity)
    _ = ρ * exp (ρ / 2) := by ring

theorem casoratian (ρ : ℝ) (n : ℕ) : reg ρ n * irr ρ (n + 1) - reg ρ (n + 1) * irr ρ n = 1 := by
  induction n with
  | zero =>
    rw [reg, irr, at_zero, at_zero, zero_add, at_one, at_one]
    have := sin_sq_add_cos_sq ρ
    linear_combination this
  | succ n ih =>
    rw [← ih]
    rw [show n + 1 + 1 = n + 2 from rfl, reg, irr, step, step]
    ring

/-! ### Bounds -/

section
variable {ρ : ℝ} (hρ : 0 < ρ)
include hρ

theorem reg_anti {n : ℕ} (hn : ρ ≤ n + 1) : |reg ρ (n + 1)| ≤ |reg ρ n| := by
  by_contra hlt
  push Not at hlt
  set d := |reg ρ (n + 1)| - |reg ρ n| with hd
  have hd0 : 0 < d := by linarith
  have key : ∀ k : ℕ, d ≤ |reg ρ (n + k + 1)| - |reg ρ (n + k)| := by
    intro k
    induction k with
    | zero => exact le_rfl
    | succ k ih =>
      have e : reg ρ (n + k + 2) = (2 * ((n + k : ℕ) : ℝ) + 3) / ρ * reg ρ (n + k + 1) - reg ρ (n + k) := step _
      have h2 : 2 ≤ (2 * ((n + k : ℕ) : ℝ) + 3) / ρ := by
        rw [le_div_iff₀ hρ]
        push_cast
        have : (0 : ℝ) ≤ k := by positivity
        linarith
      have a := abs_sub_abs_le_abs_sub ((2 * ((n + k : ℕ) : ℝ) + 3) / ρ * reg ρ (n + k + 1)) (reg ρ (n + k))
      rw [← e, abs_mul, abs_of_pos (by positivity)] at a
      have b := mul_le_mul_of_nonneg_right h2 (abs_nonneg (reg ρ (n + k + 1)))
      have e2 : n + (k + 1) + 1 = n + k + 2 := by ring
      have e3 : n + (k + 1) = n + k + 1 := by ring
      rw [e2, e3]
      linarith
  have sum : ∀ k : ℕ, k * d ≤ |reg ρ (n + k)| := by
    intro k
    induction k with
    | zero => simp
    | succ k ih =>
      have := key k
      push_cast
      rw [← add_assoc]
      linarith
  obtain ⟨k, hk⟩ := exists_nat_gt (ρ * exp (ρ / 2) / d)
  rw [div_lt_iff₀ hd0] at hk
  have := sum k
  have := reg_bounded hρ (n + k)
  linarith

theorem reg_step {n : ℕ} (hn : ρ ≤ n + 1) :
    |reg ρ (n + 1)| ≤ ρ / (2 * n + 3 - ρ) * |reg ρ n| ∧ reg ρ (n + 1) ^ 2 ≤ reg ρ n * reg ρ (n + 1) := by
  have h1 := reg_anti hρ (n := n + 1) (by push_cast; linarith)
  have e : reg ρ (n + 2) = (2 * n + 3) / ρ * reg ρ (n + 1) - reg ρ n := step n
  have hp : 0 < 2 * n + 3 - ρ := by linarith
  rw [show n + 1 + 1 = n + 2 from rfl] at h1
  constructor
  · rw [div_mul_eq_mul_div, le_div_iff₀ hp]
    have a := abs_sub_abs_le_abs_sub ((2 * n + 3) / ρ * reg ρ (n + 1)) (reg ρ (n + 2))
    have e' : (2 * n + 3) / ρ * reg ρ (n + 1) - reg ρ (n + 2) = reg ρ n := by rw [e]; ring
    rw [e', abs_mul, abs_of_pos (by positivity)] at a
    have b : ((2 * n + 3) / ρ - 1) * |reg ρ (n + 1)| ≤ |reg ρ n| := by linarith
    have c := mul_le_mul_of_nonneg_left b hρ.le
    have d : ρ * (((2 * n + 3) / ρ - 1) * |reg ρ (n + 1)|) = |reg ρ (n + 1)| * (2 * n + 3 - ρ) := by
      field_simp
    linarith
  · have e' : reg ρ n * reg ρ (n + 1) = (2 * n + 3) / ρ * reg ρ (n + 1) ^ 2 - reg ρ (n + 2) * reg ρ (n + 1) := by
      rw [e]; ring
    have h2 : 2 ≤ (2 * n + 3) / ρ := by
      rw [le_div_iff₀ hρ]; linarith
    have a := mul_le_mul_of_nonneg_right h2 (sq_nonneg (reg ρ (n + 1)))
    have b : reg ρ (n + 2) * reg ρ (n + 1) ≤ reg ρ (n + 1) ^ 2 := by
      refine (le_abs_self _).trans ?_
      rw [abs_mul, ← sq_abs, sq]
      exact mul_le_mul_of_nonneg_right h1 (abs_nonneg _)
    rw [e']
    linarith

theorem reg_ne {n : ℕ} (hn : ρ ≤ n + 1) : reg ρ (n + 1) ≠ 0 ∧ reg ρ n ≠ 0 := by
  have aux : ∀ n : ℕ, ρ ≤ n + 1 → reg ρ n ≠ 0 := by
    intro n hn h
    have := reg_anti hρ hn
    rw [h, abs_zero, abs_nonpos_iff] at this
    have c := casoratian ρ n
    rw [h, this] at c
    norm_num at c
  exact ⟨aux (n + 1) (by push_cast; linarith), aux n hn⟩

theorem reg_pos {n : ℕ} (hn : ρ ≤ n + 1) : 0 < reg ρ n * reg ρ (n + 1) := by
  have := (reg_step hρ hn).2
  have h := sq_pos_of_ne_zero (reg_ne hρ hn).1
  linarith

/-- The quotients increase. -/
theorem quotient_step {n : ℕ} (hn : ρ ≤ n + 1) :
    irr ρ (n + 1) / reg ρ (n + 1) = irr ρ n / reg ρ n + 1 / (reg ρ n * reg ρ (n + 1)) := by
  obtain ⟨h1, h2⟩ := reg_ne hρ hn
  have := casoratian ρ n
  field_simp
  linear_combination this

theorem quotient_mono {n : ℕ} (hn : ρ ≤ n + 1) (k : ℕ) : irr ρ n / reg ρ n ≤ irr ρ (n + k) / reg ρ (n + k) := by
  induction k with
  | zero => exact le_rfl
  | succ k ih =>
    have hk : ρ ≤ ((n + k : ℕ) : ℝ) + 1 := by
      push_cast
      have : (0 : ℝ) ≤ k := by positivity
      linarith
    rw [← add_assoc, quotient_step hρ hk]
    have := reg_pos hρ hk
    have : 0 < 1 / (reg ρ (n + k) * reg ρ (n + k + 1)) := by positivity
    linarith

/-- The error of the regular function. -/
theorem ratio_bound {n k : ℕ} (hn : ρ ≤ n + 1) {B Q : ℝ} (hB : 0 < B) (h1 : |reg ρ n| ≤ B) (h2 : |irr ρ n| ≤ B)
    (hQ : |reg ρ (n + k)| * |reg ρ (n + k + 1)| ≤ |reg ρ n| ^ 2 * Q) (hQ1 : B ^ 2 * Q < 1) :
    irr ρ (n + k + 1) ≠ 0 ∧
      |reg ρ (n + k + 1) / irr ρ (n + k + 1)| ≤ B ^ 2 * Q / (1 - B ^ 2 * Q) := by
  have hk : ρ ≤ ((n + k : ℕ) : ℝ) + 1 := by
    push_cast
    have : (0 : ℝ) ≤ k := by positivity
    linarith
  have hu := reg_pos hρ hk
  obtain ⟨g1, g2⟩ := reg_ne hρ hk
  have g3 := (reg_ne hρ hn).2
  have a3 : 0 < |reg ρ n| := abs_pos.mpr g3
  have hm : reg ρ (n + k) * reg ρ (n + k + 1) ≤ |reg ρ n| ^ 2 * Q := by
    refine le_trans (le_of_eq ?_) hQ
    rw [← abs_mul, abs_of_pos hu]
  have hQ0 : 0 < Q := by
    have : 0 < |reg ρ n| ^ 2 * Q := lt_of_lt_of_le hu hm
    exact (mul_pos_iff_of_pos_left (by positivity)).mp this
  have hs := quotient_step hρ hk
  have hmono := quotient_mono hρ hn k
  have hq : -(B / |reg ρ n|) ≤ irr ρ n / reg ρ n := by
    have : |irr ρ n / reg ρ n| ≤ B / |reg ρ n| := by
      rw [abs_div]; exact div_le_div_of_nonneg_right h2 a3.le
    linarith [neg_abs_le (irr ρ n / reg ρ n)]
  have hi : 1 / (|reg ρ n| ^ 2 * Q) ≤ 1 / (reg ρ (n + k) * reg ρ (n + k + 1)) :=
    one_div_le_one_div_of_le hu hm
  have low : (1 - B ^ 2 * Q) / (B ^ 2 * Q) ≤ irr ρ (n + k + 1) / reg ρ (n + k + 1) := by
    have e : (1 - B ^ 2 * Q) / (B ^ 2 * Q) ≤ 1 / (|reg ρ n| ^ 2 * Q) - B / |reg ρ n| := by
      have e1 : 1 / (|reg ρ n| ^ 2 * Q) - B / |reg ρ n| = (1 - B * |reg ρ n| * Q) / (|reg ρ n| ^ 2 * Q) := by
        field_simp
      rw [e1, div_le_div_iff₀ (by positivity) (by positivity)]
      have x1 : B * |reg ρ n| * Q ≤ B ^ 2 * Q := by
        have := mul_le_mul_of_nonneg_left h1 (by positivity : 0 ≤ B * Q)
        linarith
      have x2 : |reg ρ n| ^ 2 * Q ≤ B ^ 2 * Q :=
        mul_le_mul_of_nonneg_right (pow_le_pow_left₀ (abs_nonneg _) h1 2) hQ0.le
      exact mul_le_mul (by linarith) x2 (by positivity) (by linarith)
    linarith
  have lowpos : 0 < (1 - B ^ 2 * Q) / (B ^ 2 * Q) := div_pos (by linarith) (by positivity)
  have hpos : 0 < irr ρ (n + k + 1) / reg ρ (n + k + 1) := lt_of_lt_of_le lowpos low
  have hne : irr ρ (n + k + 1) ≠ 0 := by
    intro h; rw [h, zero_div] at hpos; exact lt_irrefl _ hpos
  refine ⟨hne, ?_⟩
  have e : reg ρ (n + k + 1) / irr ρ (n + k + 1) = 1 / (irr ρ (n + k + 1) / reg ρ (n + k + 1)) := by
    field_simp
  rw [e, abs_of_pos (by positivity)]
  refine (one_div_le_one_div_of_le lowpos low).trans (le_of_eq ?_)
  rw [one_div_div]

end

end Verif.Free
