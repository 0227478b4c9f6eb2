import Verif.Lemmas.FreeWave
import Verif.Props.Coulomb

/-!
# The modulus without a field

The sum of the squares of the two functions is a polynomial in the inverse square of the channel ratio, with
coefficients that are not negative. It therefore decreases with the channel ratio and increases with the angular
momentum.
-/

namespace Verif.Free

open Real Finset

theorem combination (ρ p p' : ℝ) (n : ℕ) :
    irregular ρ 0 p p' n = p * irregular ρ 0 1 0 n - p' * irregular ρ 0 0 (-1) n := by
  induction n using Nat.twoStepInduction with
  | zero => rw [at_zero, at_zero, at_zero]; ring
  | one => rw [at_one, at_one, at_one]; ring
  | more n h1 h2 => rw [step, step, step, h1, h2]; ring

/-- The square of the modulus. -/
noncomputable def modulus (ρ : ℝ) (l : ℕ) : ℝ := reg ρ l ^ 2 + irr ρ l ^ 2

theorem modulus_eq (ρ : ℝ) (l : ℕ) :
    modulus ρ l = irregular ρ 0 1 0 l ^ 2 + irregular ρ 0 0 (-1) l ^ 2 := by
  rw [modulus, reg, irr, combination ρ (sin ρ), combination ρ (cos ρ)]
  linear_combination (irregular ρ 0 1 0 l ^ 2 + irregular ρ 0 0 (-1) l ^ 2) * sin_sq_add_cos_sq ρ

/-- The coefficients of the modulus. -/
noncomputable def coef (l : ℕ) : ℕ → ℝ
  | 0 => 1
  | k + 1 => coef l k * ((2 * k + 1) / (2 * k + 2)) * (l + k + 1) * (l - k)

theorem coef_zero (l : ℕ) : coef l 0 = 1 := rfl

theorem coef_succ (l k : ℕ) :
    coef l (k + 1) = coef l k * ((2 * k + 1) / (2 * k + 2)) * (l + k + 1) * (l - k) := rfl

theorem coef_gt {l k : ℕ} (h : l < k) : coef l k = 0 := by
  induction k with
  | zero => omega
  | succ k ih =>
    rw [coef_succ]
    rcases Nat.lt_succ_iff_lt_or_eq.mp h with h | rfl
    · rw [ih h]; ring
    · ring

theorem coef_nonneg (l k : ℕ) : 0 ≤ coef l k := by
  by_cases h : l < k
  · rw [coef_gt h]
  · induction k with
    | zero => rw [coef_zero]; norm_num
    | succ k ih =>
      rw [coef_succ]
      have : (k : ℝ) ≤ l := by exact_mod_cast (by omega : k ≤ l)
      have := ih (by omega)
      have : (0 : ℝ) ≤ l - k := by linarith
      positivity

theorem coef_shift (l k : ℕ) : ((l : ℝ) + 1 - k) * coef (l + 1) k = (l + 1 + k) * coef l k := by
  induction k with
  | zero => rw [coef_zero, coef_zero]; push_cast; ring
  | succ k ih =>
    rw [coef_succ, coef_succ]
    push_cast
    linear_combination ((2 * k + 1) / (2 * k + 2)) * (l + k + 2) * ((l : ℝ) - k) * ih

theorem coef_mono_succ (l k : ℕ) : coef l k ≤ coef (l + 1) k := by
  by_cases h : l < k
  · rw [coef_gt h]; exact coef_nonneg _ _
  · have hk : (k : ℝ) ≤ l := by exact_mod_cast (by omega : k ≤ l)
    have h1 := coef_shift l k
    have h2 := coef_nonneg l k
    have h3 : (0 : ℝ) ≤ k := by positivity
    refine le_of_mul_le_mul_left ?_ (by linarith : (0 : ℝ) < l + 1 - k)
    rw [h1]
    exact mul_le_mul_of_nonneg_right (by linarith) h2

theorem coef_mono {l m : ℕ} (h : l ≤ m) (k : ℕ) : coef l k ≤ coef m k := by
  induction h with
  | refl => exact le_rfl
  | step _ ih => exact ih.trans (coef_mono_succ _ _)

theorem coef_step (l k : ℕ) : coef (l + 2) (k + 1)
    = (2 * l + 3) ^ 2 * coef (l + 1) k - 2 * (2 * l + 3) * ((l + 1 + k) * coef l k) + coef l (k + 1) := by
  have h1 := coef_shift l k
  have h2 := coef_shift (l + 1) k
  have hk : (2 * k + 2 : ℝ) ≠ 0 := by positivity
  have hf : ((2 * k + 1) / (2 * k + 2) : ℝ) * (2 * k + 2) = 2 * k + 1 := by field_simp
  rw [coef_succ, coef_succ]
  push_cast at h2 ⊢
  linear_combination ((2 * k + 1) / (2 * k + 2)) * (l + k + 3) * h2
    - (2 * (2 * (l : ℝ) + 3) - ((2 * k + 1) / (2 * k + 2)) * (l - k)) * h1
    + (2 * (l : ℝ) + 3) * coef (l + 1) k * hf

/-- The modulus as a polynomial. -/
noncomputable def poly (l K : ℕ) (x : ℝ) : ℝ := ∑ k ∈ range K, coef l k * x ^ k

theorem modulus_poly {ρ : ℝ} (hρ : 0 < ρ) (l : ℕ) :
    (∀ K, l < K → modulus ρ l = poly l K (1 / ρ ^ 2)) ∧
    (∀ K, l + 1 < K → modulus ρ (l + 1) = poly (l + 1) K (1 / ρ ^ 2)) ∧
    ∀ K, l < K → irregular ρ 0 1 0 l * irregular ρ 0 1 0 (l + 1)
      + irregular ρ 0 0 (-1) l * irregular ρ 0 0 (-1) (l + 1)
        = 1 / ρ * ∑ k ∈ range K, (l + 1 + k) * coef l k * (1 / ρ ^ 2) ^ k := by
  have hne := hρ.ne'
  induction l with
  | zero =>
    have z (K : ℕ) (f : ℕ → ℝ) : ∑ k ∈ range K, f (k + 1) * coef 0 (k + 1) * (1 / ρ ^ 2) ^ (k + 1) = 0 :=
      sum_eq_zero fun k _ => by rw [coef_gt (by omega)]; ring
    refine ⟨fun K hK => ?_, fun K hK => ?_, fun K hK => ?_⟩
    · obtain ⟨K, rfl⟩ := Nat.exists_eq_succ_of_ne_zero (by omega : K ≠ 0)
      have := z K fun _ => 1
      simp only [one_mul] at this
      rw [modulus_eq, poly, Nat.succ_eq_add_one, sum_range_succ', this, at_zero, at_zero, coef_zero]
      norm_num
    · obtain ⟨K, rfl⟩ := Nat.exists_eq_add_of_le' (by omega : 2 ≤ K)
      rw [modulus_eq, poly, sum_range_succ', sum_range_succ', sum_eq_zero fun k _ => by
        rw [coef_gt (by omega)]; ring]
      rw [zero_add, at_one, at_one, coef_succ, coef_zero]
      norm_num
    · obtain ⟨K, rfl⟩ := Nat.exists_eq_succ_of_ne_zero (by omega : K ≠ 0)
      have := z K fun k => (((0 : ℕ) : ℝ) + 1 + k)
      rw [Nat.succ_eq_add_one, sum_range_succ', this, zero_add, at_zero, at_zero, at_one, at_one, coef_zero]
      norm_num
  | succ l ih =>
    obtain ⟨i1, i2, i3⟩ := ih
    refine ⟨i2, fun K hK => ?_, fun K hK => ?_⟩
    · obtain ⟨K, rfl⟩ := Nat.exists_eq_succ_of_ne_zero (by omega : K ≠ 0)
      have j1 := i1 (K + 1) (by omega)
      have j2 := i2 K (by omega)
      have j3 := i3 K (by omega)
      rw [poly, sum_range_succ', coef_zero] at j1
      rw [modulus_eq] at j1 j2
      rw [modulus_eq, Nat.succ_eq_add_one, poly, sum_range_succ', coef_zero]
      have e : ∑ k ∈ range K, coef (l + 1 + 1) (k + 1) * (1 / ρ ^ 2) ^ (k + 1)
          = (2 * l + 3) ^ 2 / ρ ^ 2 * poly (l + 1) K (1 / ρ ^ 2)
            - 2 * (2 * l + 3) / ρ ^ 2 * ∑ k ∈ range K, (l + 1 + k) * coef l k * (1 / ρ ^ 2) ^ k
            + ∑ k ∈ range K, coef l (k + 1) * (1 / ρ ^ 2) ^ (k + 1) := by
        rw [poly, mul_sum, mul_sum, ← sum_sub_distrib, ← sum_add_distrib]
        refine sum_congr rfl fun k _ => ?_
        rw [coef_step, pow_succ]
        ring
      have s1 := step (ρ := ρ) (p := 1) (p' := 0) l
      have s2 := step (ρ := ρ) (p := 0) (p' := -1) l
      have hr : ρ * (1 / ρ) = 1 := by field_simp
      rw [e, ← j2, show l + 1 + 1 = l + 2 from rfl, s1, s2]
      have j3' : (2 * (2 * l + 3) / ρ ^ 2 * ∑ k ∈ range K, (l + 1 + k) * coef l k * (1 / ρ ^ 2) ^ k)
          = 2 * (2 * l + 3) / ρ * (irregular ρ 0 1 0 l * irregular ρ 0 1 0 (l + 1)
            + irregular ρ 0 0 (-1) l * irregular ρ 0 0 (-1) (l + 1)) := by
        rw [j3]; field_simp
      rw [j3']
      linear_combination j1
    · have j2 := i2 K (by omega)
      have j3 := i3 K (by omega)
      rw [modulus_eq] at j2
      have s1 := step (ρ := ρ) (p := 1) (p' := 0) l
      have s2 := step (ρ := ρ) (p := 0) (p' := -1) l
      have e : 1 / ρ * ∑ k ∈ range K, (((l + 1 : ℕ) : ℝ) + 1 + k) * coef (l + 1) k * (1 / ρ ^ 2) ^ k
          = (2 * l + 3) / ρ * poly (l + 1) K (1 / ρ ^ 2)
            - 1 / ρ * ∑ k ∈ range K, (l + 1 + k) * coef l k * (1 / ρ ^ 2) ^ k := by
        rw [poly, mul_sum, mul_sum, mul_sum, ← sum_sub_distrib]
        refine sum_congr rfl fun k _ => ?_
        have := coef_shift l k
        push_cast
        linear_combination 1 / ρ * (1 / ρ ^ 2) ^ k * (-1) * this
      rw [e, ← j2, ← j3, show l + 1 + 1 = l + 2 from rfl, s1, s2]
      ring

/-- The modulus decreases with the channel ratio and increases with the angular momentum. -/
theorem modulus_le {a ρ : ℝ} (ha : 0 < a) (h : a ≤ ρ) {l m : ℕ} (hlm : l ≤ m) :
    modulus ρ l ≤ poly m (m + 1) (1 / a ^ 2) := by
  rw [(modulus_poly (ha.trans_le h) l).1 (m + 1) (by omega), poly, poly]
  refine sum_le_sum fun k _ => mul_le_mul (coef_mono hlm k) ?_ (by positivity) (coef_nonneg _ _)
  exact pow_le_pow_left₀ (by positivity) (one_div_le_one_div_of_le (by positivity)
    (pow_le_pow_left₀ ha.le h 2)) k

/-- The modulus at a whole channel ratio, from its last coefficient. -/
def nested (l n : ℕ) : ℕ → ℕ → ℚ
  | 0, _ => 1
  | f + 1, k => 1 + ((2 * k + 1) * (l + k + 1) * ((l : ℚ) - k)) / ((2 * k + 2) * (n * n)) * nested l n f (k + 1)

theorem nested_eq (l n f : ℕ) (hn : 0 < n) : ∀ k, ∑ i ∈ range (f + 1), coef l (k + i) * (1 / (n : ℝ) ^ 2) ^ i
    = coef l k * (nested l n f k : ℝ) := by
  have hn' : (n : ℝ) ≠ 0 := by positivity
  induction f with
  | zero => intro k; simp [nested]
  | succ f ih =>
    intro k
    have hk : (2 * k + 2 : ℝ) ≠ 0 := by positivity
    have e : ∑ i ∈ range (f + 1), coef l (k + (i + 1)) * (1 / (n : ℝ) ^ 2) ^ (i + 1)
        = 1 / (n : ℝ) ^ 2 * ∑ i ∈ range (f + 1), coef l (k + 1 + i) * (1 / (n : ℝ) ^ 2) ^ i := by
      rw [mul_sum]
      refine sum_congr rfl fun i _ => ?_
      rw [pow_succ, show k + (i + 1) = k + 1 + i by ring]
      ring
    rw [sum_range_succ', e, ih, coef_succ, nested]
    push_cast
    rw [add_zero, pow_zero, mul_one]
    field_simp
    ring

theorem poly_nested (l n : ℕ) (hn : 0 < n) : poly l (l + 1) (1 / (n : ℝ) ^ 2) = (nested l n l 0 : ℝ) := by
  have := nested_eq l n l hn 0
  simpa [poly, coef_zero] using this

/-- The decrease of the regular functions beyond the turning point. -/
def decrease (n : ℕ) : ℕ → ℚ
  | 0 => 1
  | K + 1 => decrease n K * ((n + 1) / (n + 2 * K + 2))

theorem decrease_eq (n K : ℕ) :
    ∏ i ∈ range K, (((n : ℝ) + 1) / (n + 2 * i + 2)) = (decrease n K : ℝ) := by
  induction K with
  | zero => simp [decrease]
  | succ K ih => rw [prod_range_succ, ih, decrease]; push_cast; ring

/-- An angular momentum that the upward loop passes, for channel ratios above the given one. -/
def passed (n : ℕ) : ℕ :=
  [0, 6, 9, 11, 12, 14, 15, 17, 18, 20, 21, 22, 24, 25, 26, 28, 29, 30, 31, 33, 34, 35, 36, 38, 39, 40, 41, 42, 43,
    45, 46, 47, 48, 49, 51, 52, 53, 54, 55, 56, 57, 58, 58, 58, 58, 58, 58, 58].getD n 0

theorem table : ∀ n < 48, 0 < n → passed n ≤ 58 ∧ n ≤ passed n + 10 ∧ nested (passed n) n (passed n) 0 ≤ 10 ^ 10 ∧
    nested n n n 0 * (decrease n (passed n + 10 - n) * decrease n (passed n + 10 - n + 1)) * (1 + 45 / 10 ^ 7)
      ≤ 45 / 10 ^ 7 := by
  decide +kernel

end Verif.Free
