import Verif.Lemmas.FreeModulus
import Mathlib.Tactic.IntervalCases

/-!
# The regular function without field: the error made by starting the recurrence at a finite order
-/

namespace Verif.Free

open Real Spec

theorem reg_product {ρ : ℝ} (hρ : 0 < ρ) {n : ℕ} (hn : ρ ≤ n + 1) (K : ℕ) :
    |reg ρ (n + K)| ≤ |reg ρ n| * ∏ i ∈ Finset.range K, (((n : ℝ) + 1) / (n + 2 * i + 2)) := by
  induction K with
  | zero => simp
  | succ K ih =>
    have hk : ρ ≤ ((n + K : ℕ) : ℝ) + 1 := by
      push_cast
      have : (0 : ℝ) ≤ K := by positivity
      linarith
    have h1 := (reg_step hρ hk).1
    rw [← add_assoc, Finset.prod_range_succ]
    refine h1.trans ?_
    have hK : (0 : ℝ) ≤ K := by positivity
    have hq : ρ / (2 * ((n + K : ℕ) : ℝ) + 3 - ρ) ≤ ((n : ℝ) + 1) / (n + 2 * K + 2) := by
      push_cast
      refine div_le_div₀ (by positivity) hn (by positivity) (by linarith)
    have hq0 : 0 ≤ ((n : ℝ) + 1) / (n + 2 * K + 2) := by positivity
    have := mul_le_mul hq ih (abs_nonneg _) hq0
    refine this.trans (le_of_eq (by ring))

theorem reg_anti' {ρ : ℝ} (hρ : 0 < ρ) {n : ℕ} (hn : ρ ≤ n + 1) (k : ℕ) : |reg ρ (n + k)| ≤ |reg ρ n| := by
  induction k with
  | zero => exact le_rfl
  | succ k ih =>
    have hk : ρ ≤ ((n + k : ℕ) : ℝ) + 1 := by
      push_cast
      have : (0 : ℝ) ≤ k := by positivity
      linarith
    rw [← add_assoc]
    exact (reg_anti hρ hk).trans ih

theorem ratio_case {ρ : ℝ} (hρ : 0 < ρ) {n : ℕ} (hn : ρ ≤ n + 1) {K N : ℕ} (hN : n + K + 1 ≤ N) {B ε : ℝ}
    (hB : 0 < B) (h1 : |reg ρ n| ≤ B) (h2 : |irr ρ n| ≤ B) (hε0 : 0 ≤ ε)
    (hε : B ^ 2 * ((∏ i ∈ Finset.range K, (((n : ℝ) + 1) / (n + 2 * i + 2)))
      * ∏ i ∈ Finset.range (K + 1), (((n : ℝ) + 1) / (n + 2 * i + 2))) * (1 + ε) ≤ ε) :
    irr ρ N ≠ 0 ∧ |reg ρ N / irr ρ N| ≤ ε := by
  obtain ⟨d, rfl⟩ := Nat.exists_eq_add_of_le hN
  set Q := (∏ i ∈ Finset.range K, (((n : ℝ) + 1) / (n + 2 * i + 2)))
      * ∏ i ∈ Finset.range (K + 1), (((n : ℝ) + 1) / (n + 2 * i + 2)) with hQ
  have hQ0 : 0 < Q := by
    rw [hQ]
    exact mul_pos (Finset.prod_pos fun i _ => by positivity) (Finset.prod_pos fun i _ => by positivity)
  have hlt : B ^ 2 * Q < 1 := by
    by_contra hge
    push Not at hge
    nlinarith
  have hk (K : ℕ) : ρ ≤ ((n + K : ℕ) : ℝ) + 1 := by
    push_cast
    have : (0 : ℝ) ≤ K := by positivity
    linarith
  have hprod : |reg ρ (n + (K + d))| * |reg ρ (n + (K + d) + 1)| ≤ |reg ρ n| ^ 2 * Q := by
    have a1 := (reg_anti' hρ (hk K) d).trans (reg_product hρ hn K)
    have a2 := (reg_anti' hρ (hk (K + 1)) d).trans (reg_product hρ hn (K + 1))
    have e1 : n + (K + d) = n + K + d := by ring
    have e2 : n + (K + d) + 1 = n + (K + 1) + d := by ring
    rw [e2, e1]
    refine (mul_le_mul a1 a2 (abs_nonneg _) ((abs_nonneg _).trans a1)).trans (le_of_eq ?_)
    rw [hQ]; ring
  obtain ⟨hne, hb⟩ := ratio_bound hρ hn hB h1 h2 hprod hlt
  have e : n + K + 1 + d = n + (K + d) + 1 := by ring
  rw [e]
  refine ⟨hne, hb.trans ?_⟩
  rw [div_le_iff₀ (by linarith)]
  linarith

/-- Where the upward loop stopped, and the size of the error. -/
theorem ratio_small {ρ : ℝ} (hρ : 0 < ρ) (h48 : ρ ≤ 48) {L : ℕ} (hL1 : 1 ≤ L)
    (hL : L = 58 ∨ irr ρ (L + 1) ≠ 0 ∧ 1 / (irr ρ (L + 1) * irr ρ (L + 1)) < 1e-10) :
    irr ρ (L + 11) ≠ 0 ∧ |reg ρ (L + 11) / irr ρ (L + 11)| ≤ 45 / 10 ^ 7 := by
  have hbig : L = 58 ∨ 10 ^ 10 < irr ρ (L + 1) ^ 2 := by
    refine hL.imp id fun ⟨hne, h⟩ => ?_
    rw [div_lt_iff₀ (mul_self_pos.mpr hne)] at h
    norm_num at h ⊢
    nlinarith
  by_cases c1 : ρ ≤ 1
  · refine ratio_case hρ (n := 0) (by simpa using c1) (K := 11) (by omega) one_pos ?_ ?_ (by norm_num) ?_
    · rw [reg, at_zero]; exact abs_sin_le_one ρ
    · rw [irr, at_zero]; exact abs_cos_le_one ρ
    · norm_num [Finset.prod_range_succ]
  push Not at c1
  obtain ⟨n, hn0, hn48, hn, hn1⟩ : ∃ n : ℕ, 0 < n ∧ n < 48 ∧ (n : ℝ) ≤ ρ ∧ ρ ≤ n + 1 := by
    refine ⟨⌈ρ⌉₊ - 1, ?_, ?_, ?_, ?_⟩ <;> have a : 1 < ⌈ρ⌉₊ := Nat.lt_ceil.mpr (by simpa using c1)
    · omega
    · have : ⌈ρ⌉₊ ≤ 48 := Nat.ceil_le.mpr (by simpa using h48)
      omega
    · have : ⌈ρ⌉₊ - 1 < ⌈ρ⌉₊ := by omega
      exact (Nat.lt_ceil.mp this).le
    · rw [Nat.cast_sub a.le]
      push_cast
      linarith [Nat.le_ceil ρ]
  obtain ⟨t1, t2, t3, t4⟩ := table n hn48 hn0
  have hn0' : (0 : ℝ) < n := by positivity
  have bound {l m : ℕ} (h : l ≤ m) : modulus ρ l ≤ (nested m n m 0 : ℝ) := by
    rw [← poly_nested m n hn0]
    exact modulus_le hn0' hn h
  have hl : passed n ≤ L := by
    rcases hbig with h | h
    · omega
    · by_contra hlt
      push Not at hlt
      have b := bound (l := L + 1) (m := passed n) (by omega)
      have t3' : (nested (passed n) n (passed n) 0 : ℝ) ≤ 10 ^ 10 := by exact_mod_cast t3
      rw [modulus] at b
      nlinarith [sq_nonneg (reg ρ (L + 1))]
  have b := bound (le_refl n)
  have hpos : 0 < modulus ρ n := by
    rw [modulus]
    have := (reg_ne hρ hn1).2
    positivity
  have hsq : Real.sqrt (nested n n n 0 : ℝ) ^ 2 = (nested n n n 0 : ℝ) := Real.sq_sqrt (hpos.le.trans b)
  refine ratio_case hρ hn1 (K := passed n + 10 - n) (by omega) (B := Real.sqrt (nested n n n 0 : ℝ))
    (Real.sqrt_pos.mpr (hpos.trans_le b)) ?_ ?_ (by norm_num) ?_
  · refine Real.le_sqrt_of_sq_le (le_trans ?_ b)
    rw [sq_abs, modulus]
    linarith [sq_nonneg (irr ρ n)]
  · refine Real.le_sqrt_of_sq_le (le_trans ?_ b)
    rw [sq_abs, modulus]
    linarith [sq_nonneg (reg ρ n)]
  · rw [hsq, decrease_eq, decrease_eq]
    have t4' := (Rat.cast_le (K := ℝ)).mpr t4
    push_cast at t4'
    exact t4'

/-! ### The functions returned, and the neutron formulas -/

theorem derivative_eq (ρ : ℝ) (u : ℕ → ℝ) (l : ℕ) :
    coulombDerivative 0 ρ u l = (l + 1) / ρ * u l - u (l + 1) := by
  rw [coulombDerivative, zero_pow two_ne_zero, add_zero, add_zero, Real.sqrt_sq (by positivity)]
  have : (l + 1 : ℝ) ≠ 0 := by positivity
  field_simp

/-- Half of its derivative. -/
noncomputable def modulus' (ρ : ℝ) (l : ℕ) : ℝ :=
  reg ρ l * coulombDerivative 0 ρ (reg ρ) l + irr ρ l * coulombDerivative 0 ρ (irr ρ) l

theorem modulus'_eq (ρ : ℝ) (l : ℕ) :
    modulus' ρ l = irregular ρ 0 1 0 l * ((l + 1) / ρ * irregular ρ 0 1 0 l - irregular ρ 0 1 0 (l + 1))
      + irregular ρ 0 0 (-1) l * ((l + 1) / ρ * irregular ρ 0 0 (-1) l - irregular ρ 0 0 (-1) (l + 1)) := by
  rw [modulus', derivative_eq, derivative_eq, reg, irr, combination ρ (sin ρ), combination ρ (cos ρ),
    combination ρ (sin ρ) _ (l + 1), combination ρ (cos ρ) _ (l + 1)]
  linear_combination (irregular ρ 0 1 0 l * ((l + 1) / ρ * irregular ρ 0 1 0 l - irregular ρ 0 1 0 (l + 1))
      + irregular ρ 0 0 (-1) l * ((l + 1) / ρ * irregular ρ 0 0 (-1) l - irregular ρ 0 0 (-1) (l + 1)))
        * sin_sq_add_cos_sq ρ

theorem neutron {ρ : ℝ} (hρ : 0 < ρ) {l : ℕ} (hl : l ≤ 4) (lib : CoulombLibrary) (η : ℝ) :
    calculatePenetrability lib .neutron l ρ η = .ok (ρ / modulus ρ l) ∧
    calculateShiftFactor lib .neutron l ρ η = .ok (ρ / modulus ρ l * modulus' ρ l) := by
  have a0 := at_zero ρ 1 0
  have b0 := at_zero ρ 0 (-1)
  have a1 := at_one ρ 1 0
  have b1 := at_one ρ 0 (-1)
  have a2 := step (ρ := ρ) (p := 1) (p' := 0) 0
  have b2 := step (ρ := ρ) (p := 0) (p' := -1) 0
  have a3 := step (ρ := ρ) (p := 1) (p' := 0) 1
  have b3 := step (ρ := ρ) (p := 0) (p' := -1) 1
  have a4 := step (ρ := ρ) (p := 1) (p' := 0) 2
  have b4 := step (ρ := ρ) (p := 0) (p' := -1) 2
  have a5 := step (ρ := ρ) (p := 1) (p' := 0) 3
  have b5 := step (ρ := ρ) (p := 0) (p' := -1) 3
  have hne := hρ.ne'
  norm_num only at a2 b2 a3 b3 a4 b4 a5 b5
  rw [sub_zero] at a1
  rw [zero_div, zero_sub, neg_neg] at b1
  replace a2 : irregular ρ 0 1 0 2 = (3 - ρ ^ 2) / ρ ^ 2 := by rw [a2, a1, a0]; field_simp
  replace b2 : irregular ρ 0 0 (-1) 2 = 3 / ρ := by rw [b2, b1, b0]; ring
  replace a3 : irregular ρ 0 1 0 3 = (15 - 6 * ρ ^ 2) / ρ ^ 3 := by rw [a3, a2, a1]; field_simp; ring
  replace b3 : irregular ρ 0 0 (-1) 3 = (15 - ρ ^ 2) / ρ ^ 2 := by rw [b3, b2, b1]; field_simp; ring
  replace a4 : irregular ρ 0 1 0 4 = (105 - 45 * ρ ^ 2 + ρ ^ 4) / ρ ^ 4 := by rw [a4, a3, a2]; field_simp; ring
  replace b4 : irregular ρ 0 0 (-1) 4 = (105 - 10 * ρ ^ 2) / ρ ^ 3 := by rw [b4, b3, b2]; field_simp; ring
  replace a5 : irregular ρ 0 1 0 5 = (945 - 420 * ρ ^ 2 + 15 * ρ ^ 4) / ρ ^ 5 := by
    rw [a5, a4, a3]; field_simp; ring
  replace b5 : irregular ρ 0 0 (-1) 5 = (945 - 105 * ρ ^ 2 + ρ ^ 4) / ρ ^ 4 := by
    rw [b5, b4, b3]; field_simp; ring
  rw [modulus_eq, modulus'_eq]
  interval_cases l
  · simp only [calculatePenetrability, calculateShiftFactor, a0, b0, a1, b1, zero_add]
    constructor <;> congr 1
    · norm_num
    · norm_num
  · simp only [calculatePenetrability, calculateShiftFactor, a1, b1, a2, b2, Nat.reduceAdd]
    have h : 1 + ρ * ρ ≠ 0 := by positivity
    have h2 : (1 / ρ) ^ 2 + 1 ^ 2 = (1 + ρ * ρ) / ρ ^ 2 := by field_simp
    rw [h2]
    constructor <;> congr 1
    · field_simp
    · push_cast
      field_simp
      ring
  · simp only [calculatePenetrability, calculateShiftFactor, a2, b2, a3, b3, Nat.reduceAdd, horner,
      List.reverse_cons, List.reverse_nil, List.nil_append, List.cons_append, List.foldl_cons, List.foldl_nil]
    have h : (1 * (ρ * ρ) + 3) * (ρ * ρ) + 9 ≠ 0 := by positivity
    have h2 : ((3 - ρ ^ 2) / ρ ^ 2) ^ 2 + (3 / ρ) ^ 2 = ((1 * (ρ * ρ) + 3) * (ρ * ρ) + 9) / ρ ^ 4 := by
      field_simp; ring
    rw [h2]
    constructor <;> congr 1
    · field_simp
    · push_cast
      field_simp
      ring
  · simp only [calculatePenetrability, calculateShiftFactor, a3, b3, a4, b4, Nat.reduceAdd, horner,
      List.reverse_cons, List.reverse_nil, List.nil_append, List.cons_append, List.foldl_cons, List.foldl_nil]
    have h : ((1 * (ρ * ρ) + 6) * (ρ * ρ) + 45) * (ρ * ρ) + 225 ≠ 0 := by positivity
    have h2 : ((15 - 6 * ρ ^ 2) / ρ ^ 3) ^ 2 + ((15 - ρ ^ 2) / ρ ^ 2) ^ 2 = (((1 * (ρ * ρ) + 6) * (ρ * ρ) + 45) * (ρ * ρ) + 225) / ρ ^ 6 := by
      field_simp; ring
    rw [h2]
    constructor <;> congr 1
    · field_simp
    · push_cast
      field_simp
      ring
  · simp only [calculatePenetrability, calculateShiftFactor, a4, b4, a5, b5, Nat.reduceAdd, horner,
      List.reverse_cons, List.reverse_nil, List.nil_append, List.cons_append, List.foldl_cons, List.foldl_nil]
    have h : (((1 * (ρ * ρ) + 10) * (ρ * ρ) + 135) * (ρ * ρ) + 1575) * (ρ * ρ) + 11025 ≠ 0 := by positivity
    have h2 : ((105 - 45 * ρ ^ 2 + ρ ^ 4) / ρ ^ 4) ^ 2 + ((105 - 10 * ρ ^ 2) / ρ ^ 3) ^ 2 = ((((1 * (ρ * ρ) + 10) * (ρ * ρ) + 135) * (ρ * ρ) + 1575) * (ρ * ρ) + 11025) / ρ ^ 8 := by
      field_simp; ring
    rw [h2]
    constructor <;> congr 1
    · field_simp
    · push_cast
      field_simp
      ring

/-! ### The estimate -/

theorem estimate {u g u' g' κ ε : ℝ} (hw : u' * g - g' * u = 1) (hκ : |κ| ≤ ε) (hε : ε ≤ 1 / 100) :
    |(u - κ * g) ^ 2 + g ^ 2 - (u ^ 2 + g ^ 2)| ≤ 101 / 100 * ε * (u ^ 2 + g ^ 2) ∧
    |(u - κ * g) * (u' - κ * g') + g * g' - (u * u' + g * g')| ≤ 101 / 100 * ε * (|u * u' + g * g'| + 1) := by
  have hκ2 : κ ^ 2 ≤ ε / 100 := by
    rw [← sq_abs]
    have := mul_le_mul hκ (hκ.trans hε) (abs_nonneg _) ((abs_nonneg _).trans hκ)
    rw [sq]; linarith
  have hε0 : 0 ≤ ε := (abs_nonneg _).trans hκ
  have bound (x : ℝ) (hx : x ^ 2 ≤ (u * u' + g * g') ^ 2 + 1) : |x| ≤ |u * u' + g * g'| + 1 := by
    refine abs_le_of_sq_le_sq (hx.trans ?_) (by positivity)
    rw [← sq_abs (u * u' + g * g')]
    nlinarith [abs_nonneg (u * u' + g * g')]
  have id2 : (u * u' + g * g') ^ 2 + 1 = (u ^ 2 + g ^ 2) * (u' ^ 2 + g' ^ 2) := by
    linear_combination (-(u' * g - g' * u) - 1) * hw
  have combine (x y m : ℝ) (hm : 0 ≤ m) (hx : |x| ≤ m) (hy : |y| ≤ m) :
      |-κ * x + κ ^ 2 * y| ≤ 101 / 100 * ε * m := by
    refine (abs_add_le _ _).trans ?_
    rw [abs_mul, abs_mul, abs_neg, abs_of_nonneg (sq_nonneg κ)]
    have a := mul_le_mul hκ hx (abs_nonneg _) hε0
    have b := mul_le_mul hκ2 hy (abs_nonneg _) (by positivity)
    linarith
  constructor
  · have e : (u - κ * g) ^ 2 + g ^ 2 - (u ^ 2 + g ^ 2) = -κ * (2 * u * g) + κ ^ 2 * g ^ 2 := by ring
    rw [e]
    refine combine _ _ _ (by positivity) ?_ ?_
    · rw [abs_le]
      constructor <;> nlinarith [sq_nonneg (u + g), sq_nonneg (u - g)]
    · rw [abs_of_nonneg (sq_nonneg g)]; nlinarith [sq_nonneg u]
  · have e : (u - κ * g) * (u' - κ * g') + g * g' - (u * u' + g * g')
        = -κ * (u * g' + u' * g) + κ ^ 2 * (g * g') := by ring
    rw [e]
    refine combine _ _ _ (by positivity) (bound _ ?_) (bound _ ?_)
    · rw [id2]; nlinarith [sq_nonneg (u * u' - g * g')]
    · rw [id2]; nlinarith [sq_nonneg (u * u'), sq_nonneg (u * g'), sq_nonneg (g * u')]

theorem quotients {ρ m M h H ε : ℝ} (hρ : 0 < ρ) (hm : 0 < m) (hε0 : 0 ≤ ε) (hε : ε ≤ 1 / 100)
    (hM : |M - m| ≤ 101 / 100 * ε * m) (hH : |H - h| ≤ 101 / 100 * ε * (|h| + 1)) :
    0 < M ∧ |ρ / M - ρ / m| ≤ 103 / 100 * ε * (ρ / m) ∧
      |ρ / M * H - ρ / m * h| ≤ 206 / 100 * ε * (|ρ / m * h| + ρ / m) := by
  have hM0 : (1 - 101 / 100 * ε) * m ≤ M := by
    have := (abs_le.mp hM).1; linarith
  have hc : 98 / 100 ≤ 1 - 101 / 100 * ε := by linarith
  have hMp : 0 < M := by
    have := mul_le_mul_of_nonneg_right hc hm.le
    nlinarith
  have key : 101 / 100 * ε * m ≤ 103 / 100 * ε * M := by
    have h1 : 98 / 100 * m ≤ M := (mul_le_mul_of_nonneg_right hc hm.le).trans hM0
    have h2 := mul_le_mul_of_nonneg_left h1 (by positivity : 0 ≤ 103 / 100 * ε)
    nlinarith [mul_nonneg hε0 hm.le]
  refine ⟨hMp, ?_, ?_⟩
  · have e : ρ / M - ρ / m = ρ / m * ((m - M) / M) := by field_simp
    rw [e, abs_mul, abs_of_pos (by positivity), abs_div, abs_of_pos hMp, abs_sub_comm, mul_comm]
    refine mul_le_mul_of_nonneg_right ?_ (by positivity)
    rw [div_le_iff₀ hMp]
    exact hM.trans key
  · have e : ρ / M * H - ρ / m * h = ρ / m * ((m * (H - h) - h * (M - m)) / M) := by
      field_simp
      ring
    rw [e, abs_mul, abs_mul, abs_of_pos (by positivity), abs_div, abs_of_pos hMp]
    have b : |m * (H - h) - h * (M - m)| ≤ 101 / 100 * ε * m * (2 * |h| + 1) := by
      refine (abs_sub _ _).trans ?_
      rw [abs_mul, abs_mul, abs_of_pos hm]
      have x1 := mul_le_mul_of_nonneg_left hH hm.le
      have x2 := mul_le_mul_of_nonneg_left hM (abs_nonneg h)
      linarith
    have c : |m * (H - h) - h * (M - m)| / M ≤ 206 / 100 * ε * (|h| + 1) := by
      rw [div_le_iff₀ hMp]
      refine b.trans ((mul_le_mul_of_nonneg_right key (by positivity)).trans ?_)
      nlinarith [mul_nonneg (mul_nonneg hε0 hMp.le) (abs_nonneg h), mul_nonneg hε0 hMp.le]
    calc _ ≤ ρ / m * (206 / 100 * ε * (|h| + 1)) := mul_le_mul_of_nonneg_left c (by positivity)
      _ = _ := by ring

/-- The functions returned without field. -/
theorem functions {ρ : ℝ} (hρ : 0 < ρ) (h48 : ρ ≤ 48) {l : ℕ} (hl : l ≤ 58) :
    ∃ w κ, coulombWaveFunctions l ρ 0 = .ok w ∧ |κ| ≤ 45 / 10 ^ 7 ∧ w.G = irr ρ l ∧
      w.dG = coulombDerivative 0 ρ (irr ρ) l ∧ w.F = reg ρ l - κ * irr ρ l ∧
      w.dF = coulombDerivative 0 ρ (reg ρ) l - κ * coulombDerivative 0 ρ (irr ρ) l := by
  have hs : startValues ρ 0 = .ok (cos ρ, -sin ρ) := by rw [startValues, if_pos rfl]
  obtain ⟨L, l1, l2, l3, l4, hcase⟩ := coulomb_cases' l hρ.ne' hs (.inl rfl)
  rw [if_pos rfl] at l4
  obtain ⟨hne, hκ⟩ := ratio_small hρ h48 l1 l4
  rcases hcase with ⟨hc, -⟩ | ⟨F, g1, g2, g3, g4, e⟩
  · exact absurd hc hne
  rw [if_pos hl] at e
  have hF := regular_error g1 g2 g3 g4 (Fs := reg ρ) (fun i hi => irregular_recurrence _ _ _ _ hi) (by
    rw [derivative_eq, derivative_eq, at_zero, zero_add, at_one, reg, at_zero, at_one]
    have := sin_sq_add_cos_sq ρ
    push_cast
    linear_combination this)
  refine ⟨_, reg ρ (L + 11) / irr ρ (L + 11), e, hκ, rfl, rfl, hF l (by omega), ?_⟩
  simp only [derivative_eq]
  rw [hF l (by omega), hF (l + 1) (by omega)]
  change _ = (l + 1) / ρ * reg ρ l - reg ρ (l + 1) - reg ρ (L + 11) / irr ρ (L + 11) * ((l + 1) / ρ * irr ρ l - irr ρ (l + 1))
  simp only [irr]
  ring

end Verif.Free
