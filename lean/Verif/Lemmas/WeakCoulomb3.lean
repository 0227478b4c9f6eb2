import Verif.Lemmas.WeakCoulomb2

/-!
# The asymptotic series of the Coulomb functions in a weak field: size of the terms
-/

namespace Verif.Weak

open Complex Filter Topology

theorem step {η ρ p p' μ : ℝ} {k : ℕ} (hρ : 2 * η + 10 ≤ ρ) (hρ0 : 0 < ρ) (hμ : 0 ≤ μ)
    (h : ‖term η ρ k‖ ≤ p)
    (hm : η ^ 2 + k ^ 2 + k + 1 / 2 ≤ μ * (2 * (k + 1)) * (2 * η + 10)) (hp : μ * p ≤ p') :
    ‖term η ρ (k + 1)‖ ≤ p' := by
  rw [term_norm_succ hρ0]
  refine le_trans (mul_le_mul ?_ h (norm_nonneg _) hμ) hp
  rw [div_le_iff₀ hρ0]
  have hk : (0 : ℝ) < 2 * (k + 1) := by positivity
  refine (mul_norm_le η k).trans ?_
  rw [div_le_iff₀ hk]
  have := mul_le_mul_of_nonneg_left hρ (mul_nonneg hμ hk.le)
  linarith

theorem terms_low {η ρ : ℝ} (h1 : 0 ≤ η) (h2 : η ≤ 5 / 2) (hρ : 2 * η + 10 ≤ ρ) :
    ‖term η ρ 1‖ ≤ 64 / 100 ∧ ‖term η ρ 2‖ ≤ 23 / 100 ∧ ‖term η ρ 3‖ ≤ 61 / 1000 ∧
      ‖term η ρ 20‖ ≤ 1 / 40000000 := by
  have hρ0 : 0 < ρ := by linarith
  have hc := mul_nonneg (sub_nonneg.mpr h1) (sub_nonneg.mpr h2)
  have t0 : ‖term η ρ 0‖ ≤ 1 := by rw [term_zero, norm_one]
  have t1 := step (k := 0) (μ := 9 / 40) (p' := 9 / 40) hρ hρ0 (by norm_num) t0
    (by norm_num; nlinarith) (by norm_num)
  have t2 := step (k := 1) (μ := 1459 / 10000) (p' := 3283 / 100000) hρ hρ0 (by norm_num) t1
    (by norm_num; nlinarith) (by norm_num)
  have t3 := step (k := 2) (μ := 1417 / 10000) (p' := 4653 / 1000000) hρ hρ0 (by norm_num) t2
    (by norm_num; nlinarith) (by norm_num)
  have t4 := step (k := 3) (μ := 1563 / 10000) (p' := 7273 / 10000000) hρ hρ0 (by norm_num) t3
    (by norm_num; nlinarith) (by norm_num)
  have t5 := step (k := 4) (μ := 41 / 200) (p' := 1491 / 10000000) hρ hρ0 (by norm_num) t4
    (by norm_num; nlinarith) (by norm_num)
  have t6 := step (k := 5) (μ := 1271 / 5000) (p' := 3791 / 100000000) hρ hρ0 (by norm_num) t5
    (by norm_num; nlinarith) (by norm_num)
  have t7 := step (k := 6) (μ := 759 / 2500) (p' := 1151 / 100000000) hρ hρ0 (by norm_num) t6
    (by norm_num; nlinarith) (by norm_num)
  have t8 := step (k := 7) (μ := 883 / 2500) (p' := 2033 / 500000000) hρ hρ0 (by norm_num) t7
    (by norm_num; nlinarith) (by norm_num)
  have t9 := step (k := 8) (μ := 1007 / 2500) (p' := 819 / 500000000) hρ hρ0 (by norm_num) t8
    (by norm_num; nlinarith) (by norm_num)
  have t10 := step (k := 9) (μ := 181 / 400) (p' := 1853 / 2500000000) hρ hρ0 (by norm_num) t9
    (by norm_num; nlinarith) (by norm_num)
  have t11 := step (k := 10) (μ := 5023 / 10000) (p' := 931 / 2500000000) hρ hρ0 (by norm_num) t10
    (by norm_num; nlinarith) (by norm_num)
  have t12 := step (k := 11) (μ := 5521 / 10000) (p' := 2057 / 10000000000) hρ hρ0 (by norm_num) t11
    (by norm_num; nlinarith) (by norm_num)
  have t13 := step (k := 12) (μ := 301 / 500) (p' := 1239 / 10000000000) hρ hρ0 (by norm_num) t12
    (by norm_num; nlinarith) (by norm_num)
  have t14 := step (k := 13) (μ := 3259 / 5000) (p' := 2019 / 25000000000) hρ hρ0 (by norm_num) t13
    (by norm_num; nlinarith) (by norm_num)
  have t15 := step (k := 14) (μ := 7017 / 10000) (p' := 5667 / 100000000000) hρ hρ0 (by norm_num) t14
    (by norm_num; nlinarith) (by norm_num)
  have t16 := step (k := 15) (μ := 1879 / 2500) (p' := 213 / 5000000000) hρ hρ0 (by norm_num) t15
    (by norm_num; nlinarith) (by norm_num)
  have t17 := step (k := 16) (μ := 1603 / 2000) (p' := 683 / 20000000000) hρ hρ0 (by norm_num) t16
    (by norm_num; nlinarith) (by norm_num)
  have t18 := step (k := 17) (μ := 4257 / 5000) (p' := 727 / 25000000000) hρ hρ0 (by norm_num) t17
    (by norm_num; nlinarith) (by norm_num)
  have t19 := step (k := 18) (μ := 4507 / 5000) (p' := 1311 / 50000000000) hρ hρ0 (by norm_num) t18
    (by norm_num; nlinarith) (by norm_num)
  have t20 := step (k := 19) (μ := 9513 / 10000) (p' := 499 / 20000000000) hρ hρ0 (by norm_num) t19
    (by norm_num; nlinarith) (by norm_num)
  exact ⟨t1.trans (by norm_num), t2.trans (by norm_num), t3.trans (by norm_num), t20.trans (by norm_num)⟩

theorem terms_high {η ρ : ℝ} (h1 : 5 / 2 ≤ η) (h2 : η ≤ 5) (hρ : 2 * η + 10 ≤ ρ) :
    ‖term η ρ 1‖ ≤ 64 / 100 ∧ ‖term η ρ 2‖ ≤ 23 / 100 ∧ ‖term η ρ 3‖ ≤ 61 / 1000 ∧
      ‖term η ρ 20‖ ≤ 1 / 40000000 := by
  have hρ0 : 0 < ρ := by linarith
  have hc := mul_nonneg (sub_nonneg.mpr h1) (sub_nonneg.mpr h2)
  have t0 : ‖term η ρ 0‖ ≤ 1 := by rw [term_zero, norm_one]
  have t1 := step (k := 0) (μ := 51 / 80) (p' := 51 / 80) hρ hρ0 (by norm_num) t0
    (by norm_num; nlinarith) (by norm_num)
  have t2 := step (k := 1) (μ := 1719 / 5000) (p' := 137 / 625) hρ hρ0 (by norm_num) t1
    (by norm_num; nlinarith) (by norm_num)
  have t3 := step (k := 2) (μ := 21 / 80) (p' := 2877 / 50000) hρ hρ0 (by norm_num) t2
    (by norm_num; nlinarith) (by norm_num)
  have t4 := step (k := 3) (μ := 293 / 1250) (p' := 1349 / 100000) hρ hρ0 (by norm_num) t3
    (by norm_num; nlinarith) (by norm_num)
  have t5 := step (k := 4) (μ := 91 / 400) (p' := 3069 / 1000000) hρ hρ0 (by norm_num) t4
    (by norm_num; nlinarith) (by norm_num)
  have t6 := step (k := 5) (μ := 2313 / 10000) (p' := 7099 / 10000000) hρ hρ0 (by norm_num) t5
    (by norm_num; nlinarith) (by norm_num)
  have t7 := step (k := 6) (μ := 2411 / 10000) (p' := 107 / 625000) hρ hρ0 (by norm_num) t6
    (by norm_num; nlinarith) (by norm_num)
  have t8 := step (k := 7) (μ := 523 / 2000) (p' := 4477 / 100000000) hρ hρ0 (by norm_num) t7
    (by norm_num; nlinarith) (by norm_num)
  have t9 := step (k := 8) (μ := 2917 / 10000) (p' := 653 / 50000000) hρ hρ0 (by norm_num) t8
    (by norm_num; nlinarith) (by norm_num)
  have t10 := step (k := 9) (μ := 129 / 400) (p' := 1053 / 250000000) hρ hρ0 (by norm_num) t9
    (by norm_num; nlinarith) (by norm_num)
  have t11 := step (k := 10) (μ := 1769 / 5000) (p' := 1491 / 1000000000) hρ hρ0 (by norm_num) t10
    (by norm_num; nlinarith) (by norm_num)
  have t12 := step (k := 11) (μ := 771 / 2000) (p' := 1437 / 2500000000) hρ hρ0 (by norm_num) t11
    (by norm_num; nlinarith) (by norm_num)
  have t13 := step (k := 12) (μ := 2087 / 5000) (p' := 3 / 12500000) hρ hρ0 (by norm_num) t12
    (by norm_num; nlinarith) (by norm_num)
  have t14 := step (k := 13) (μ := 899 / 2000) (p' := 1079 / 10000000000) hρ hρ0 (by norm_num) t13
    (by norm_num; nlinarith) (by norm_num)
  have t15 := step (k := 14) (μ := 4817 / 10000) (p' := 2599 / 50000000000) hρ hρ0 (by norm_num) t14
    (by norm_num; nlinarith) (by norm_num)
  have t16 := step (k := 15) (μ := 5141 / 10000) (p' := 2673 / 100000000000) hρ hρ0 (by norm_num) t15
    (by norm_num; nlinarith) (by norm_num)
  have t17 := step (k := 16) (μ := 2733 / 5000) (p' := 731 / 50000000000) hρ hρ0 (by norm_num) t16
    (by norm_num; nlinarith) (by norm_num)
  have t18 := step (k := 17) (μ := 362 / 625) (p' := 2117 / 250000000000) hρ hρ0 (by norm_num) t17
    (by norm_num; nlinarith) (by norm_num)
  have t19 := step (k := 18) (μ := 6119 / 10000) (p' := 2591 / 500000000000) hρ hρ0 (by norm_num) t18
    (by norm_num; nlinarith) (by norm_num)
  have t20 := step (k := 19) (μ := 3223 / 5000) (p' := 3341 / 1000000000000) hρ hρ0 (by norm_num) t19
    (by norm_num; nlinarith) (by norm_num)
  exact ⟨t1.trans (by norm_num), t2.trans (by norm_num), t3.trans (by norm_num), t20.trans (by norm_num)⟩

theorem terms_bound {η ρ : ℝ} (h1 : 0 ≤ η) (h2 : η ≤ 5) (hρ : 2 * η + 10 ≤ ρ) :
    ‖term η ρ 1‖ ≤ 64 / 100 ∧ ‖term η ρ 2‖ ≤ 23 / 100 ∧ ‖term η ρ 3‖ ≤ 61 / 1000 ∧
      ‖term η ρ 20‖ ≤ 1 / 40000000 := by
  rcases le_total η (5 / 2) with h | h
  · exact terms_low h1 h hρ
  · exact terms_high h h2 hρ

/-- The first twenty terms decrease. -/
theorem mul_small {η ρ : ℝ} (h1 : 0 ≤ η) (h2 : η ≤ 5) (hρ : 2 * η + 10 ≤ ρ) {k : ℕ} (hk : k < 20) :
    normSq (mul η k) ≤ ρ ^ 2 := by
  have hk0 : (0 : ℝ) ≤ k := by positivity
  have hk' : (k : ℝ) ≤ 19 := by exact_mod_cast Nat.le_of_lt_succ hk
  have h : ‖mul η k‖ ≤ ρ := by
    refine (mul_norm_le η k).trans ?_
    rw [div_le_iff₀ (by positivity)]
    have a1 : η * η ≤ 5 * η := mul_le_mul_of_nonneg_right h2 h1
    have a2 : (k : ℝ) * k ≤ 19 * k := mul_le_mul_of_nonneg_right hk' hk0
    have a3 := mul_nonneg hk0 h1
    have a4 : (2 * η + 10) * (2 * (k + 1)) ≤ ρ * (2 * (k + 1)) :=
      mul_le_mul_of_nonneg_right hρ (by positivity)
    nlinarith
  rw [normSq_eq_norm_sq]
  exact pow_le_pow_left₀ (norm_nonneg _) h 2

theorem stop_spec (η ρ : ℝ) : ∀ k i : ℕ, i ≤ stop η ρ k i ∧ stop η ρ k i ≤ i + k ∧
    (∀ j, i ≤ j → j < stop η ρ k i → normSq (mul η j) ≤ ρ ^ 2) ∧
    (stop η ρ k i < i + k → ρ ^ 2 < normSq (mul η (stop η ρ k i))) := by
  intro k
  induction k with
  | zero => intro i; rw [stop]; exact ⟨le_rfl, le_rfl, fun j h h' => by omega, fun h => by omega⟩
  | succ k ih =>
    intro i
    rw [stop]
    by_cases h : ρ ^ 2 < normSq (mul η i)
    · rw [if_pos h]; exact ⟨le_rfl, by omega, fun j h h' => by omega, fun _ => h⟩
    · rw [if_neg h]
      obtain ⟨a, b, c, d⟩ := ih (i + 1)
      refine ⟨by omega, by omega, fun j hj hj' => ?_, fun h' => d (by omega)⟩
      rcases Nat.eq_or_lt_of_le hj with rfl | hj
      · exact not_lt.mp h
      · exact c j hj hj'

/-- Everything needed about the number of terms. -/
structure Count (η ρ : ℝ) (N : ℕ) : Prop where
  low : 20 ≤ N
  high : N ≤ 100
  sum : ∑ k ∈ Finset.range (N + 1), ‖term η ρ k‖ ≤ 8
  next : ‖term η ρ (N + 1)‖ ≤ 1 / 38000000

theorem count {η ρ : ℝ} (h1 : 0 ≤ η) (h2 : η ≤ 5) (hρ : 2 * η + 10 ≤ ρ) :
    Count η ρ (stop η ρ 100 0) := by
  have hρ0 : 0 < ρ := by linarith
  obtain ⟨-, hN, hle, hgt⟩ := stop_spec η ρ 100 0
  set N := stop η ρ 100 0
  rw [zero_add] at hN hgt
  have low : 20 ≤ N := by
    by_contra hlt
    exact absurd (hgt (by omega)) (not_lt.mpr (mul_small h1 h2 hρ (by omega)))
  have small {j : ℕ} (hj : j < N) : ‖mul η j‖ ≤ ρ := by
    have := hle j (Nat.zero_le j) hj
    rw [normSq_eq_norm_sq] at this
    exact le_of_sq_le_sq this hρ0.le
  have dec {j : ℕ} (hj : j < N) : ‖term η ρ (j + 1)‖ ≤ ‖term η ρ j‖ := by
    rw [term_norm_succ hρ0]
    exact mul_le_of_le_one_left (norm_nonneg _) ((div_le_one hρ0).mpr (small hj))
  have mono {m : ℕ} : ∀ n, m ≤ n → n ≤ N → ‖term η ρ n‖ ≤ ‖term η ρ m‖ := by
    intro n hn
    induction n, hn using Nat.le_induction with
    | base => intro _; exact le_rfl
    | succ n hn ih => intro h; exact (dec (by omega)).trans (ih (by omega))
  obtain ⟨b1, b2, b3, b20⟩ := terms_bound h1 h2 hρ
  refine ⟨low, hN, ?_, ?_⟩
  · have hs : ∀ n, 2 ≤ n → n ≤ N →
        ∑ k ∈ Finset.range (n + 1), ‖term η ρ k‖ ≤ 187 / 100 + 61 / 1000 * (n - 2) := by
      intro n hn
      induction n, hn using Nat.le_induction with
      | base =>
        intro _
        rw [Finset.sum_range_succ, Finset.sum_range_succ, Finset.sum_range_one, term_zero, norm_one]
        push_cast
        linarith
      | succ n hn ih =>
        intro h
        rw [Finset.sum_range_succ]
        have := ih (by omega)
        have := mono (m := 3) (n + 1) (by omega) h
        push_cast
        linarith
    have hN' : (N : ℝ) ≤ 100 := by exact_mod_cast hN
    have := hs N (by omega) le_rfl
    linarith
  · obtain ⟨j, hj⟩ : ∃ j, N = j + 1 := ⟨N - 1, by omega⟩
    have a1 : ‖mul η N‖ ≤ 20 / 19 * ρ := by
      rw [hj]
      refine (mul_ratio η (by omega)).trans ?_
      exact mul_le_mul_of_nonneg_left (small (by omega)) (by norm_num)
    have a2 : ‖mul η N‖ / ρ ≤ 20 / 19 := by rw [div_le_iff₀ hρ0]; exact a1
    have a3 := (mono (m := 20) N low le_rfl).trans b20
    rw [term_norm_succ hρ0]
    refine (mul_le_mul a2 a3 (norm_nonneg _) (by norm_num)).trans (by norm_num)

theorem dterm_le {η ρ : ℝ} (h1 : 0 < η) (hρ : 2 * η + 10 ≤ ρ) {k : ℕ} (hk : k ≤ 100) :
    ‖dterm η ρ k‖ ≤ 11 * ‖term η ρ k‖ := by
  have hρ0 : 0 < ρ := by linarith
  have hk' : (k : ℝ) ≤ 100 := by exact_mod_cast hk
  rw [dterm, norm_mul]
  refine mul_le_mul_of_nonneg_right ?_ (norm_nonneg _)
  have e : (-(k / ρ) + I * (1 - η / ρ) : ℂ) = ((-(k / ρ) : ℝ) : ℂ) + I * ((1 - η / ρ : ℝ) : ℂ) := by
    push_cast; ring
  rw [e]
  refine (norm_add_le _ _).trans ?_
  rw [norm_mul, norm_I, one_mul, Complex.norm_real, Complex.norm_real, norm_neg,
    Real.norm_of_nonneg (by positivity)]
  have a1 : (k : ℝ) / ρ ≤ 10 := by rw [div_le_iff₀ hρ0]; linarith
  have a2 : η / ρ ≤ 1 := by rw [div_le_one hρ0]; linarith
  have a3 : 0 < η / ρ := by positivity
  rw [Real.norm_of_nonneg (by linarith)]
  linarith

theorem D_bound {η ρ : ℝ} (h1 : 0 < η) (hρ : 2 * η + 10 ≤ ρ) {N : ℕ} (hN : Count η ρ N) :
    ‖F η ρ N‖ ≤ 8 ∧ ‖D η ρ N‖ ≤ 88 := by
  refine ⟨(norm_sum_le _ _).trans hN.sum, (norm_sum_le _ _).trans ?_⟩
  have hb : ∀ k ∈ Finset.range (N + 1), ‖dterm η ρ k‖ ≤ 11 * ‖term η ρ k‖ := fun k hk =>
    dterm_le h1 hρ (by
      have := Finset.mem_range.mp hk
      have := hN.high
      omega)
  refine (Finset.sum_le_sum hb).trans ?_
  rw [← Finset.mul_sum]
  have := hN.sum
  linarith

/-- The sums found by the code pass its own test. -/
theorem case3_eq {η ρ : ℝ} (h1 : 0 < η) (h2 : η ≤ 5) (hρ : 2 * η + 10 ≤ ρ) (σ : ℝ) :
    omGcase3 ρ η σ = .ok ((W η σ (stop η ρ 100 0) ρ).re, (W' η σ (stop η ρ 100 0) ρ).re) := by
  have hρ0 : 0 < ρ := by linarith
  have hN := count h1.le h2 hρ
  have hs : asymptoticTerms ρ η 100 0 ⟨1, 0, 0, 1 - η / ρ, 1, 0, 0, 1 - η / ρ⟩
      = state η ρ (stop η ρ 100 0) := by
    rw [← terms_eq h1 hρ 100 0 rfl]
    congr 1
    have e : dterm η ρ 0 = I * ((1 - η / ρ : ℝ) : ℂ) := by
      rw [dterm, term_zero]; push_cast; simp
    simp [state, F, D, term_zero, e]
  set N := stop η ρ 100 0
  have hw := wron_near hρ0 N hN.sum
  have hw' : |(F η ρ N).re * (D η ρ N).im - (D η ρ N).re * (F η ρ N).im - 1| ≤ 1e-6 := by
    refine hw.trans ?_
    have := hN.next
    norm_num
    linarith
  have hser : asymptoticSeries η 100 ρ = some (state η ρ N) := by
    rw [asymptoticSeries]
    simp only [hs]
    rw [if_pos]
    exact hw'
  rw [omGcase3, if_neg (not_le.mpr hρ0), hser]
  have hre : (E η σ ρ).re = Real.cos (phase η σ ρ) := by
    rw [E, mul_comm, exp_ofReal_mul_I_re]
  have him : (E η σ ρ).im = Real.sin (phase η σ ρ) := by
    rw [E, mul_comm, exp_ofReal_mul_I_im]
  simp only [state, W, W', Complex.mul_re, hre, him]
  rw [phase]
  congr 2 <;> ring

/-- The number of terms does not change near a channel ratio, with at most a hundred exceptions. -/
theorem stop_locally {η ρ : ℝ} (hρ : 0 < ρ) (h : ∀ k < 100, ρ ^ 2 ≠ normSq (mul η k)) :
    ∀ᶠ x in 𝓝 ρ, stop η x 100 0 = stop η ρ 100 0 := by
  have key : ∀ k i : ℕ, i + k ≤ 100 → ∀ᶠ x in 𝓝 ρ, stop η x k i = stop η ρ k i := by
    intro k
    induction k with
    | zero => intro i _; exact Eventually.of_forall fun x => by rw [stop, stop]
    | succ k ih =>
      intro i hi
      have hc : Continuous fun x : ℝ => x ^ 2 := by fun_prop
      rcases lt_or_gt_of_ne (h i (by omega)) with hlt | hgt
      · filter_upwards [hc.continuousAt.eventually_lt_const hlt] with x hx
        rw [stop, stop, if_pos hx, if_pos hlt]
      · filter_upwards [hc.continuousAt.eventually_const_lt hgt, ih (i + 1) (by omega)] with x hx hr
        rw [stop, stop, if_neg (not_lt.mpr hx.le), if_neg (not_lt.mpr hgt.le), hr]
  exact key 100 0 (by norm_num)

end Verif.Weak
