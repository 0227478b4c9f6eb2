import Verif.Model.OldBreitWigner
import Verif.Spec.Old
import Mathlib.Tactic.LinearCombination
import Mathlib.Tactic.IntervalCases
import Mathlib.Algebra.BigOperators.Intervals

/-!
# Property C43: statistical factors of the older multi-level code
-/

namespace Verif.Old

open Spec

/-- Twice the half-integers, and the number of steps between the lowest and the highest J. -/
theorem highest_sub_lowest (n l : ℕ) : ∃ m : ℕ, highestJ (n / 2) l = lowestJ (n / 2) l + m := by
  unfold highestJ lowestJ
  rcases lt_trichotomy n (2 * l) with h | h | h
  · have h' : (n : ℚ) + 1 ≤ 2 * l := by exact_mod_cast h
    refine ⟨n + 1, ?_⟩
    rw [abs_of_nonpos (a := (n : ℚ) / 2 - l) (by linarith), abs_of_nonneg (by linarith)]
    push_cast
    ring
  · have h' : (n : ℚ) = 2 * l := by exact_mod_cast h
    refine ⟨2 * l, ?_⟩
    rw [h', show (2 : ℚ) * l / 2 - l = 0 by ring, abs_zero, abs_of_nonpos (by norm_num)]
    push_cast
    ring
  · have h' : (2 * l : ℚ) + 1 ≤ n := by exact_mod_cast h
    refine ⟨2 * l + 1, ?_⟩
    rw [abs_of_nonneg (a := (n : ℚ) / 2 - l) (by linarith), abs_of_nonneg (by linarith)]
    push_cast
    ring

theorem gauss (a d : ℚ) (m : ℕ) : ∑ k ∈ Finset.range (m + 1), (2 * (a + k) + 1) / d
    = (m + 1) * (2 * a + m + 1) / d := by
  induction m with
  | zero => simp
  | succ m ih =>
    rw [Finset.sum_range_succ, ih]
    push_cast
    ring

theorem factorSum_eq (n l : ℕ) : factorSum (n / 2) l
    = (highestJ (n / 2) l - lowestJ (n / 2) l + 1) * (highestJ (n / 2) l + lowestJ (n / 2) l + 1)
      / (4 * (n / 2) + 2) := by
  obtain ⟨m, hm⟩ := highest_sub_lowest n l
  unfold factorSum neutronFactor
  rw [hm, add_sub_cancel_left, Nat.floor_natCast, gauss]
  congr 1
  ring

/-- C43: the closed form of the older code is the sum of the statistical factors, for every target spin
and every `l`. -/
theorem C43_sum (I : ℚ) (hI : HalfInt I) (l : ℕ) :
    statisticalFactorSummation I l = .ok (factorSum I l) := by
  obtain ⟨n, rfl⟩ := hI
  rw [factorSum_eq]
  unfold statisticalFactorSummation highestJ lowestJ
  have h : (4 : ℚ) * (n / 2) + 2 ≠ 0 := by positivity
  rw [show (0.5 : ℚ) = 1 / 2 by norm_num]
  simp only [if_neg h]

/-- C43: the sum is over the total angular momenta that some channel spin allows, each once. -/
theorem C43_values (I : ℚ) (hI : HalfInt I) (l : ℕ) (J : ℚ) :
    AllowedJ I l J ↔
      ∃ k ∈ Finset.range (⌊highestJ I l - lowestJ I l⌋₊ + 1), J = lowestJ I l + k := by
  obtain ⟨n, rfl⟩ := hI
  obtain ⟨m, hm⟩ := highest_sub_lowest n l
  rw [hm, add_sub_cancel_left, Nat.floor_natCast]
  have hn : (0 : ℚ) ≤ n := Nat.cast_nonneg n
  have hl : (0 : ℚ) ≤ l := Nat.cast_nonneg l
  constructor
  · rintro ⟨s, ⟨h1, h2, a, ha⟩, h3, h4, b, hb⟩
    have h1' := abs_le.mp h1
    have h3' := abs_le.mp h3
    have hJ0 : 0 ≤ J := le_trans (abs_nonneg _) h3
    have hlow : lowestJ (n / 2) l ≤ J := by
      unfold lowestJ
      rcases lt_trichotomy n (2 * l) with h | h | h
      · have h' : (n : ℚ) + 1 ≤ 2 * l := by exact_mod_cast h
        rw [abs_of_nonpos (a := (n : ℚ) / 2 - l) (by linarith), abs_of_nonneg (by linarith)]
        linarith
      · have h' : (n : ℚ) = 2 * l := by exact_mod_cast h
        rw [h', show (2 : ℚ) * l / 2 - l = 0 by ring, abs_zero, abs_of_nonpos (by norm_num)]
        have h7 : 2 * J + 1 = ((2 * (b - a + 1) : ℤ) : ℚ) := by
          push_cast
          linarith
        have h8 : (1 : ℤ) ≤ 2 * (b - a + 1) := by
          have : (1 : ℚ) ≤ ((2 * (b - a + 1) : ℤ) : ℚ) := by linarith
          exact_mod_cast this
        have h9 : (2 : ℤ) ≤ 2 * (b - a + 1) := by omega
        have h10 : (2 : ℚ) ≤ ((2 * (b - a + 1) : ℤ) : ℚ) := by exact_mod_cast h9
        linarith
      · have h' : (2 * l : ℚ) + 1 ≤ n := by exact_mod_cast h
        rw [abs_of_nonneg (a := (n : ℚ) / 2 - l) (by linarith), abs_of_nonneg (by linarith)]
        linarith [h1'.1, h1'.2, h3'.1, h3'.2]
    have hhigh : J ≤ highestJ (n / 2) l := by
      unfold highestJ
      linarith
    -- the difference to the highest one is an integer
    have hint : ∃ c : ℤ, highestJ (n / 2) l - J = c := by
      refine ⟨a + 2 * l - b, ?_⟩
      unfold highestJ
      push_cast
      linarith
    obtain ⟨c, hc⟩ := hint
    have hcm : J = lowestJ (n / 2) l + ((m : ℤ) - c : ℤ) := by
      push_cast
      linarith
    have h0 : (0 : ℤ) ≤ (m : ℤ) - c := by
      have : (0 : ℚ) ≤ (((m : ℤ) - c : ℤ) : ℚ) := by linarith
      exact_mod_cast this
    have h5 : (m : ℤ) - c ≤ m := by
      have : (0 : ℚ) ≤ (c : ℚ) := by linarith
      have : (0 : ℤ) ≤ c := by exact_mod_cast this
      omega
    refine ⟨((m : ℤ) - c).toNat, Finset.mem_range.mpr (by omega), ?_⟩
    rw [hcm]
    congr 1
    exact_mod_cast (Int.toNat_of_nonneg h0).symm
  · rintro ⟨k, hk, rfl⟩
    have hk' : k ≤ m := Nat.lt_succ_iff.mp (Finset.mem_range.mp hk)
    have hkm : (k : ℚ) ≤ m := by exact_mod_cast hk'
    have hk0 : (0 : ℚ) ≤ k := Nat.cast_nonneg k
    unfold AllowedJ Couples
    -- the higher channel spin, unless it is too high
    by_cases hs : |(l : ℚ) - (n / 2 + 1 / 2)| ≤ lowestJ (n / 2) l + k
    · refine ⟨n / 2 + 1 / 2, ⟨?_, by linarith, n + 1, by push_cast; ring⟩, hs, ?_, ?_⟩
      · rw [abs_le]
        constructor <;> linarith
      · unfold highestJ at hm
        linarith
      · refine ⟨n + 1 + 2 * l - m + k, ?_⟩
        unfold highestJ at hm
        push_cast
        linarith
    · rw [not_le] at hs
      have hn1 : 2 * l < n := by
        unfold lowestJ at hs
        rcases lt_trichotomy n (2 * l) with h | h | h
        · have h' : (n : ℚ) + 1 ≤ 2 * l := by exact_mod_cast h
          exfalso
          rw [abs_of_nonpos (a := (n : ℚ) / 2 - l) (by linarith), abs_of_nonneg (by linarith),
            abs_of_nonneg (by linarith)] at hs
          linarith
        · have h' : (n : ℚ) = 2 * l := by exact_mod_cast h
          exfalso
          rw [h', show (2 : ℚ) * l / 2 - l = 0 by ring, abs_zero,
            show (l : ℚ) - (2 * l / 2 + 1 / 2) = -(1 / 2) by ring] at hs
          norm_num at hs
          linarith
        · exact h
      have h' : (2 * l : ℚ) + 1 ≤ n := by exact_mod_cast hn1
      have hlow : lowestJ (n / 2) l = n / 2 - l - 1 / 2 := by
        unfold lowestJ
        rw [abs_of_nonneg (a := (n : ℚ) / 2 - l) (by linarith), abs_of_nonneg (by linarith)]
      rw [hlow, abs_of_nonpos (by linarith)] at hs
      have hk1 : (k : ℚ) < 1 := by linarith
      have hk2 : k = 0 := by
        have : k < 1 := by exact_mod_cast hk1
        omega
      subst hk2
      refine ⟨n / 2 - 1 / 2, ⟨?_, by linarith, n, by push_cast; ring⟩, ?_, ?_, ?_⟩
      · rw [abs_le]
        constructor <;> linarith
      · rw [hlow, abs_of_nonpos (by linarith)]
        simp
        linarith
      · rw [hlow]
        simp
        linarith
      · refine ⟨n - 1, ?_⟩
        rw [hlow]
        push_cast
        ring

theorem cases_small (n l : ℕ) (hn : n ≤ 7) (hl : l ≤ 4) : ∃ d, D (n / 2) l = .ok d ∧ 0 ≤ d ∧
    |d - (2 * l + 1 - factorSum (n / 2) l)| ≤ 1 / 10 ^ 15 := by
  rw [factorSum_eq]
  refine ⟨repeatedFactors.getD (5 * n + l) 0, ?_⟩
  interval_cases n <;> interval_cases l <;> decide +kernel

/-- C43: the factors for repeated J are `2 l + 1` minus the sum of the statistical factors, up to the
rounding of the decimals, for every target spin and `l` up to 4. -/
theorem C43_repeated (I : ℚ) (hI : HalfInt I) (l : ℕ) (hl : l ≤ 4) :
    ∃ d, D I l = .ok d ∧ 0 ≤ d ∧ |d - (2 * l + 1 - factorSum I l)| ≤ 1 / 10 ^ 15 := by
  obtain ⟨n, rfl⟩ := hI
  by_cases hn : n ≤ 7
  · exact cases_small n l hn hl
  have hn' : (8 : ℚ) ≤ n := by exact_mod_cast (by omega : 8 ≤ n)
  have hl' : (l : ℚ) ≤ 4 := by exact_mod_cast hl
  refine ⟨l, ?_, Nat.cast_nonneg l, ?_⟩
  · unfold D
    rw [if_pos (by norm_num; linarith)]
  · have : (l : ℚ) - (2 * l + 1 - factorSum (n / 2) l) = 0 := by
      rw [factorSum_eq]
      unfold highestJ lowestJ
      have h0 : (4 : ℚ) * (n / 2) + 2 ≠ 0 := by positivity
      rcases (by linarith : 2 * (l : ℚ) ≤ n).lt_or_eq with h | h
      · have h' : (2 * l : ℚ) + 1 ≤ n := by exact_mod_cast h
        rw [abs_of_nonneg (a := (n : ℚ) / 2 - l) (by linarith), abs_of_nonneg (by linarith)]
        field_simp
        ring
      · rw [← h, show (2 : ℚ) * l / 2 - l = 0 by ring, abs_zero, abs_of_nonpos (by norm_num)]
        rw [← h] at h0
        field_simp
        ring
    rw [this, abs_zero]
    positivity

/-- C43: the two together give `2 l + 1`. -/
theorem C43_total (I : ℚ) (hI : HalfInt I) (l : ℕ) (hl : l ≤ 4) : ∃ d g, D I l = .ok d ∧
    statisticalFactorSummation I l = .ok g ∧ |d + g - (2 * l + 1)| ≤ 1 / 10 ^ 15 := by
  obtain ⟨d, h1, -, h2⟩ := C43_repeated I hI l hl
  refine ⟨d, _, h1, C43_sum I hI l, ?_⟩
  rwa [show d + factorSum I l - (2 * l + 1) = d - (2 * l + 1 - factorSum I l) by ring]

/-- Beyond `l = 4` the array is left: undefined for I = 7/2, and the values of the next spin for smaller
ones. The code that makes l values rejects such `l`. -/
theorem C43_beyond : D (7 / 2) 5 = .error .undefined := by decide +kernel

/-- A target of spin 1 and `l = 2`: J = 1/2, ..., 7/2. -/
example : AllowedJ 1 2 (7 / 2) ∧ factorSum 1 2 = 10 / 3 ∧ D 1 2 = .ok 1.666666666666667 := by
  refine ⟨(C43_values 1 ⟨2, by norm_num⟩ 2 _).mpr ⟨3, ?_, ?_⟩, ?_, by decide +kernel⟩
  · decide +kernel
  · decide +kernel
  · decide +kernel

end Verif.Old
