import Verif.Lemmas.WeakCoulomb3
import Verif.Lemmas.Riccati3
import Mathlib.Tactic.IntervalCases

/-!
# One point in a weak field

The point `η = 1/100`, `ρ = 63/5`.
-/

namespace Verif.Weak

open Complex Filter Topology

/-! ## The recurrence in whole numbers -/

/-- Two neighbours of the sequence of the irregular functions, scaled to whole numbers. -/
def pair (n : ℤ) : ℕ → ℤ × ℤ
  | 0 => (1, n)
  | l + 1 => ((pair n l).2,
      (2 * l + 3) * (63 + 500 * (l + 1) * (l + 2)) * (pair n l).2
        - (l + 2) * (if l = 0 then 1 else l) * 3969 * (10000 * (l + 1) * (l + 1) + 1) * (pair n l).1)

theorem pair_eq {p p' : ℝ} {n : ℤ} (hp : p = 1)
    (hn : 6300 * ((1 / 100 + 1 / (63 / 5)) * p - p') = n) (l : ℕ) :
    ∃ c : ℝ, 0 < c ∧ c * irregular (63 / 5) (1 / 100) p p' l = (pair n l).1 ∧
      c * (6300 * cs (1 / 100) (l + 1) * (if l = 0 then 1 else l : ℝ))
        * irregular (63 / 5) (1 / 100) p p' (l + 1) = (pair n l).2 := by
  induction l with
  | zero =>
    refine ⟨1, one_pos, ?_, ?_⟩
    · rw [irregular_zero, hp]; simp [pair]
    · have h := (cs_pos (1 / 100) (l := 1) le_rfl).ne'
      simp only [if_true, pair, one_mul, zero_add, mul_one]
      rw [← hn, irregular, upSeq, ← cs_one]
      field_simp
  | succ l ih =>
    obtain ⟨c, hc, h1, h2⟩ := ih
    have hcs := cs_pos (1 / 100) (l := l + 1) (by omega)
    set r : ℝ := if l = 0 then 1 else l with hr
    have hr0 : 0 < r := by
      rw [hr]; split
      · norm_num
      · exact_mod_cast Nat.pos_of_ne_zero ‹_›
    refine ⟨c * (6300 * cs (1 / 100) (l + 1) * r), by positivity, ?_, ?_⟩
    · rw [h2]; rfl
    · have hrec := recurrence_iff.mp
        (irregular_recurrence (63 / 5) (1 / 100) p p' (l := l + 1) (by omega))
      have hq : 10000 * cs (1 / 100) (l + 1) ^ 2 = 10000 * (l + 1 : ℝ) * (l + 1) + 1 := by
        rw [cs, Real.sq_sqrt (by positivity)]; push_cast; ring
      rw [if_neg (by omega)]
      simp only [pair, Nat.add_sub_cancel] at hrec ⊢
      push_cast at hrec ⊢
      rw [← hr, ← h1, ← h2, ← hq]
      linear_combination (6300 * 6300 * c * cs (1 / 100) (l + 1) * r) * hrec

theorem between_ne {ρ η r s p p' : ℝ} {l : ℕ} (hrs : r < s) (hp : 0 < p) (h1 : r * p ≤ p') (h2 : p' ≤ s * p)
    (h : 0 < irregular ρ η 1 r l * irregular ρ η 1 s l) : irregular ρ η p p' l ≠ 0 := by
  have hd : 0 < s - r := sub_pos.mpr hrs
  set a := (s * p - p') / (s - r) with ha
  set b := (p' - r * p) / (s - r) with hb
  have ha0 : 0 ≤ a := div_nonneg (by linarith) hd.le
  have hb0 : 0 ≤ b := div_nonneg (by linarith) hd.le
  have hab : a * 1 + b * 1 = p := by rw [ha, hb]; field_simp; ring
  have hab' : a * r + b * s = p' := by rw [ha, hb]; field_simp; ring
  have e := Riccati3.irregular_linear ρ η 1 r 1 s a b l
  rw [hab, hab'] at e
  rw [e]
  intro hz
  generalize irregular ρ η 1 r l = u at *
  generalize irregular ρ η 1 s l = v at *
  have h4 : a * u ^ 2 + b * (u * v) = 0 := by
    have : (a * u + b * v) * u = 0 := by rw [hz, zero_mul]
    linarith
  have hu : 0 < u ^ 2 := by
    rcases eq_or_ne u 0 with h' | h'
    · rw [h', zero_mul] at h; exact absurd h (lt_irrefl _)
    · positivity
  have h5 : 0 ≤ a * u ^ 2 := mul_nonneg ha0 hu.le
  have h6 : 0 ≤ b * (u * v) := mul_nonneg hb0 h.le
  have h7 : a = 0 := (mul_eq_zero.mp (by linarith : a * u ^ 2 = 0)).resolve_right hu.ne'
  have h8 : b = 0 := (mul_eq_zero.mp (by linarith : b * (u * v) = 0)).resolve_right h.ne'
  linarith

theorem signs : ∀ l ∈ List.range 70, l < 12 ∨ 0 < (pair 1193 l).1 * (pair (-67) l).1 := by
  decide +kernel

theorem irregular_ne {p p' : ℝ} (hp : 0 < p) (h1 : -(1 / 10) * p ≤ p') (h2 : p' ≤ 1 / 10 * p) {l : ℕ}
    (hl : 12 ≤ l) (hl' : l ≤ 69) : irregular (63 / 5) (1 / 100) p p' l ≠ 0 := by
  refine between_ne (by norm_num) hp h1 h2 ?_
  have hs := (signs l (List.mem_range.mpr (by omega))).resolve_left (by omega)
  obtain ⟨c, hc, e1, -⟩ := pair_eq (p := 1) (p' := -(1 / 10)) (n := 1193) rfl (by norm_num) l
  obtain ⟨d, hd, e2, -⟩ := pair_eq (p := 1) (p' := 1 / 10) (n := -67) rfl (by norm_num) l
  have hs' : (0 : ℝ) < ((pair 1193 l).1 : ℝ) * (pair (-67) l).1 := by exact_mod_cast hs
  rw [← e1, ← e2] at hs'
  have e : c * irregular (63 / 5) (1 / 100) 1 (-(1 / 10)) l * (d * irregular (63 / 5) (1 / 100) 1 (1 / 10) l)
      = c * d * (irregular (63 / 5) (1 / 100) 1 (-(1 / 10)) l
        * irregular (63 / 5) (1 / 100) 1 (1 / 10) l) := by ring
  rw [e] at hs'
  exact (mul_pos_iff_of_pos_left (mul_pos hc hd)).mp hs'

/-! ## The values at the point -/

theorem arctan_le {x : ℝ} (hx : 0 ≤ x) : 0 ≤ Real.arctan x ∧ Real.arctan x ≤ x := by
  have h0 := Real.arctan_nonneg.mpr hx
  refine ⟨h0, ?_⟩
  have := Real.le_tan h0 (Real.arctan_lt_pi_div_two x)
  rwa [Real.tan_arctan] at this

theorem log_range {x : ℝ} (h1 : 1 ≤ x) (h2 : x ≤ 32) : 0 ≤ Real.log x ∧ Real.log x ≤ 347 / 100 := by
  refine ⟨Real.log_nonneg h1, ?_⟩
  have h := Real.log_le_log (by linarith) h2
  rw [show (32 : ℝ) = 2 ^ 5 by norm_num, Real.log_pow] at h
  have := Real.log_two_lt_d9
  push_cast at h
  linarith

theorem sigma_small : -(29 / 1000) ≤ coulombSigma0 (1 / 100) ∧ coulombSigma0 (1 / 100) ≤ 27 / 1000 := by
  have h1 := log_range (x := 16 + 1 / 100 * (1 / 100)) (by norm_num) (by norm_num)
  have a1 := arctan_le (x := 1 / 100) (by norm_num)
  have a2 := arctan_le (x := 1 / 100 / 2) (by norm_num)
  have a3 := arctan_le (x := 1 / 100 / 3) (by norm_num)
  have a4 := arctan_le (x := 1 / 100 / 4) (by norm_num)
  simp only [coulombSigma0]
  generalize Real.arctan (1 / 100) = b1 at *
  generalize Real.arctan (1 / 100 / 2) = b2 at *
  generalize Real.arctan (1 / 100 / 3) = b3 at *
  generalize Real.arctan (1 / 100 / 4) = b4 at *
  generalize Real.log (16 + 1 / 100 * (1 / 100)) = lg at *
  norm_num at *
  constructor <;> linarith

theorem phase_small : |phase (1 / 100) (coulombSigma0 (1 / 100)) (63 / 5) - 2 * Real.pi - 2 * Real.pi|
    ≤ 63 / 1000 := by
  have h1 := log_range (x := 2 * (63 / 5)) (by norm_num) (by norm_num)
  obtain ⟨s1, s2⟩ := sigma_small
  have p1 := Real.pi_gt_d4
  have p2 := Real.pi_lt_d4
  rw [phase, abs_le]
  constructor <;> linarith

/-- The number of terms at the point. -/
noncomputable def N₀ : ℕ := stop (1 / 100) (63 / 5) 100 0

theorem values : 9 / 10 ≤ (W (1 / 100) (coulombSigma0 (1 / 100)) N₀ (63 / 5)).re ∧
    |(W' (1 / 100) (coulombSigma0 (1 / 100)) N₀ (63 / 5)).re| ≤ 9 / 100 := by
  have hρ : 2 * (1 / 100) + 10 < (63 / 5 : ℝ) := by norm_num
  have hN := count (η := 1 / 100) (by norm_num) (by norm_num) hρ.le
  have hspec := stop_spec (1 / 100) (63 / 5) 100 0
  change Count (1 / 100) (63 / 5) N₀ at hN
  change 0 ≤ N₀ ∧ N₀ ≤ 0 + 100 ∧ _ ∧ _ at hspec
  have t1 : ‖term (1 / 100) (63 / 5) 1‖ ≤ 1 / 2000 := by
    rw [term_norm_succ (by norm_num), term_zero, norm_one, mul_one, div_le_iff₀ (by norm_num)]
    refine (norm_le_abs_re_add_abs_im _).trans ?_
    rw [mul_re, mul_im]
    norm_num [abs_of_pos]
  have ts {k : ℕ} {p μ : ℝ} (hμ : 0 ≤ μ) (h : ‖term (1 / 100) (63 / 5) k‖ ≤ p)
      (hm : (1 / 100) ^ 2 + k ^ 2 + k + 1 / 2 ≤ μ * (2 * (k + 1)) * (63 / 5)) :
      ‖term (1 / 100) (63 / 5) (k + 1)‖ ≤ μ * p := by
    rw [term_norm_succ (by norm_num)]
    refine mul_le_mul ?_ h (norm_nonneg _) hμ
    rw [div_le_iff₀ (by norm_num)]
    refine (mul_norm_le _ k).trans ?_
    rw [div_le_iff₀ (by positivity)]
    linarith
  have t2 : ‖term (1 / 100) (63 / 5) 2‖ ≤ 1 / 20 * (1 / 2000) := ts (by norm_num) t1 (by norm_num)
  have t3 : ‖term (1 / 100) (63 / 5) 3‖ ≤ 1 / 10 * (1 / 20 * (1 / 2000)) :=
    ts (by norm_num) t2 (by norm_num)
  have dec {j : ℕ} (hj : j < N₀) : ‖term (1 / 100) (63 / 5) (j + 1)‖ ≤ ‖term (1 / 100) (63 / 5) j‖ := by
    have := hspec.2.2.1 j (Nat.zero_le j) hj
    rw [normSq_eq_norm_sq] at this
    rw [term_norm_succ (by norm_num)]
    refine mul_le_of_le_one_left (norm_nonneg _) ((div_le_one (by norm_num)).mpr ?_)
    exact le_of_sq_le_sq this (by norm_num)
  have mono : ∀ n, 3 ≤ n → n ≤ N₀ → ‖term (1 / 100) (63 / 5) n‖ ≤ 1 / 400000 := by
    intro n hn
    induction n, hn using Nat.le_induction with
    | base => intro _; exact t3.trans (by norm_num)
    | succ n hn ih => intro h; exact (dec (by omega)).trans (ih (by omega))
  have hsum : ∑ k ∈ Finset.range N₀, ‖term (1 / 100) (63 / 5) (k + 1)‖ ≤ 8 / 10000 := by
    have hs : ∀ n, 2 ≤ n → n ≤ N₀ → ∑ k ∈ Finset.range n, ‖term (1 / 100) (63 / 5) (k + 1)‖
        ≤ 1 / 2000 + 1 / 40000 + 1 / 400000 * (n - 2) := by
      intro n hn
      induction n, hn using Nat.le_induction with
      | base =>
        intro _
        rw [Finset.sum_range_succ, Finset.sum_range_one]
        norm_num at t1 t2 ⊢
        linarith
      | succ n hn ih =>
        intro h
        rw [Finset.sum_range_succ]
        have := ih (by omega)
        have := mono (n + 1) (by omega) h
        push_cast
        linarith
    have := hs N₀ (by have := hN.low; omega) le_rfl
    have hN' : (N₀ : ℝ) ≤ 100 := by exact_mod_cast hN.high
    linarith
  have hF : ‖F (1 / 100) (63 / 5) N₀ - 1‖ ≤ 8 / 10000 := by
    rw [F, Finset.sum_range_succ', term_zero, add_sub_cancel_right]
    exact (norm_sum_le _ _).trans hsum
  have hD : ‖D (1 / 100) (63 / 5) N₀ - I * ((1 - 1 / 100 / (63 / 5) : ℝ) : ℂ)‖ ≤ 88 / 10000 := by
    have e : dterm (1 / 100) (63 / 5) 0 = I * ((1 - 1 / 100 / (63 / 5) : ℝ) : ℂ) := by
      rw [dterm, term_zero]; push_cast; simp
    rw [D, Finset.sum_range_succ', e, add_sub_cancel_right]
    refine (norm_sum_le _ _).trans ?_
    have : ∀ k ∈ Finset.range N₀, ‖dterm (1 / 100) (63 / 5) (k + 1)‖
        ≤ 11 * ‖term (1 / 100) (63 / 5) (k + 1)‖ := by
      intro k hk
      exact dterm_le (by norm_num) (by norm_num) (by
        have := Finset.mem_range.mp hk
        have := hN.high
        omega)
    refine (Finset.sum_le_sum this).trans ?_
    rw [← Finset.mul_sum]
    linarith
  have hph := phase_small
  set φ := phase (1 / 100) (coulombSigma0 (1 / 100)) (63 / 5) with hφ
  have hcos : 99 / 100 ≤ Real.cos φ := by
    rw [← Real.cos_sub_two_pi, ← Real.cos_sub_two_pi]
    have h := Real.one_sub_sq_div_two_le_cos (x := φ - 2 * Real.pi - 2 * Real.pi)
    have h2 : (φ - 2 * Real.pi - 2 * Real.pi) ^ 2 ≤ (63 / 1000) ^ 2 := sq_le_sq' (abs_le.mp hph).1 (abs_le.mp hph).2
    linarith
  have hsin : |Real.sin φ| ≤ 63 / 1000 := by
    rw [← Real.sin_sub_two_pi, ← Real.sin_sub_two_pi]
    exact Real.abs_sin_le_abs.trans hph
  have hre : (E (1 / 100) (coulombSigma0 (1 / 100)) (63 / 5)).re = Real.cos φ := by
    rw [E, mul_comm, exp_ofReal_mul_I_re]
  have him : (E (1 / 100) (coulombSigma0 (1 / 100)) (63 / 5)).im = Real.sin φ := by
    rw [E, mul_comm, exp_ofReal_mul_I_im]
  set e := E (1 / 100) (coulombSigma0 (1 / 100)) (63 / 5) with he
  have ne : ‖e‖ = 1 := norm_E _ _ _
  constructor
  · have h1 : |(e * (F (1 / 100) (63 / 5) N₀ - 1)).re| ≤ 8 / 10000 := by
      refine (abs_re_le_norm _).trans ?_
      rw [norm_mul, ne, one_mul]; exact hF
    have h2 : (W (1 / 100) (coulombSigma0 (1 / 100)) N₀ (63 / 5)).re
        = Real.cos φ + (e * (F (1 / 100) (63 / 5) N₀ - 1)).re := by
      rw [W, ← he, ← hre, ← add_re]; congr 1; ring
    rw [h2]
    have := (abs_le.mp h1).1
    linarith
  · have h1 : |(e * (D (1 / 100) (63 / 5) N₀ - I * ((1 - 1 / 100 / (63 / 5) : ℝ) : ℂ))).re| ≤ 88 / 10000 := by
      refine (abs_re_le_norm _).trans ?_
      rw [norm_mul, ne, one_mul]; exact hD
    have h2 : (W' (1 / 100) (coulombSigma0 (1 / 100)) N₀ (63 / 5)).re
        = -((1 - 1 / 100 / (63 / 5) : ℝ) * Real.sin φ)
          + (e * (D (1 / 100) (63 / 5) N₀ - I * ((1 - 1 / 100 / (63 / 5) : ℝ) : ℂ))).re := by
      have h3 : (e * (I * ((1 - 1 / 100 / (63 / 5) : ℝ) : ℂ))).re
          = -((1 - 1 / 100 / (63 / 5) : ℝ) * Real.sin φ) := by
        rw [← mul_assoc, re_mul_ofReal, mul_I_re, him]; ring
      rw [W', ← he, ← h3, ← add_re]; congr 1; ring
    rw [h2]
    refine (abs_add_le _ _).trans ?_
    rw [abs_neg, abs_mul, abs_of_pos (by norm_num)]
    have : (1 - 1 / 100 / (63 / 5) : ℝ) * |Real.sin φ| ≤ 1 * (63 / 1000) :=
      mul_le_mul (by norm_num) hsin (abs_nonneg _) (by norm_num)
    linarith

theorem point_ne {k : ℕ} (hk : k < 100) : (63 / 5 : ℝ) ^ 2 ≠ normSq (mul (1 / 100) k) := by
  rw [mul_normSq]
  intro h
  have hk0 : (0 : ℝ) < 2 * (k + 1) := by positivity
  rw [eq_div_iff (by positivity)] at h
  have h2 : ((158760000 * (2 * (k + 1)) ^ 2 * 100 : ℕ) : ℝ)
      = (((1 + 10000 * k ^ 2) * (1 + 10000 * (k + 1) ^ 2) : ℕ) : ℝ) := by
    push_cast
    linarith
  have h3 : 158760000 * (2 * (k + 1)) ^ 2 * 100 = (1 + 10000 * k ^ 2) * (1 + 10000 * (k + 1) ^ 2) := by
    exact_mod_cast h2
  interval_cases k <;> omega

end Verif.Weak
