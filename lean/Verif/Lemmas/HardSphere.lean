import Verif.Model.HardSphere
import Verif.Spec.HardSphere
import Mathlib.Tactic.FieldSimp
import Mathlib.Tactic.LinearCombination
import Mathlib.Tactic.IntervalCases
import Mathlib.Analysis.SpecialFunctions.Complex.Arctan

namespace Verif

open Spec

/-- Closed forms of the recursion for `l = 0..4`. -/
noncomputable def hsP (l : ℕ) (ρ : ℝ) : ℝ :=
  match l with
  | 0 => ρ
  | 1 => ρ ^ 3 / (1 + ρ ^ 2)
  | 2 => ρ ^ 5 / (9 + 3 * ρ ^ 2 + ρ ^ 4)
  | 3 => ρ ^ 7 / (225 + 45 * ρ ^ 2 + 6 * ρ ^ 4 + ρ ^ 6)
  | _ => ρ ^ 9 / (11025 + 1575 * ρ ^ 2 + 135 * ρ ^ 4 + 10 * ρ ^ 6 + ρ ^ 8)

noncomputable def hsS (l : ℕ) (ρ : ℝ) : ℝ :=
  match l with
  | 0 => 0
  | 1 => -1 / (1 + ρ ^ 2)
  | 2 => -(18 + 3 * ρ ^ 2) / (9 + 3 * ρ ^ 2 + ρ ^ 4)
  | 3 => -(675 + 90 * ρ ^ 2 + 6 * ρ ^ 4) / (225 + 45 * ρ ^ 2 + 6 * ρ ^ 4 + ρ ^ 6)
  | _ => -(44100 + 4725 * ρ ^ 2 + 270 * ρ ^ 4 + 10 * ρ ^ 6)
           / (11025 + 1575 * ρ ^ 2 + 135 * ρ ^ 4 + 10 * ρ ^ 6 + ρ ^ 8)

theorem d1_pos (ρ : ℝ) : 0 < 1 + ρ ^ 2 := by positivity
theorem d2_pos (ρ : ℝ) : 0 < 9 + 3 * ρ ^ 2 + ρ ^ 4 := by positivity
theorem d3_pos (ρ : ℝ) : 0 < 225 + 45 * ρ ^ 2 + 6 * ρ ^ 4 + ρ ^ 6 := by positivity
theorem d4_pos (ρ : ℝ) : 0 < 11025 + 1575 * ρ ^ 2 + 135 * ρ ^ 4 + 10 * ρ ^ 6 + ρ ^ 8 := by
  positivity

theorem hardSphere_step (ρ : ℝ) (l : ℕ) (P S d : ℝ) (h : hardSphere ρ l = (P, S))
    (hd : ((l + 1 : ℝ) - S) ^ 2 + P ^ 2 = d) :
    hardSphere ρ (l + 1) = (ρ ^ 2 * P / d, ρ ^ 2 * ((l + 1 : ℝ) - S) / d - (l + 1 : ℝ)) := by
  simp only [hardSphere, h, hd]

theorem hardSphere_zero (ρ : ℝ) : hardSphere ρ 0 = (hsP 0 ρ, hsS 0 ρ) := rfl

theorem hardSphere_one (ρ : ℝ) : hardSphere ρ 1 = (hsP 1 ρ, hsS 1 ρ) := by
  have h := (d1_pos ρ).ne'
  rw [hardSphere_step ρ 0 _ _ (1 + ρ ^ 2) (hardSphere_zero ρ) (by simp [hsP, hsS])]
  simp only [hsP, hsS, Nat.cast_zero, Prod.mk.injEq]
  constructor
  · field_simp
  · field_simp; ring

theorem hardSphere_two (ρ : ℝ) : hardSphere ρ 2 = (hsP 2 ρ, hsS 2 ρ) := by
  have h := (d1_pos ρ).ne'
  have h2 := (d2_pos ρ).ne'
  rw [hardSphere_step ρ 1 _ _ ((9 + 3 * ρ ^ 2 + ρ ^ 4) / (1 + ρ ^ 2)) (hardSphere_one ρ) (by
    simp only [hsP, hsS, Nat.cast_one]; field_simp; ring)]
  simp only [hsP, hsS, Nat.cast_one, Prod.mk.injEq]
  constructor
  · field_simp
  · field_simp; ring

theorem hardSphere_three (ρ : ℝ) : hardSphere ρ 3 = (hsP 3 ρ, hsS 3 ρ) := by
  have h := (d2_pos ρ).ne'
  have h2 := (d3_pos ρ).ne'
  rw [hardSphere_step ρ 2 _ _ ((225 + 45 * ρ ^ 2 + 6 * ρ ^ 4 + ρ ^ 6) / (9 + 3 * ρ ^ 2 + ρ ^ 4))
    (hardSphere_two ρ) (by
    simp only [hsP, hsS, Nat.cast_ofNat]; field_simp; ring)]
  simp only [hsP, hsS, Nat.cast_ofNat, Prod.mk.injEq]
  constructor
  · field_simp
  · field_simp; ring

theorem hardSphere_four (ρ : ℝ) : hardSphere ρ 4 = (hsP 4 ρ, hsS 4 ρ) := by
  have h := (d3_pos ρ).ne'
  have h2 := (d4_pos ρ).ne'
  rw [hardSphere_step ρ 3 _ _ ((11025 + 1575 * ρ ^ 2 + 135 * ρ ^ 4 + 10 * ρ ^ 6 + ρ ^ 8)
      / (225 + 45 * ρ ^ 2 + 6 * ρ ^ 4 + ρ ^ 6))
    (hardSphere_three ρ) (by
    simp only [hsP, hsS, Nat.cast_ofNat]; field_simp; ring)]
  simp only [hsP, hsS, Nat.cast_ofNat, Prod.mk.injEq]
  constructor
  · field_simp
  · field_simp; ring

theorem hardSphere_eq {l : ℕ} (hl : l ≤ 4) (ρ : ℝ) : hardSphere ρ l = (hsP l ρ, hsS l ρ) := by
  interval_cases l
  · exact hardSphere_zero ρ
  · exact hardSphere_one ρ
  · exact hardSphere_two ρ
  · exact hardSphere_three ρ
  · exact hardSphere_four ρ

theorem calculatePenetrability_eq (lib : CoulombLibrary) {l : ℕ} (hl : l ≤ 4) (ρ η : ℝ) :
    calculatePenetrability lib .neutron l ρ η = .ok (hsP l ρ) := by
  interval_cases l <;> simp only [calculatePenetrability, hsP, horner, List.reverse_cons,
    List.reverse_nil, List.nil_append, List.cons_append, List.foldl_cons, List.foldl_nil]
  all_goals (congr 1; ring_nf)

theorem calculateShiftFactor_eq (lib : CoulombLibrary) {l : ℕ} (hl : l ≤ 4) (ρ η : ℝ) :
    calculateShiftFactor lib .neutron l ρ η = .ok (hsS l ρ) := by
  interval_cases l <;> simp only [calculateShiftFactor, hsS, horner, List.reverse_cons,
    List.reverse_nil, List.nil_append, List.cons_append, List.foldl_cons, List.foldl_nil]
  all_goals (congr 1; ring_nf)


/-! ### Phase shifts -/

noncomputable def hsX (l : ℕ) (ρ : ℝ) : ℝ :=
  match l with
  | 0 => 0
  | 1 => ρ
  | 2 => 3 * ρ
  | 3 => ρ * (15 - ρ ^ 2)
  | _ => ρ * (105 - 10 * ρ ^ 2)

noncomputable def hsY (l : ℕ) (ρ : ℝ) : ℝ :=
  match l with
  | 0 => 1
  | 1 => 1
  | 2 => 3 - ρ ^ 2
  | 3 => 15 - 6 * ρ ^ 2
  | _ => 105 - 45 * ρ ^ 2 + ρ ^ 4

theorem hsXY_pos {l : ℕ} (hl : l ≤ 4) (ρ : ℝ) : 0 < hsY l ρ ^ 2 + hsX l ρ ^ 2 := by
  interval_cases l <;> simp only [hsX, hsY]
  · norm_num
  · positivity
  · have := d2_pos ρ; nlinarith
  · have := d3_pos ρ; nlinarith
  · have := d4_pos ρ; nlinarith

theorem hsXY_ne {l : ℕ} (hl : l ≤ 4) (ρ : ℝ) :
    (hsY l ρ : ℂ) + Complex.I * hsX l ρ ≠ 0 ∧ (hsY l ρ : ℂ) - Complex.I * hsX l ρ ≠ 0 := by
  have h := hsXY_pos hl ρ
  have key : ((hsY l ρ : ℂ) + Complex.I * hsX l ρ) * ((hsY l ρ : ℂ) - Complex.I * hsX l ρ)
      = ((hsY l ρ ^ 2 + hsX l ρ ^ 2 : ℝ) : ℂ) := by
    push_cast
    linear_combination (-(hsX l ρ : ℂ) ^ 2) * Complex.I_sq
  have hne : ((hsY l ρ : ℂ) + Complex.I * hsX l ρ) * ((hsY l ρ : ℂ) - Complex.I * hsX l ρ) ≠ 0 := by
    rw [key]; exact_mod_cast h.ne'
  exact ⟨left_ne_zero_of_mul hne, right_ne_zero_of_mul hne⟩

open Complex in
theorem exp_two_I_arctan (t : ℝ) :
    exp (2 * I * Real.arctan t) = (1 + I * t) / (1 - I * t) := by
  have h1 : (1 + t ^ 2 : ℝ) ≠ 0 := by positivity
  have hs : (Real.sqrt (1 + t ^ 2)) ≠ 0 := by positivity
  have hsq : ((Real.sqrt (1 + t ^ 2) : ℝ) : ℂ) ^ 2 = 1 + (t : ℂ) ^ 2 := by
    rw [← ofReal_pow, Real.sq_sqrt (by positivity)]; push_cast; ring
  have hd : (1 - I * t : ℂ) ≠ 0 := by
    intro h
    have := congrArg Complex.re h
    simp at this
  have e : exp (I * Real.arctan t) = (1 + I * t) / Real.sqrt (1 + t ^ 2) := by
    rw [mul_comm, exp_mul_I, ← ofReal_cos, ← ofReal_sin, Real.cos_arctan, Real.sin_arctan]
    push_cast
    ring
  rw [show (2 : ℂ) * I * Real.arctan t = I * Real.arctan t + I * Real.arctan t by ring, exp_add, e]
  have hs' : ((Real.sqrt (1 + t ^ 2) : ℝ) : ℂ) ≠ 0 := by exact_mod_cast hs
  rw [div_mul_div_comm, ← sq, ← sq, hsq, div_eq_div_iff (by
    have : ((1 + t ^ 2 : ℝ) : ℂ) ≠ 0 := by exact_mod_cast h1
    simpa using this) hd]
  linear_combination (-(1 + I * t) * (t : ℂ) ^ 2) * I_sq

open Complex in
theorem exp_two_I_atanQuotient (x y : ℝ) (h : y = 0 → x ≠ 0) :
    exp (2 * I * atanQuotient x y) = (y + I * x) / (y - I * x) := by
  unfold atanQuotient
  by_cases hy : y = 0
  · have hx : (x : ℂ) ≠ 0 := by exact_mod_cast h hy
    have half : ∀ s : ℂ, s = 1 ∨ s = -1 → exp (2 * I * (s * (Real.pi / 2))) = -1 := by
      rintro s (rfl | rfl)
      · rw [show (2 : ℂ) * I * (1 * (Real.pi / 2)) = Real.pi * I by ring, exp_pi_mul_I]
      · rw [show (2 : ℂ) * I * (-1 * (Real.pi / 2)) = -(Real.pi * I) by ring, exp_neg, exp_pi_mul_I]
        norm_num
    have rhs : ((y : ℂ) + I * x) / (y - I * x) = -1 := by
      rw [hy]
      simp only [ofReal_zero, zero_add, zero_sub]
      rw [div_neg, div_self (mul_ne_zero I_ne_zero hx)]
    rw [if_pos hy, rhs]
    split
    · have := half 1 (Or.inl rfl); push_cast; simpa using this
    · have := half (-1) (Or.inr rfl); push_cast; simpa using this
  · rw [if_neg hy, exp_two_I_arctan]
    have hy' : (y : ℂ) ≠ 0 := by exact_mod_cast hy
    push_cast
    rw [show (1 + I * ((x : ℂ) / y)) = (y + I * x) / y by field_simp,
      show (1 - I * ((x : ℂ) / y)) = (y - I * x) / y by field_simp,
      div_div_div_cancel_right₀ hy']

theorem calculatePhaseShift_eq (lib : CoulombLibrary) {l : ℕ} (hl : l ≤ 4) (ρ η : ℝ) :
    calculatePhaseShift lib .neutron l ρ η = .ok (ρ - atanQuotient (hsX l ρ) (hsY l ρ)) := by
  interval_cases l <;> simp only [calculatePhaseShift, hsX, hsY, horner, List.reverse_cons,
    List.reverse_nil, List.nil_append, List.cons_append, List.foldl_cons, List.foldl_nil]
  · simp [atanQuotient]
  · simp [atanQuotient]
  · rw [← sq]
  · rw [← sq]
  · congr 2; ring_nf

open Complex in
theorem exp_phase (lib : CoulombLibrary) {l : ℕ} (hl : l ≤ 4) (ρ η φ : ℝ)
    (h : calculatePhaseShift lib .neutron l ρ η = .ok φ) :
    exp (2 * I * φ) = exp (2 * I * ρ) * ((hsY l ρ - I * hsX l ρ) / (hsY l ρ + I * hsX l ρ)) := by
  rw [calculatePhaseShift_eq lib hl] at h
  obtain rfl : _ = φ := by injection h
  have hne := hsXY_pos hl ρ
  push_cast
  rw [show (2 : ℂ) * I * (ρ - atanQuotient (hsX l ρ) (hsY l ρ))
    = 2 * I * ρ - 2 * I * atanQuotient (hsX l ρ) (hsY l ρ) by ring, exp_sub,
    exp_two_I_atanQuotient, div_div_eq_mul_div, mul_div_assoc]
  intro hy hx
  rw [hy, hx] at hne
  norm_num at hne

theorem hsXY_step {l : ℕ} (hl : l + 1 ≤ 4) (ρ : ℝ) :
    hsY l ρ * ((l + 1 : ℝ) - hsS l ρ) - hsX l ρ * hsP l ρ = hsY (l + 1) ρ ∧
    hsY l ρ * hsP l ρ + hsX l ρ * ((l + 1 : ℝ) - hsS l ρ) = hsX (l + 1) ρ := by
  have h1 := (d1_pos ρ).ne'
  have h2 := (d2_pos ρ).ne'
  have h3 := (d3_pos ρ).ne'
  obtain h | h | h | h : l = 0 ∨ l = 1 ∨ l = 2 ∨ l = 3 := by omega
  all_goals subst h; simp only [hsX, hsY, hsP, hsS, Nat.cast_zero, Nat.cast_one, Nat.cast_ofNat]
  · constructor <;> ring
  · constructor <;> field_simp <;> ring
  · constructor <;> field_simp <;> ring
  · constructor <;> field_simp <;> ring

open Complex in
theorem hardSpherePhase_eq {l : ℕ} (hl : l ≤ 4) (ρ : ℝ) :
    hardSpherePhase ρ l
      = exp (2 * I * ρ) * ((hsY l ρ - I * hsX l ρ) / (hsY l ρ + I * hsX l ρ)) := by
  induction l with
  | zero => simp [hardSpherePhase, hsX, hsY]
  | succ l ih =>
    have hl' : l ≤ 4 := by omega
    simp only [hardSpherePhase]
    rw [ih hl', hardSphere_eq hl', mul_div_assoc, mul_assoc]
    congr 1
    obtain ⟨hy, hx⟩ := hsXY_step hl ρ
    rw [← hy, ← hx, div_mul_div_comm]
    push_cast
    congr 1
    · linear_combination ((hsX l ρ : ℂ) * hsP l ρ) * I_sq
    · linear_combination (hsX l ρ * hsP l ρ : ℂ) * I_sq

end Verif
