import Verif.Spec.RMatrix
import Verif.Lemmas.OldReichMoore

/-!
# Collision matrices of spin groups that consist of independent parts

A Reich-Moore spin group has one part for each elastic channel: that channel and its fission channels. No
resonance has widths in two parts, so that the collision matrix is block diagonal.
-/

namespace Verif.Blocks

open Complex Spec

/-! ## Block diagonal matrices -/

section Inverse

variable {n κ : Type*} [Fintype n] [DecidableEq n] [DecidableEq κ]

/-- Sums over the indices of one part. -/
theorem sum_part {t : n → κ × Fin 3} (ht : Function.Injective t) (k : κ) (f : Fin 3 → ℂ)
    (hf : ∀ j, (k, j) ∉ Set.range t → f j = 0) :
    ∑ c, (if (t c).1 = k then f (t c).2 else 0) = ∑ j, f j := by
  classical
  have h1 : ∀ c, (if (t c).1 = k then f (t c).2 else 0) = ∑ j, if t c = (k, j) then f j else 0 := by
    intro c
    by_cases h : (t c).1 = k
    · rw [if_pos h, Finset.sum_eq_single (t c).2]
      · have h2 : t c = (k, (t c).2) := Prod.ext h rfl
        rw [if_pos h2]
      · intro j _ hj
        rw [if_neg]
        intro h2
        exact hj (by rw [h2])
      · intro h2
        exact absurd (Finset.mem_univ _) h2
    · rw [if_neg h, Finset.sum_eq_zero]
      intro j _
      rw [if_neg]
      intro h2
      exact h (by rw [h2])
  rw [Finset.sum_congr rfl fun c _ => h1 c, Finset.sum_comm]
  refine Finset.sum_congr rfl fun j _ => ?_
  by_cases h : (k, j) ∈ Set.range t
  · obtain ⟨c, hc⟩ := h
    rw [Finset.sum_eq_single c]
    · rw [if_pos hc]
    · intro c' _ hne
      rw [if_neg]
      intro h2
      exact hne (ht (h2.trans hc.symm))
    · intro h2
      exact absurd (Finset.mem_univ _) h2
  · rw [hf j h, Finset.sum_eq_zero]
    intro c _
    split <;> rfl

/-- The inverse of a block diagonal matrix: the parts may lack channels, which then have no widths. -/
theorem inverse_part {t : n → κ × Fin 3} (ht : Function.Injective t) {A : κ → Matrix (Fin 3) (Fin 3) ℂ}
    {M : Matrix n n ℂ} (hM : ∀ c c', M c c' = if (t c).1 = (t c').1 then A (t c).1 (t c).2 (t c').2 else 0)
    (hA : ∀ k, (A k).det ≠ 0)
    (h0 : ∀ k j, (k, j) ∉ Set.range t → ∀ i, i ≠ j → A k i j = 0) :
    M⁻¹ = Matrix.of fun c c' => if (t c).1 = (t c').1 then (A (t c).1)⁻¹ (t c).2 (t c').2 else 0 := by
  apply Matrix.inv_eq_right_inv
  ext c c''
  rw [Matrix.mul_apply]
  have h1 : ∀ c', M c c' * Matrix.of (fun c c' => if (t c).1 = (t c').1 then
        (A (t c).1)⁻¹ (t c).2 (t c').2 else 0) c' c''
      = if (t c').1 = (t c).1 then (if (t c).1 = (t c'').1 then
        A (t c).1 (t c).2 (t c').2 * (A (t c).1)⁻¹ (t c').2 (t c'').2 else 0) else 0 := by
    intro c'
    rw [hM, Matrix.of_apply]
    by_cases h : (t c').1 = (t c).1
    · rw [if_pos h.symm, if_pos h, h, mul_ite, mul_zero]
    · rw [if_neg (Ne.symm h), if_neg h, zero_mul]
  rw [Finset.sum_congr rfl fun c' _ => h1 c', sum_part ht (t c).1 (fun j =>
    if (t c).1 = (t c'').1 then A (t c).1 (t c).2 j * (A (t c).1)⁻¹ j (t c'').2 else 0)]
  · by_cases h : (t c).1 = (t c'').1
    · simp only [if_pos h]
      rw [← Matrix.mul_apply, Matrix.mul_nonsing_inv _ (isUnit_iff_ne_zero.mpr (hA _)), Matrix.one_apply,
        Matrix.one_apply]
      have : (t c).2 = (t c'').2 ↔ c = c'' := ⟨fun h2 => ht (Prod.ext h h2), fun h2 => by rw [h2]⟩
      simp only [this]
    · simp only [if_neg h, Finset.sum_const_zero]
      rw [Matrix.one_apply_ne]
      rintro rfl
      exact h rfl
  · intro j hj
    have hne : (t c).2 ≠ j := by
      rintro rfl
      exact hj ⟨c, rfl⟩
    rw [h0 _ _ hj _ hne]
    simp

end Inverse

/-- A channel without widths is not reached. -/
theorem inverse_missing {A : Matrix (Fin 3) (Fin 3) ℂ} (hA : A.det ≠ 0) {i j : Fin 3} (hij : i ≠ j)
    (h : ∀ i, A i j = if i = j then 1 else 0) : A⁻¹ i j = 0 := by
  have h1 : (A⁻¹ * A) i j = 0 := by
    rw [Matrix.nonsing_inv_mul _ (isUnit_iff_ne_zero.mpr hA), Matrix.one_apply_ne hij]
  rw [Matrix.mul_apply] at h1
  rw [← h1]
  simp [h]

/-! ## The collision matrix -/

/-- The matrix `K` of all channels. -/
noncomputable def totalK (channels : List Channel) (resonances : List Resonance) (E : ℝ)
    (P : Fin channels.length → ℝ) : Matrix (Fin channels.length) (Fin channels.length) ℂ :=
  Matrix.of fun c c' => I * ((Real.sqrt (P c) : ℂ) * rMatrix channels resonances E c c' * Real.sqrt (P c'))

/-- With the shift factor as boundary condition `1 + 2iT = 2 (1 - K)⁻¹ - 1`. -/
theorem collision_totalK {channels : List Channel} {resonances : List Resonance} {E : ℝ}
    {P S : Fin channels.length → ℝ} (hP : ∀ i, 0 ≤ P i)
    (hdet : (levelDenominator .shiftFactor channels resonances E P S).det ≠ 0)
    (c c' : Fin channels.length) :
    (if c = c' then 1 else 0) + 2 * I * tMatrix .shiftFactor channels resonances E P S c c'
      = ((2 : ℂ) • (1 - totalK channels resonances E P)⁻¹ - 1) c c' := by
  set R := rMatrix channels resonances E with hR
  set D : Matrix (Fin channels.length) (Fin channels.length) ℂ :=
    Matrix.diagonal fun c => (Real.sqrt (P c) : ℂ) with hD
  set X := (levelDenominator .shiftFactor channels resonances E P S)⁻¹ with hX
  have hL : levelDenominator .shiftFactor channels resonances E P S = 1 - I • (R * (D * D)) := by
    unfold levelDenominator
    rw [← hR, hD, Matrix.diagonal_mul_diagonal]
    congr 1
    rw [← Matrix.mul_smul]
    congr 1
    ext i j
    rw [Matrix.smul_apply, Matrix.diagonal_apply, Matrix.diagonal_apply]
    split
    · simp only [logDerivative, smul_eq_mul]
      rw [← Complex.ofReal_mul, Real.mul_self_sqrt (hP i)]
    · simp
  have hK : totalK channels resonances E P = I • (D * R * D) := by
    ext i j
    rw [Matrix.smul_apply, hD, Matrix.mul_diagonal, Matrix.diagonal_mul]
    rfl
  have hT : tMatrix .shiftFactor channels resonances E P S = D * (X * R) * D := by
    ext i j
    rw [hD, Matrix.mul_diagonal, Matrix.diagonal_mul]
    rfl
  have hXl : (1 - I • (R * (D * D))) * X = 1 := by
    rw [← hL, hX, Matrix.mul_nonsing_inv _ (isUnit_iff_ne_zero.mpr hdet)]
  have hXr : R * (D * D) * X = I • (1 - X) := by
    have h1 : X - I • (R * (D * D) * X) = 1 := by
      rw [Matrix.sub_mul, Matrix.one_mul, Matrix.smul_mul] at hXl
      exact hXl
    have h2 : I • (R * (D * D) * X) = X - 1 := by rw [← h1]; abel
    calc R * (D * D) * X = (-I * I) • (R * (D * D) * X) := by simp
      _ = -I • (X - 1) := by rw [mul_smul, h2]
      _ = I • (1 - X) := by rw [neg_smul, ← smul_neg, neg_sub]
  have hinv : (1 - totalK channels resonances E P)⁻¹
      = 1 + I • (D * (X * R) * D) := by
    apply Matrix.inv_eq_right_inv
    rw [hK, Matrix.sub_mul, Matrix.one_mul, Matrix.mul_add, Matrix.mul_one, Matrix.smul_mul,
      Matrix.mul_smul, smul_smul, I_mul_I]
    have h3 : D * R * D * (D * (X * R) * D) = I • (D * R * D - D * (X * R) * D) := by
      have : D * R * D * (D * (X * R) * D) = D * (R * (D * D) * X) * R * D := by
        simp only [Matrix.mul_assoc]
      rw [this, hXr]
      simp only [Matrix.mul_smul, Matrix.smul_mul, Matrix.mul_sub, Matrix.sub_mul, Matrix.mul_one,
        Matrix.mul_assoc]
    rw [h3]
    simp only [neg_smul, one_smul, smul_sub]
    abel
  rw [hinv, ← hT]
  simp only [Matrix.sub_apply, Matrix.smul_apply, Matrix.add_apply, Matrix.one_apply, smul_eq_mul]
  split <;> ring

end Verif.Blocks
