import Mathlib.LinearAlgebra.Matrix.NonsingularInverse
import Mathlib.LinearAlgebra.Matrix.ToLinearEquiv
import Mathlib.Analysis.Complex.Basic
import Mathlib.Analysis.Real.Sqrt

/-!
# Linear algebra behind the R-matrix formulas

`R` is a complex matrix whose quadratic form has a non-negative imaginary part, `L` the diagonal
`s + iP`.
-/

namespace Verif

open Complex Matrix

variable {ι : Type*} [Fintype ι] [DecidableEq ι]

/-- Imaginary part of the quadratic form `v* R v`. -/
noncomputable def imForm (R : Matrix ι ι ℂ) (v : ι → ℂ) : ℝ := (star v ⬝ᵥ R *ᵥ v).im

theorem pointwise_identity (z x : ℂ) (s P : ℝ) (hP : 0 ≤ P) :
    normSq (z + ⟨0, 2⟩ * Real.sqrt P * x)
      = normSq z - 4 * (star ((Real.sqrt P : ℂ) * z + (⟨s, P⟩ : ℂ) * x) * x).im := by
  have h : Real.sqrt P * Real.sqrt P = P := Real.mul_self_sqrt hP
  simp only [normSq_apply, add_re, add_im, mul_re, mul_im, ofReal_re, ofReal_im, star_def, conj_re,
    conj_im, map_add, map_mul]
  linear_combination (4 * (x.re ^ 2 + x.im ^ 2)) * h

variable {R : Matrix ι ι ℂ} {L : ι → ℂ}

/-- The matrix `(1 - R L)⁻¹ R`. -/
noncomputable def levelMatrix (R : Matrix ι ι ℂ) (L : ι → ℂ) : Matrix ι ι ℂ :=
  (1 - R * diagonal L)⁻¹ * R

theorem levelMatrix_fixed (hdet : (1 - R * diagonal L).det ≠ 0) (u : ι → ℂ) :
    R *ᵥ (u + diagonal L *ᵥ (levelMatrix R L *ᵥ u)) = levelMatrix R L *ᵥ u := by
  have hu : IsUnit (1 - R * diagonal L).det := isUnit_iff_ne_zero.mpr hdet
  have h : (1 - R * diagonal L) *ᵥ (levelMatrix R L *ᵥ u) = R *ᵥ u := by
    rw [levelMatrix, mulVec_mulVec, ← Matrix.mul_assoc, mul_nonsing_inv _ hu, Matrix.one_mul]
  rw [sub_mulVec, one_mulVec, ← mulVec_mulVec] at h
  rw [mulVec_add, ← h]
  abel

/-- The exact loss of norm of a column of `1 + 2 i sqrt(P) (1 - R L)⁻¹ R sqrt(P)`. -/
theorem norm_identity (s P : ι → ℝ) (hP : ∀ i, 0 ≤ P i)
    (hdet : (1 - R * diagonal fun i => (⟨s i, P i⟩ : ℂ)).det ≠ 0) (z : ι → ℂ) :
    ∑ i, normSq (z i + ⟨0, 2⟩ * Real.sqrt (P i) *
        (levelMatrix R (fun i => ⟨s i, P i⟩) *ᵥ fun j => (Real.sqrt (P j) : ℂ) * z j) i)
      = ∑ i, normSq (z i) - 4 * imForm R
        ((fun j => (Real.sqrt (P j) : ℂ) * z j) + diagonal (fun i => (⟨s i, P i⟩ : ℂ)) *ᵥ
          (levelMatrix R (fun i => ⟨s i, P i⟩) *ᵥ fun j => (Real.sqrt (P j) : ℂ) * z j)) := by
  set u : ι → ℂ := fun j => (Real.sqrt (P j) : ℂ) * z j with hu
  set x := levelMatrix R (fun i => (⟨s i, P i⟩ : ℂ)) *ᵥ u with hx
  rw [imForm, levelMatrix_fixed hdet, ← hx]
  simp only [dotProduct, Complex.im_sum, Finset.mul_sum, ← Finset.sum_sub_distrib]
  refine Finset.sum_congr rfl fun i _ => ?_
  rw [pointwise_identity (z i) (x i) (s i) (P i) (hP i)]
  simp only [Pi.star_apply, Pi.add_apply, mulVec_diagonal, hu]

theorem single_mulVec (X : Matrix ι ι ℂ) (P : ι → ℝ) (c i : ι) :
    (X *ᵥ fun j => (Real.sqrt (P j) : ℂ) * (if j = c then 1 else 0)) i
      = X i c * Real.sqrt (P c) := by
  simp [mulVec, dotProduct, mul_ite]

/-- The vector whose quadratic form gives the loss for column `c`. -/
noncomputable def lossVector (R : Matrix ι ι ℂ) (s P : ι → ℝ) (c : ι) : ι → ℂ :=
  (fun j => (Real.sqrt (P j) : ℂ) * (if j = c then 1 else 0)) +
    diagonal (fun i => (⟨s i, P i⟩ : ℂ)) *ᵥ
      (levelMatrix R (fun i => ⟨s i, P i⟩) *ᵥ
        fun j => (Real.sqrt (P j) : ℂ) * (if j = c then 1 else 0))

theorem column_norm (s P : ι → ℝ) (hP : ∀ i, 0 ≤ P i)
    (hdet : (1 - R * diagonal fun i => (⟨s i, P i⟩ : ℂ)).det ≠ 0) (c : ι) :
    ∑ i, normSq ((if i = c then 1 else 0) + ⟨0, 2⟩ * Real.sqrt (P c) *
        levelMatrix R (fun i => ⟨s i, P i⟩) i c * Real.sqrt (P i))
      = 1 - 4 * imForm R (lossVector R s P c) := by
  have h := norm_identity s P hP hdet (fun j => if j = c then 1 else 0)
  have h1 : ∑ i, normSq (if i = c then (1 : ℂ) else 0) = 1 := by
    rw [Finset.sum_eq_single c]
    · simp
    · intro b _ hb; simp [hb]
    · intro hc; exact absurd (Finset.mem_univ c) hc
  rw [h1] at h
  rw [lossVector, ← h]
  refine Finset.sum_congr rfl fun i _ => ?_
  rw [single_mulVec]
  congr 1
  ring

/-- A matrix `1 - R L` is invertible when the quadratic form of `R` has a non-negative imaginary part
and, wherever `P` vanishes, either `L` vanishes too or the row of `R` does. -/
theorem level_det_ne_zero (s P : ι → ℝ) (hP : ∀ i, 0 ≤ P i) (hR : ∀ v, 0 ≤ imForm R v)
    (h0 : ∀ i, P i = 0 → s i = 0 ∨ ∀ j, R i j = 0) :
    (1 - R * diagonal fun i => (⟨s i, P i⟩ : ℂ)).det ≠ 0 := by
  intro hdet
  obtain ⟨x, hx0, hx⟩ := Matrix.exists_mulVec_eq_zero_iff.mpr hdet
  rw [sub_mulVec, one_mulVec, ← mulVec_mulVec, sub_eq_zero] at hx
  set v := diagonal (fun i => (⟨s i, P i⟩ : ℂ)) *ᵥ x with hv
  have h1 : imForm R v = -∑ i, P i * normSq (x i) := by
    rw [imForm, ← hx]
    simp only [dotProduct, Complex.im_sum, ← Finset.sum_neg_distrib]
    refine Finset.sum_congr rfl fun i _ => ?_
    simp only [hv, Pi.star_apply, mulVec_diagonal, star_def, map_mul, mul_im, mul_re, conj_re,
      conj_im, normSq_apply]
    ring
  have h2 : ∑ i, P i * normSq (x i) = 0 := by
    have := hR v
    have h3 : 0 ≤ ∑ i, P i * normSq (x i) :=
      Finset.sum_nonneg fun i _ => mul_nonneg (hP i) (normSq_nonneg _)
    linarith
  rw [Finset.sum_eq_zero_iff_of_nonneg fun i _ => mul_nonneg (hP i) (normSq_nonneg _)] at h2
  have hv0 : ∀ i, x i = 0 ∨ v i = 0 := by
    intro i
    rcases mul_eq_zero.mp (h2 i (Finset.mem_univ i)) with h | h
    · rcases h0 i h with hs | hr
      · right
        simp only [hv, mulVec_diagonal, h, hs]
        have : (⟨0, 0⟩ : ℂ) = 0 := rfl
        rw [this, zero_mul]
      · left
        rw [hx]
        simp [mulVec, dotProduct, hr]
    · left; exact normSq_eq_zero.mp h
  have hv1 : v = 0 := by
    funext i
    rcases hv0 i with h | h
    · simp [hv, mulVec_diagonal, h]
    · exact h
  rw [hv1, mulVec_zero] at hx
  exact hx0 hx

/-- Symmetry of `(1 - R L)⁻¹ R` for a symmetric `R`. -/
theorem levelMatrix_symm (hsym : Rᵀ = R) (hdet : (1 - R * diagonal L).det ≠ 0) :
    (levelMatrix R L)ᵀ = levelMatrix R L := by
  have hu : IsUnit (1 - R * diagonal L).det := isUnit_iff_ne_zero.mpr hdet
  have ht : (1 - R * diagonal L)ᵀ = 1 - diagonal L * R := by
    rw [transpose_sub, transpose_one, transpose_mul, diagonal_transpose, hsym]
  have hu' : IsUnit (1 - diagonal L * R).det := by rw [← ht, det_transpose]; exact hu
  rw [levelMatrix, transpose_mul, hsym, transpose_nonsing_inv, ht]
  have key : (1 - R * diagonal L) * R = R * (1 - diagonal L * R) := by
    rw [Matrix.sub_mul, Matrix.mul_sub, Matrix.one_mul, Matrix.mul_one, Matrix.mul_assoc]
  calc R * (1 - diagonal L * R)⁻¹
      = ((1 - R * diagonal L)⁻¹ * (1 - R * diagonal L)) * R * (1 - diagonal L * R)⁻¹ := by
        rw [nonsing_inv_mul _ hu, Matrix.one_mul]
    _ = (1 - R * diagonal L)⁻¹ * ((1 - R * diagonal L) * R) * (1 - diagonal L * R)⁻¹ := by
        rw [Matrix.mul_assoc (1 - R * diagonal L)⁻¹]
    _ = (1 - R * diagonal L)⁻¹ * R := by
        rw [key, Matrix.mul_assoc, Matrix.mul_assoc, mul_nonsing_inv _ hu', Matrix.mul_one]

end Verif
