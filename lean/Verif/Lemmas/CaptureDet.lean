import Verif.Lemmas.Evaluate

/-!
# The level matrix when all resonances have an eliminated width (C19, C70, C75)
-/

namespace Verif

open Complex Matrix

variable {channels : List Channel} {E : ℝ}

theorem nonneg_sum_zero {l : List ℝ} (h : ∀ y ∈ l, 0 ≤ y) (h0 : l.sum = 0) : ∀ y ∈ l, y = 0 := by
  induction l with
  | nil => simp
  | cons a l ih =>
    have h1 := h a List.mem_cons_self
    have h2 := List.sum_nonneg fun y hy => h y (List.mem_cons_of_mem _ hy)
    rw [List.sum_cons] at h0
    intro y hy
    rcases List.mem_cons.mp hy with rfl | hy
    · linarith
    · exact ih (fun y hy => h y (List.mem_cons_of_mem _ hy)) (by linarith) y hy

theorem rMatrix_mulVec (rs : List Resonance) (v : Fin channels.length → ℂ) (i : Fin channels.length) :
    (Spec.rMatrix channels rs E *ᵥ v) i = (rs.map fun r => (Spec.amplitude channels E r i : ℂ)
      * (∑ c, (Spec.amplitude channels E r c : ℂ) * v c)
      / ((r.energy : ℂ) - E - I * (r.eliminated : ℂ) ^ 2)).sum := by
  induction rs with
  | nil => simp [Spec.rMatrix, mulVec, dotProduct]
  | cons r rs ih =>
    rw [List.map_cons, List.sum_cons, ← ih]
    simp only [Spec.rMatrix, mulVec, dotProduct, of_apply, List.map_cons, List.sum_cons, add_mul,
      Finset.sum_add_distrib, Finset.mul_sum, div_eq_mul_inv, Finset.sum_mul]
    congr 1
    refine Finset.sum_congr rfl fun c _ => ?_
    ring

/-- When all resonances have an eliminated width the matrix `1 - R L` is invertible whatever the boundary
conditions are. -/
theorem capture_det {option : BoundaryOption} {rs : List Resonance} {P S : Fin channels.length → ℝ}
    (hnn : ∀ i, 0 ≤ P i) (hrs : ∀ r ∈ rs, r.eliminated ≠ 0) :
    (Spec.levelDenominator option channels rs E P S).det ≠ 0 := by
  rw [Spec.levelDenominator, logDerivative_eq]
  intro hdet
  obtain ⟨x, hx0, hx⟩ := Matrix.exists_mulVec_eq_zero_iff.mpr hdet
  rw [sub_mulVec, one_mulVec, ← mulVec_mulVec, sub_eq_zero] at hx
  set v := diagonal (fun i => (⟨realL channels option S i, P i⟩ : ℂ)) *ᵥ x with hv
  have h1 : imForm (Spec.rMatrix channels rs E) v = -∑ i, P i * normSq (x i) := by
    rw [imForm, ← hx]
    simp only [dotProduct, Complex.im_sum, ← Finset.sum_neg_distrib]
    refine Finset.sum_congr rfl fun i _ => ?_
    simp only [hv, Pi.star_apply, mulVec_diagonal, star_def, map_mul, mul_im, mul_re, conj_re,
      conj_im, normSq_apply]
    ring
  have h2 : imForm (Spec.rMatrix channels rs E) v = 0 := by
    have := imForm_rMatrix_nonneg channels E rs v
    have h3 : 0 ≤ ∑ i, P i * normSq (x i) :=
      Finset.sum_nonneg fun i _ => mul_nonneg (hnn i) (normSq_nonneg _)
    linarith
  rw [imForm_rMatrix] at h2
  have h3 : ∀ r ∈ rs, (∑ c, (Spec.amplitude channels E r c : ℂ) * v c) = 0 := by
    intro r hr
    have hd : r.denominator E ≠ 0 := by
      intro h0
      have := congrArg Complex.im h0
      simp [Resonance.denominator] at this
      exact hrs r hr this
    have h4 : ∀ y ∈ rs.map fun r => r.eliminated ^ 2 *
        normSq (∑ c, (Spec.amplitude channels E r c : ℂ) * v c) / normSq (r.denominator E), 0 ≤ y := by
      intro y hy
      obtain ⟨r, _, rfl⟩ := List.mem_map.mp hy
      have := normSq_nonneg (∑ c, (Spec.amplitude channels E r c : ℂ) * v c)
      have := normSq_nonneg (r.denominator E)
      positivity
    have h5 := nonneg_sum_zero h4 h2 _ (List.mem_map.mpr ⟨r, hr, rfl⟩)
    rcases div_eq_zero_iff.mp h5 with h6 | h6
    · rcases mul_eq_zero.mp h6 with h7 | h7
      · exact absurd (pow_eq_zero_iff two_ne_zero |>.mp h7) (hrs r hr)
      · exact normSq_eq_zero.mp h7
    · exact absurd (normSq_eq_zero.mp h6) hd
  apply hx0
  rw [hx]
  funext i
  rw [rMatrix_mulVec]
  refine List.sum_eq_zero fun y hy => ?_
  obtain ⟨r, hr, rfl⟩ := List.mem_map.mp hy
  rw [h3 r hr]
  simp

end Verif
