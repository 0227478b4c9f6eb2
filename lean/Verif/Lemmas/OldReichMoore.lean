import Verif.Model.OldReichMoore
import Verif.Spec.OldReichMoore
import Verif.Lemmas.Old
import Mathlib.LinearAlgebra.Matrix.Adjugate
import Mathlib.LinearAlgebra.Matrix.DotProduct
import Mathlib.LinearAlgebra.Matrix.ToLinearEquiv

/-!
# Lemmas for the older Reich-Moore code
-/

namespace Verif.Old.ReichMoore

open Complex
open Spec (CoupledLevel reichMooreK reichMooreCollision)

/-- The level that a resonance is for a given square root of the penetrability. -/
noncomputable def Resonance.level (root : ℝ) (r : Resonance) : CoupledLevel :=
  ⟨r.energy, r.captureWidth, ![r.rootNeutronWidth * r.inverseRootPenetrationFactor * root,
    r.rootFissionWidthA, r.rootFissionWidthB]⟩

/-- The denominator of a level. -/
def denominator (E : ℝ) (l : CoupledLevel) : ℝ :=
  4 * ((l.energy - E) * (l.energy - E)) + l.capture * l.capture

/-- The factor of a level in the matrix of the code. -/
noncomputable def weight (E : ℝ) (l : CoupledLevel) : ℂ :=
  ⟨l.capture * (1 / denominator E l), -2 * (l.energy - E) * (1 / denominator E l)⟩

theorem weight_eq (E : ℝ) (l : CoupledLevel) :
    -(I / 2) / ((l.energy : ℂ) - E - I * l.capture / 2) = weight E l := by
  by_cases h : denominator E l = 0
  · have h1 : l.energy - E = 0 := by
      unfold denominator at h
      nlinarith [mul_self_nonneg (l.energy - E), mul_self_nonneg l.capture]
    have h2 : l.capture = 0 := by
      rw [denominator, h1] at h
      simpa using h
    have h3 : (l.energy : ℂ) - E = ((l.energy - E : ℝ) : ℂ) := by push_cast; rfl
    rw [h3, h1, h2]
    simp [weight, h]
    rfl
  have h5 : (l.energy : ℂ) - E - I * l.capture / 2 ≠ 0 := by
    intro h0
    apply h
    have h1 := congrArg re h0
    have h2 := congrArg im h0
    simp at h1 h2
    simp [denominator, h1, h2]
  rw [div_eq_iff h5]
  apply Complex.ext
  · simp [weight]
    ring
  · simp [weight]
    have h1 : 4 * ((l.energy - E) * (l.energy - E)) + l.capture * l.capture = denominator E l := rfl
    field_simp
    rw [← h1]
    ring

theorem accumulate_apply (w : ℂ) (K : Matrix3) (i j : Fin 3) (a b : ℝ) (i' j' : Fin 3) :
    accumulate w.re w.im K i j a b i' j'
      = if i' = i ∧ j' = j then K i j + ((a * b : ℝ) : ℂ) * w else K i' j' := by
  unfold accumulate
  rw [Matrix.updateRow_apply]
  by_cases hi : i' = i
  · subst hi
    by_cases hj : j' = j
    · subst hj
      simp only [Function.update_self, and_self, if_true]
      congr 1
      apply Complex.ext <;> simp
    · simp [hj]
  · simp [hi]

theorem call_ok {r : Resonance} {E root : ℝ} {K : Matrix3} {flag : Bool} {K' : Matrix3}
    (h : r.call E root K = .ok (flag, K')) : denominator E (r.level root) ≠ 0 ∧
      (flag = false → (r.level root).amplitude 1 = 0 ∧ (r.level root).amplitude 2 = 0) ∧
      ∀ i j : Fin 3, i ≤ j → K' i j = K i j + (((r.level root).amplitude i * (r.level root).amplitude j : ℝ) : ℂ)
        * weight E (r.level root) := by
  have hr : r.captureWidth * (1 / (4 * ((r.energy - E) * (r.energy - E)) + r.captureWidth * r.captureWidth))
      = (weight E (r.level root)).re := rfl
  have hi : -2 * (r.energy - E) * (1 / (4 * ((r.energy - E) * (r.energy - E)) + r.captureWidth * r.captureWidth))
      = (weight E (r.level root)).im := rfl
  have h0 : r.rootNeutronWidth * r.inverseRootPenetrationFactor * root = (r.level root).amplitude 0 := rfl
  have h1 : r.rootFissionWidthA = (r.level root).amplitude 1 := rfl
  have h2 : r.rootFissionWidthB = (r.level root).amplitude 2 := rfl
  have hd : 4 * ((r.energy - E) * (r.energy - E)) + r.captureWidth * r.captureWidth
    = denominator E (r.level root) := rfl
  unfold Resonance.call at h
  simp only at h
  rw [hr, hi, h0, h1, h2, hd] at h
  generalize r.level root = l at *
  split at h
  · cases h
  · rename_i hne
    refine ⟨hne, ?_⟩
    split at h
    · obtain ⟨rfl, rfl⟩ := Prod.mk.inj (Except.ok.inj h)
      refine ⟨by simp, fun i j hij => ?_⟩
      simp only [accumulate_apply]
      fin_cases i <;> fin_cases j <;> first | exact absurd hij (by decide) | simp
    · rename_i hf
      obtain ⟨rfl, rfl⟩ := Prod.mk.inj (Except.ok.inj h)
      push Not at hf
      refine ⟨fun _ => hf, fun i j hij => ?_⟩
      simp only [accumulate_apply]
      fin_cases i <;> fin_cases j <;> first | exact absurd hij (by decide) | simp [hf]

/-- The matrix that the code accumulates. -/
noncomputable def codeK (E : ℝ) (levels : List CoupledLevel) : Matrix3 :=
  Matrix.of fun i j => (levels.map fun l => ((l.amplitude i * l.amplitude j : ℝ) : ℂ) * weight E l).sum

theorem codeK_eq (E : ℝ) (levels : List CoupledLevel) :
    codeK E levels = -reichMooreK E levels := by
  ext i j
  simp only [codeK, reichMooreK, Matrix.of_apply, Matrix.neg_apply]
  induction levels with
  | nil => simp
  | cons l ls ih =>
    rw [List.map_cons, List.sum_cons, ih, List.map_cons, List.sum_cons, ← weight_eq]
    push_cast
    ring

theorem evaluateResonances_ok {E root : ℝ} {rs : List Resonance} {flag : Bool} {K : Matrix3} {flag' : Bool}
    {K' : Matrix3} (h : evaluateResonances E root rs (flag, K) = .ok (flag', K')) :
    (∀ l ∈ rs.map (Resonance.level root), denominator E l ≠ 0) ∧
      (flag' = false → flag = false ∧
        ∀ l ∈ rs.map (Resonance.level root), l.amplitude 1 = 0 ∧ l.amplitude 2 = 0) ∧
      ∀ i j : Fin 3, i ≤ j → K' i j = K i j + codeK E (rs.map (Resonance.level root)) i j := by
  induction rs generalizing flag K with
  | nil =>
    obtain ⟨rfl, rfl⟩ := Prod.mk.inj (Except.ok.inj h)
    simp [codeK]
  | cons r rs ih =>
    rw [evaluateResonances, bind_ok] at h
    obtain ⟨⟨f1, K1⟩, h1, h2⟩ := h
    obtain ⟨a1, a2, a3⟩ := call_ok h1
    obtain ⟨b1, b2, b3⟩ := ih h2
    refine ⟨?_, ?_, ?_⟩
    · intro l hl
      rcases List.mem_cons.mp hl with rfl | hl
      · exact a1
      · exact b1 l hl
    · intro hf
      obtain ⟨c1, c2⟩ := b2 hf
      rw [Bool.or_eq_false_iff] at c1
      refine ⟨c1.1, fun l hl => ?_⟩
      rcases List.mem_cons.mp hl with rfl | hl
      · exact a2 c1.2
      · exact c2 l hl
    · intro i j hij
      rw [b3 i j hij, a3 i j hij, List.map_cons]
      simp only [codeK, Matrix.of_apply, List.map_cons, List.sum_cons]
      ring

theorem codeK_symm (E : ℝ) (levels : List CoupledLevel) (i j : Fin 3) :
    codeK E levels i j = codeK E levels j i := by
  simp only [codeK, Matrix.of_apply]
  congr 2
  funext l
  rw [mul_comm (l.amplitude i)]

theorem symmetrise_eq {K : Matrix3} {E : ℝ} {levels : List CoupledLevel}
    (h : ∀ i j : Fin 3, i ≤ j → K i j = codeK E levels i j) : symmetrise K = codeK E levels := by
  ext i j
  simp only [symmetrise, Matrix.of_apply]
  split
  · rename_i hij
    rw [h j i hij, codeK_symm]
  · rename_i hij
    exact h i j (not_le.mp hij).le

/-- The loss of a vector: twice the part of the flux that goes into capture. -/
noncomputable def loss (E : ℝ) (levels : List CoupledLevel) (v : Fin 3 → ℂ) : ℝ :=
  (levels.map fun l => (weight E l).re * normSq (∑ i, (l.amplitude i : ℂ) * v i)).sum

theorem weight_nonneg {E : ℝ} {l : CoupledLevel} (h : 0 ≤ l.capture) : 0 ≤ (weight E l).re := by
  simp only [weight, denominator]
  have := mul_self_nonneg (l.energy - E)
  have := mul_self_nonneg l.capture
  positivity

theorem loss_nonneg {E : ℝ} {levels : List CoupledLevel} (h : ∀ l ∈ levels, 0 ≤ l.capture) (v : Fin 3 → ℂ) :
    0 ≤ loss E levels v := by
  apply List.sum_nonneg
  intro x hx
  obtain ⟨l, hl, rfl⟩ := List.mem_map.mp hx
  exact mul_nonneg (weight_nonneg (h l hl)) (normSq_nonneg _)

theorem loss_eq (E : ℝ) (levels : List CoupledLevel) (v : Fin 3 → ℂ) :
    (∑ i, (starRingEnd ℂ) (v i) * (codeK E levels).mulVec v i).re = loss E levels v := by
  induction levels with
  | nil => simp [codeK, loss, Matrix.mulVec, dotProduct]
  | cons l ls ih =>
    have h1 : ∀ i, (codeK E (l :: ls)).mulVec v i = (codeK E ls).mulVec v i
        + (l.amplitude i : ℂ) * weight E l * ∑ j, (l.amplitude j : ℂ) * v j := by
      intro i
      simp only [Matrix.mulVec, dotProduct, codeK, Matrix.of_apply, List.map_cons, List.sum_cons,
        Finset.mul_sum, ← Finset.sum_add_distrib]
      refine Finset.sum_congr rfl fun j _ => ?_
      push_cast
      ring
    simp only [h1, mul_add, Finset.sum_add_distrib, add_re, ih]
    have h2 : ∑ i, (starRingEnd ℂ) (v i) * ((l.amplitude i : ℂ) * weight E l * ∑ j, (l.amplitude j : ℂ) * v j)
        = weight E l * (normSq (∑ j, (l.amplitude j : ℂ) * v j) : ℝ) := by
      rw [normSq_eq_conj_mul_self, map_sum, Finset.sum_mul, Finset.mul_sum]
      refine Finset.sum_congr rfl fun j _ => ?_
      rw [map_mul, conj_ofReal]
      ring
    rw [h2, re_mul_ofReal]
    simp only [loss, List.map_cons, List.sum_cons]
    ring

theorem det_ne_zero {E : ℝ} {levels : List CoupledLevel} (h : ∀ l ∈ levels, 0 ≤ l.capture) :
    (1 + codeK E levels).det ≠ 0 := by
  intro h0
  obtain ⟨v, hv, h1⟩ := Matrix.exists_mulVec_eq_zero_iff.mpr h0
  rw [Matrix.add_mulVec, Matrix.one_mulVec] at h1
  have h2 := loss_nonneg (E := E) h v
  rw [← loss_eq] at h2
  have h3 : ∀ i, (codeK E levels).mulVec v i = -v i := fun i => by
    have := congrFun h1 i
    simp only [Pi.add_apply, Pi.zero_apply] at this
    exact eq_neg_of_add_eq_zero_right this
  simp only [h3, mul_neg, ← normSq_eq_conj_mul_self, Finset.sum_neg_distrib, neg_re, re_sum, ofReal_re] at h2
  have h4 : ∀ i ∈ Finset.univ, normSq (v i) = 0 := by
    rw [← Finset.sum_eq_zero_iff_of_nonneg fun i _ => normSq_nonneg (v i)]
    exact le_antisymm (by linarith) (Finset.sum_nonneg fun i _ => normSq_nonneg _)
  exact hv (funext fun i => normSq_eq_zero.mp (h4 i (Finset.mem_univ _)))

/-- The flux into the channels, and the loss. -/
theorem flux {E : ℝ} {levels : List CoupledLevel} (h : ∀ l ∈ levels, 0 ≤ l.capture) :
    ∑ j, normSq (((2 : ℂ) • (1 + codeK E levels)⁻¹ - 1) 0 j)
      = 1 - 4 * loss E levels fun j => (1 + codeK E levels)⁻¹ j 0 := by
  have hdet := det_ne_zero (E := E) h
  set A := 1 + codeK E levels with hA
  have hu : IsUnit A.det := isUnit_iff_ne_zero.mpr hdet
  have hsym : A.transpose = A := by
    ext i j
    rw [Matrix.transpose_apply, hA, Matrix.add_apply, Matrix.add_apply, codeK_symm, Matrix.one_apply,
      Matrix.one_apply]
    simp only [eq_comm]
  have hinv : ∀ i j, A⁻¹ i j = A⁻¹ j i := fun i j => by
    conv_lhs => rw [← hsym, ← Matrix.transpose_nonsing_inv, Matrix.transpose_apply]
  set v : Fin 3 → ℂ := fun j => A⁻¹ j 0 with hv
  have h1 : ∀ j, (1 : Matrix3) j 0 = v j + (codeK E levels).mulVec v j := by
    intro j
    have := congrFun (congrFun (Matrix.mul_nonsing_inv A hu) j) 0
    rw [← this, Matrix.mul_apply]
    have h2 : ∑ k, A j k * A⁻¹ k 0 = A.mulVec v j := rfl
    rw [h2, hA, Matrix.add_mulVec, Matrix.one_mulVec, Pi.add_apply]
  have h2 : ∀ j, ((2 : ℂ) • A⁻¹ - 1) 0 j = v j - (codeK E levels).mulVec v j := by
    intro j
    have h3 : (1 : Matrix3) 0 j = (1 : Matrix3) j 0 := by
      rw [Matrix.one_apply, Matrix.one_apply]
      simp only [eq_comm]
    rw [Matrix.sub_apply, Matrix.smul_apply, hinv, h3, h1, smul_eq_mul]
    simp only [hv]
    ring
  have h3 : ∑ j, normSq (v j + (codeK E levels).mulVec v j) = 1 := by
    simp only [← h1]
    simp [Matrix.one_apply]
  rw [← h3, ← loss_eq, re_sum, Finset.mul_sum, ← Finset.sum_sub_distrib]
  refine Finset.sum_congr rfl fun j _ => ?_
  rw [h2]
  simp only [normSq_apply, mul_re, conj_re, conj_im, add_re, add_im, sub_re, sub_im]
  ring

theorem codeK_re_nonneg {E : ℝ} {levels : List CoupledLevel} (h : ∀ l ∈ levels, 0 ≤ l.capture) :
    0 ≤ (codeK E levels 0 0).re := by
  have h1 := loss_nonneg (E := E) h ![1, 0, 0]
  rw [← loss_eq] at h1
  simpa [Fin.sum_univ_three, Matrix.mulVec, dotProduct] using h1

/-- The inverse of a matrix without fission. -/
theorem inverse_scalar {E : ℝ} {levels : List CoupledLevel} (h0 : 1 + codeK E levels 0 0 ≠ 0)
    (h : ∀ l ∈ levels, l.amplitude 1 = 0 ∧ l.amplitude 2 = 0) :
    (1 + codeK E levels)⁻¹ = !![(1 + codeK E levels 0 0)⁻¹, 0, 0; 0, 1, 0; 0, 0, 1] := by
  have h1 : ∀ i j : Fin 3, i ≠ 0 ∨ j ≠ 0 → codeK E levels i j = 0 := by
    intro i j hij
    simp only [codeK, Matrix.of_apply]
    apply List.sum_eq_zero
    intro x hx
    obtain ⟨l, hl, rfl⟩ := List.mem_map.mp hx
    have hk : ∀ k : Fin 3, k ≠ 0 → l.amplitude k = 0 := by
      intro k hk
      fin_cases k
      · exact absurd rfl hk
      · exact (h l hl).1
      · exact (h l hl).2
    rcases hij with hi | hj
    · simp [hk i hi]
    · simp [hk j hj]
  apply Matrix.inv_eq_right_inv
  ext i j
  rw [Matrix.mul_apply, Fin.sum_univ_three]
  simp only [Matrix.add_apply]
  fin_cases i <;> fin_cases j <;> simp [h1, Matrix.one_apply, mul_inv_cancel₀ h0]

theorem phase_eq (φ : ℝ) : (⟨Real.cos (2 * φ), -Real.sin (2 * φ)⟩ : ℂ) = exp (-(2 * I * φ)) := by
  have h : -(2 * I * φ : ℂ) = ((-(2 * φ) : ℝ) : ℂ) * I := by
    push_cast
    ring
  rw [h]
  apply Complex.ext
  · rw [exp_ofReal_mul_I_re, Real.cos_neg]
  · rw [exp_ofReal_mul_I_im, Real.sin_neg]

theorem collision_eq (φ E : ℝ) (levels : List CoupledLevel) :
    reichMooreCollision φ E levels
      = exp (-(2 * I * φ)) • ((2 : ℂ) • (1 + codeK E levels)⁻¹ - 1) := by
  rw [reichMooreCollision, codeK_eq, ← sub_eq_add_neg]

theorem norm_phase (φ : ℝ) : normSq (exp (-(2 * I * φ))) = 1 := by
  rw [← phase_eq, normSq_apply]
  simp only
  nlinarith [Real.sin_sq_add_cos_sq (2 * φ)]

/-- The capture cross section of the collision matrix is the loss. -/
theorem capture_eq {φ E : ℝ} {levels : List CoupledLevel} (h : ∀ l ∈ levels, 0 ≤ l.capture) :
    1 - ∑ j, normSq (reichMooreCollision φ E levels 0 j)
      = 4 * loss E levels fun j => (1 + codeK E levels)⁻¹ j 0 := by
  rw [collision_eq]
  simp only [Matrix.smul_apply, smul_eq_mul, normSq_mul, norm_phase, one_mul]
  rw [flux h]
  ring

/-- The values of a group with this collision matrix. -/
noncomputable def groupValue (g : ℝ) (U : Matrix3) : Pack 4 ℝ :=
  ![2 * g * (1 - (U 0 0).re), g * normSq (1 - U 0 0), g * (normSq (U 0 1) + normSq (U 0 2)), g]

theorem solveRmatrix_eq {E φ g : ℝ} {K : Matrix3} {ls : List CoupledLevel}
    (hK : ∀ i j : Fin 3, i ≤ j → K i j = codeK E ls i j) (hcap : ∀ l ∈ ls, 0 ≤ l.capture) :
    solveRmatrix K (Real.cos (2 * φ)) (Real.sin (2 * φ)) g
      = .ok (groupValue g (reichMooreCollision φ E ls)) := by
  rw [solveRmatrix, collision_eq]
  simp only [symmetrise_eq hK]
  rw [if_neg (det_ne_zero hcap), phase_eq, groupValue]
  simp only [normSq_eq_norm_sq, ← norm_pow]

theorem solveRfunction_eq {E φ g : ℝ} {K : Matrix3} {ls : List CoupledLevel}
    (hK : K 0 0 = codeK E ls 0 0) (hcap : ∀ l ∈ ls, 0 ≤ l.capture)
    (hf : ∀ l ∈ ls, l.amplitude 1 = 0 ∧ l.amplitude 2 = 0) :
    solveRfunction K (Real.cos (2 * φ)) (Real.sin (2 * φ)) g φ
      = .ok (groupValue g (reichMooreCollision φ E ls)) := by
  have hre := codeK_re_nonneg (E := E) hcap
  have h0 : 1 + codeK E ls 0 0 ≠ 0 := by
    intro h0
    have := congrArg re h0
    simp only [add_re, one_re, zero_re] at this
    linarith
  rw [solveRfunction, collision_eq, inverse_scalar h0 hf]
  simp only [hK]
  generalize codeK E ls 0 0 = z at *
  have hn : ((1 + z) * (starRingEnd ℂ) (1 + z)).re = normSq (1 + z) := by
    rw [mul_conj, ofReal_re]
  rw [hn, if_neg (normSq_eq_zero.not.mpr h0), if_pos]
  · have hU : (⟨Real.cos (2 * φ) * (2 * ((1 + z).re * (1 / normSq (1 + z))) - 1)
          + 2 * (-(1 + z).im * (1 / normSq (1 + z))) * Real.sin (2 * φ),
        -Real.sin (2 * φ) * (2 * ((1 + z).re * (1 / normSq (1 + z))) - 1)
          + 2 * (-(1 + z).im * (1 / normSq (1 + z))) * Real.cos (2 * φ)⟩ : ℂ)
        = exp (-(2 * I * φ)) * (2 * (1 + z)⁻¹ - 1) := by
      rw [← phase_eq]
      apply Complex.ext
      · simp only [mul_re, sub_re, inv_re, inv_im, sub_im, mul_im, one_re, one_im, re_ofNat, im_ofNat]
        ring
      · simp only [mul_re, sub_re, inv_re, inv_im, sub_im, mul_im, one_re, one_im, re_ofNat, im_ofNat]
        ring
    have h00 : (exp (-(2 * I * φ)) • ((2 : ℂ) • !![(1 + z)⁻¹, 0, 0; 0, 1, 0; 0, 0, 1] - (1 : Matrix3))) 0 0
        = exp (-(2 * I * φ)) * (2 * (1 + z)⁻¹ - 1) := by simp
    have h01 : (exp (-(2 * I * φ)) • ((2 : ℂ) • !![(1 + z)⁻¹, 0, 0; 0, 1, 0; 0, 0, 1] - (1 : Matrix3))) 0 1
        = 0 := by simp
    have h02 : (exp (-(2 * I * φ)) • ((2 : ℂ) • !![(1 + z)⁻¹, 0, 0; 0, 1, 0; 0, 0, 1] - (1 : Matrix3))) 0 2
        = 0 := by simp
    have h1 : (1 : ℂ) - (starRingEnd ℂ) (exp (-(2 * I * φ)) * (2 * (1 + z)⁻¹ - 1))
        = (starRingEnd ℂ) (1 - exp (-(2 * I * φ)) * (2 * (1 + z)⁻¹ - 1)) := by simp
    rw [hU, groupValue, h00, h01, h02, h1, mul_conj, ofReal_re, normSq_conj, conj_re, normSq_zero, add_zero,
      mul_zero, sub_re, one_re]
  · left
    rw [add_re, one_re, abs_of_nonneg (by linarith)]
    norm_num
    linarith

/-- What the code computes for a group of resonances. -/
theorem evaluateGroup_ok {E root φ : ℝ} {r : Resonance} {rs : List Resonance} {v : Pack 4 ℝ}
    (hc : ∀ x ∈ r :: rs, 0 ≤ x.captureWidth) (h : evaluateGroup E root φ (r :: rs) = .ok v) :
    (∀ l ∈ (r :: rs).map (Resonance.level root), denominator E l ≠ 0) ∧
    v = groupValue |r.flaggedStatisticalFactor|
      (reichMooreCollision φ E ((r :: rs).map (Resonance.level root))) := by
  rw [evaluateGroup] at h
  dsimp only at h
  rw [bind_ok] at h
  obtain ⟨⟨flag, K⟩, h1, h2⟩ := h
  obtain ⟨a1, a2, a3⟩ := evaluateResonances_ok h1
  have hcap : ∀ l ∈ (r :: rs).map (Resonance.level root), 0 ≤ l.capture := by
    intro l hl
    obtain ⟨x, hx, rfl⟩ := List.mem_map.mp hl
    exact hc x hx
  simp only [Matrix.zero_apply, zero_add] at a3
  refine ⟨a1, ?_⟩
  simp only at h2
  split at h2
  · rw [solveRmatrix_eq a3 hcap] at h2
    exact (Except.ok.inj h2).symm
  · rename_i hf
    have hf := (a2 (by simpa using hf)).2
    rw [solveRfunction_eq (a3 0 0 (le_refl _)) hcap hf] at h2
    exact (Except.ok.inj h2).symm

/-- Total minus elastic minus fission. -/
theorem groupValue_capture (g : ℝ) (U : Matrix3) :
    groupValue g U 0 - groupValue g U 1 - groupValue g U 2 = g * (1 - ∑ j, normSq (U 0 j)) := by
  simp only [groupValue, Matrix.cons_val_zero, Matrix.cons_val_one, Matrix.cons_val, Fin.sum_univ_three,
    normSq_apply, sub_re, sub_im, one_re, one_im]
  ring

end Verif.Old.ReichMoore
