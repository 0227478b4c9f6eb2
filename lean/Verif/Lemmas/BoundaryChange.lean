import Verif.Spec.BoundaryChange
import Verif.Lemmas.Evaluate
import Verif.Lemmas.Perturbation
import Mathlib.LinearAlgebra.Matrix.NonsingularInverse

/-!
# Lemmas about the transformation to other boundary conditions
-/

namespace Verif

open Complex Matrix

section Algebra

variable {ι κ : Type*} [Fintype ι] [DecidableEq ι] [Fintype κ] [DecidableEq κ]

omit [DecidableEq κ] in
/-- The R-matrices for two boundary conditions. -/
theorem rmatrix_change {D D' Q : Matrix ι ι ℂ} {γ : Matrix ι κ ℂ} {Δ : Matrix κ κ ℂ}
    (hD : D.det ≠ 0) (hD' : D'.det ≠ 0) (hQ : Q * Qᵀ = 1) (h : D' = Q * (D - γ * Δ * γᵀ) * Qᵀ) :
    (Q * γ)ᵀ * D'⁻¹ * (Q * γ) = γᵀ * D⁻¹ * γ + γᵀ * D⁻¹ * γ * Δ * ((Q * γ)ᵀ * D'⁻¹ * (Q * γ)) := by
  have hQ' : Qᵀ * Q = 1 := mul_eq_one_comm.mp hQ
  have hu : IsUnit D.det := isUnit_iff_ne_zero.mpr hD
  have hu' : IsUnit D'.det := isUnit_iff_ne_zero.mpr hD'
  -- `X = Qᵀ D'⁻¹ Q` is the inverse of `D - γ Δ γᵀ`
  have hA : (D - γ * Δ * γᵀ) * (Qᵀ * D'⁻¹ * Q) = 1 := by
    have h1 : D - γ * Δ * γᵀ = Qᵀ * D' * Q := by
      rw [h]
      calc D - γ * Δ * γᵀ = (Qᵀ * Q) * (D - γ * Δ * γᵀ) * (Qᵀ * Q) := by rw [hQ', Matrix.one_mul, Matrix.mul_one]
        _ = _ := by simp only [Matrix.mul_assoc]
    rw [h1]
    calc Qᵀ * D' * Q * (Qᵀ * D'⁻¹ * Q) = Qᵀ * D' * (Q * Qᵀ) * D'⁻¹ * Q := by simp only [Matrix.mul_assoc]
      _ = Qᵀ * (D' * D'⁻¹) * Q := by rw [hQ, Matrix.mul_one, Matrix.mul_assoc Qᵀ]
      _ = 1 := by rw [Matrix.mul_nonsing_inv _ hu', Matrix.mul_one, hQ']
  have hX : Qᵀ * D'⁻¹ * Q = D⁻¹ + D⁻¹ * γ * Δ * γᵀ * (Qᵀ * D'⁻¹ * Q) := by
    have h2 : D * (Qᵀ * D'⁻¹ * Q) = 1 + γ * Δ * γᵀ * (Qᵀ * D'⁻¹ * Q) := by
      rw [Matrix.sub_mul, sub_eq_iff_eq_add] at hA
      exact hA
    calc Qᵀ * D'⁻¹ * Q = D⁻¹ * (D * (Qᵀ * D'⁻¹ * Q)) := by
          rw [← Matrix.mul_assoc, Matrix.nonsing_inv_mul _ hu, Matrix.one_mul]
      _ = D⁻¹ + D⁻¹ * γ * Δ * γᵀ * (Qᵀ * D'⁻¹ * Q) := by
          rw [h2, Matrix.mul_add, Matrix.mul_one]
          simp only [Matrix.mul_assoc]
  have e1 : (Q * γ)ᵀ * D'⁻¹ * (Q * γ) = γᵀ * (Qᵀ * D'⁻¹ * Q) * γ := by
    rw [Matrix.transpose_mul]
    simp only [Matrix.mul_assoc]
  rw [e1]
  calc γᵀ * (Qᵀ * D'⁻¹ * Q) * γ = γᵀ * (D⁻¹ + D⁻¹ * γ * Δ * γᵀ * (Qᵀ * D'⁻¹ * Q)) * γ := by rw [← hX]
    _ = _ := by
      rw [Matrix.mul_add, Matrix.add_mul]
      simp only [Matrix.mul_assoc]

/-- The level matrices for two boundary conditions. -/
theorem level_change {R R' L L' Δ : Matrix κ κ ℂ} (hR : R' = R + R * Δ * R') (hL : L' = L - Δ)
    (hdet : (1 - R * L).det ≠ 0) :
    (1 - R' * L').det ≠ 0 ∧ (1 - R' * L')⁻¹ * R' = (1 - R * L)⁻¹ * R := by
  have h1 : (1 - R * Δ) * R' = R := by
    rw [Matrix.sub_mul, Matrix.one_mul, sub_eq_iff_eq_add]
    exact hR
  have h2 : (1 - R * Δ) * (1 - R' * L') = 1 - R * L := by
    rw [Matrix.mul_sub, Matrix.mul_one, ← Matrix.mul_assoc, h1, hL, Matrix.mul_sub]
    abel
  rw [← h2, Matrix.det_mul] at hdet
  have h3 := left_ne_zero_of_mul hdet
  have h4 := right_ne_zero_of_mul hdet
  refine ⟨h4, ?_⟩
  have h5 : (1 - R * Δ)⁻¹ * R = R' := by
    calc (1 - R * Δ)⁻¹ * R = (1 - R * Δ)⁻¹ * ((1 - R * Δ) * R') := by rw [h1]
      _ = R' := by
        rw [← Matrix.mul_assoc, Matrix.nonsing_inv_mul _ (isUnit_iff_ne_zero.mpr h3), Matrix.one_mul]
  rw [← h2, Matrix.mul_inv_rev, Matrix.mul_assoc, h5]

end Algebra

section

variable {n : ℕ} {channels channels' : List Channel} {rs rs' : List Resonance} {E : ℝ}

open Classical in
/-- Amplitudes in the open channels. -/
noncomputable def openMatrix (n : ℕ) (channels : List Channel) (rs : List Resonance) (E : ℝ) :
    Matrix (Fin n) (Fin channels.length) ℂ :=
  Matrix.of fun i c => ((if channels[c].belowThreshold E then 0 else
    Spec.widthMatrix n channels.length rs i c : ℝ) : ℂ)

theorem rMatrix_product {G : ℝ} (hn : rs.length = n) (hG : ∀ r ∈ rs, r.eliminated = G)
    (hp : ∀ r ∈ rs, ¬ (r.energy = E ∧ r.eliminated = 0)) :
    let D : Matrix (Fin n) (Fin n) ℂ := diagonal fun i => (Spec.energies n rs i : ℂ) - E - I * (G : ℂ) ^ 2
    D.det ≠ 0 ∧ Spec.rMatrix channels rs E = (openMatrix n channels rs E)ᵀ * D⁻¹ * openMatrix n channels rs E := by
  intro D
  have hd : ∀ i : Fin n, (Spec.energies n rs i : ℂ) - E - I * (G : ℂ) ^ 2 ≠ 0 := by
    intro i
    have hi : (i : ℕ) < rs.length := hn ▸ i.isLt
    have hm : rs.getD i ⟨0, [], 0⟩ ∈ rs := by
      rw [getD_getElem hi]
      exact List.getElem_mem _
    have := hp _ hm
    rw [hG _ hm] at this
    exact denominator_ne this
  have hdet : D.det ≠ 0 := by
    rw [det_diagonal]
    exact Finset.prod_ne_zero_iff.mpr fun i _ => hd i
  refine ⟨hdet, ?_⟩
  have hinv : D⁻¹ = diagonal fun i => ((Spec.energies n rs i : ℂ) - E - I * (G : ℂ) ^ 2)⁻¹ := by
    refine Matrix.inv_eq_right_inv ?_
    rw [diagonal_mul_diagonal]
    ext i j
    by_cases h : i = j
    · subst h
      simp [mul_inv_cancel₀ (hd i)]
    · simp [h]
  rw [hinv, rMatrix_params hn]
  ext c c'
  simp only [paramR, Matrix.of_apply]
  rw [Matrix.mul_apply]
  refine Finset.sum_congr rfl fun i _ => ?_
  rw [Matrix.mul_diagonal, Matrix.transpose_apply]
  have hi : (i : ℕ) < rs.length := hn ▸ i.isLt
  have hm : rs.getD i ⟨0, [], 0⟩ ∈ rs := by
    rw [getD_getElem hi]
    exact List.getElem_mem _
  have h1 : (paramsOf n channels.length rs i).2.1 = G := hG _ hm
  rw [h1]
  simp only [openMatrix, Matrix.of_apply]
  rw [div_eq_mul_inv]
  change _ * _ * (_)⁻¹ = _ * (_)⁻¹ * _
  rw [mul_right_comm]
  rfl

/-- The equation of the transformation, with the open channels only. -/
theorem change_open {Q : Matrix (Fin n) (Fin n) ℝ} {G : ℝ} (h : Spec.BoundaryChange Q channels channels' rs rs')
    (hclosed : ∀ c : Fin channels.length, channels[c].belowThreshold E →
      Spec.boundaryShift channels channels' c = 0) :
    openMatrix n channels rs' E = Q.map ofRealHom * openMatrix n channels rs E ∧
    (diagonal fun i => (Spec.energies n rs' i : ℂ) - E - I * (G : ℂ) ^ 2)
      = Q.map ofRealHom * ((diagonal fun i => (Spec.energies n rs i : ℂ) - E - I * (G : ℂ) ^ 2)
        - openMatrix n channels rs E * diagonal (fun c => (Spec.boundaryShift channels channels' c : ℂ))
          * (openMatrix n channels rs E)ᵀ) * (Q.map ofRealHom)ᵀ := by
  classical
  have hQ : Q.map ofRealHom * (Q.map ofRealHom)ᵀ = 1 := by
    have := congrArg (fun M => M.map ofRealHom) h.orthogonal
    simpa [Matrix.map_mul, Matrix.transpose_map] using this
  constructor
  · ext i c
    simp only [openMatrix, Matrix.of_apply, Matrix.mul_apply, Matrix.map_apply]
    by_cases hc : channels[c].belowThreshold E
    · simp only [if_pos hc, ofReal_zero, mul_zero, Finset.sum_const_zero]
    · simp only [if_neg hc]
      rw [h.amplitudes, Matrix.mul_apply]
      push_cast
      rfl
  · have e0 : openMatrix n channels rs E * diagonal (fun c => (Spec.boundaryShift channels channels' c : ℂ))
          * (openMatrix n channels rs E)ᵀ
        = (Spec.widthMatrix n channels.length rs * diagonal (Spec.boundaryShift channels channels')
          * (Spec.widthMatrix n channels.length rs)ᵀ).map ofRealHom := by
      ext i j
      rw [Matrix.map_apply, Matrix.mul_apply, Matrix.mul_apply, ofRealHom_eq_coe, ofReal_sum]
      refine Finset.sum_congr rfl fun c _ => ?_
      rw [Matrix.mul_diagonal, Matrix.mul_diagonal, Matrix.transpose_apply, Matrix.transpose_apply]
      simp only [openMatrix, Matrix.of_apply]
      by_cases hc : channels[c].belowThreshold E
      · rw [hclosed c hc]
        simp
      · simp only [if_neg hc]
        push_cast
        rfl
    have e1 : (diagonal fun i => (Spec.energies n rs i : ℂ) - E - I * (G : ℂ) ^ 2 : Matrix (Fin n) (Fin n) ℂ)
        = (diagonal (Spec.energies n rs)).map ofRealHom - ((E : ℂ) + I * (G : ℂ) ^ 2) • (1 : Matrix (Fin n) (Fin n) ℂ) := by
      ext i j
      by_cases hij : i = j
      · subst hij
        simp
        ring
      · simp [hij]
    have e2 : (diagonal fun i => (Spec.energies n rs' i : ℂ) - E - I * (G : ℂ) ^ 2 : Matrix (Fin n) (Fin n) ℂ)
        = (diagonal (Spec.energies n rs')).map ofRealHom - ((E : ℂ) + I * (G : ℂ) ^ 2) • (1 : Matrix (Fin n) (Fin n) ℂ) := by
      ext i j
      by_cases hij : i = j
      · subst hij
        simp
        ring
      · simp [hij]
    have e3 : (diagonal (Spec.energies n rs')).map ofRealHom
        = Q.map ofRealHom * ((diagonal (Spec.energies n rs)).map ofRealHom
          - (Spec.widthMatrix n channels.length rs * diagonal (Spec.boundaryShift channels channels')
          * (Spec.widthMatrix n channels.length rs)ᵀ).map ofRealHom) * (Q.map ofRealHom)ᵀ := by
      have := congrArg (fun M => M.map ofRealHom) h.energies
      simp only [Matrix.map_mul] at this
      rw [Matrix.map_sub _ (by simp)] at this
      rw [Matrix.transpose_map] at this
      rw [this]
    rw [e0, e1, e2, e3, sub_right_comm, Matrix.mul_sub (Q.map ofRealHom) _ (_ • _), Matrix.sub_mul, Matrix.mul_smul,
      Matrix.mul_one, Matrix.smul_mul, hQ]

theorem same_length (h : Spec.SameButBoundary channels channels') : channels'.length = channels.length :=
  h.length_eq.symm

theorem same_getElem (h : Spec.SameButBoundary channels channels') (i : Fin channels.length) :
    channels'[finCongr (same_length h).symm i]
      = { channels[i] with boundary := channels'[finCongr (same_length h).symm i].boundary } :=
  (List.forall₂_iff_get.mp h).2 i i.isLt ((same_length h).symm ▸ i.isLt)

theorem rMatrix_same (h : Spec.SameButBoundary channels channels') (rs : List Resonance) :
    (Spec.rMatrix channels' rs E).submatrix (finCongr (same_length h).symm) (finCongr (same_length h).symm)
      = Spec.rMatrix channels rs E := by
  ext c c'
  simp only [Spec.rMatrix, Matrix.submatrix_apply, Matrix.of_apply]
  congr 1
  refine List.map_congr_left fun r _ => ?_
  have : ∀ i, Spec.amplitude channels' E r (finCongr (same_length h).symm i) = Spec.amplitude channels E r i := by
    intro i
    unfold Spec.amplitude
    have : channels'[finCongr (same_length h).symm i].belowThreshold E ↔ channels[i].belowThreshold E := by
      rw [same_getElem h i]
      rfl
    classical
    by_cases hb : channels[i].belowThreshold E
    · rw [if_pos hb, if_pos (this.mpr hb)]
    · rw [if_neg hb, if_neg fun h => hb (this.mp h)]
      rfl
  rw [this, this]

theorem logDerivative_same (h : Spec.SameButBoundary channels channels') {P S : Fin channels.length → ℝ}
    (i : Fin channels.length) :
    Spec.logDerivative .constant channels' (P ∘ (finCongr (same_length h).symm).symm)
      (S ∘ (finCongr (same_length h).symm).symm) (finCongr (same_length h).symm i)
      = Spec.logDerivative .constant channels P S i - Spec.boundaryShift channels channels' i := by
  have : (channels'.map Channel.boundary).getD i 0 = channels'[finCongr (same_length h).symm i].boundary := by
    rw [getD_getElem (by simp [same_length h])]
    simp
  simp only [Spec.logDerivative, Spec.boundaryShift, this, Function.comp_apply, Equiv.symm_apply_apply]
  push_cast
  ring

/-- The T-matrices for two boundary conditions. -/
theorem tMatrix_change {Q : Matrix (Fin n) (Fin n) ℝ} (h : Spec.BoundaryChange Q channels channels' rs rs')
    (hclosed : ∀ c : Fin channels.length, channels[c].belowThreshold E →
      Spec.boundaryShift channels channels' c = 0)
    (hp : ∀ r ∈ rs, ¬ (r.energy = E ∧ r.eliminated = 0)) (hp' : ∀ r ∈ rs', ¬ (r.energy = E ∧ r.eliminated = 0))
    {P S : Fin channels.length → ℝ} (hdet : (Spec.levelDenominator .constant channels rs E P S).det ≠ 0) :
    let σ := finCongr (same_length h.sameChannels).symm
    (Spec.levelDenominator .constant channels' rs' E (P ∘ σ.symm) (S ∘ σ.symm)).det ≠ 0 ∧
    ∀ i j, Spec.tMatrix .constant channels' rs' E (P ∘ σ.symm) (S ∘ σ.symm) (σ i) (σ j)
      = Spec.tMatrix .constant channels rs E P S i j := by
  classical
  intro σ
  obtain ⟨G, hG, hG'⟩ : ∃ G, (∀ r ∈ rs, r.eliminated = G) ∧ ∀ r ∈ rs', r.eliminated = G := by
    have hlen := h.length
    have hlen' := h.length'
    cases hrs' : rs' with
    | nil =>
      rw [hrs'] at hlen'
      rw [← hlen', List.length_nil, List.length_eq_zero_iff] at hlen
      exact ⟨0, by simp [hlen], by simp⟩
    | cons r' rest' =>
      cases hrs : rs with
      | nil =>
        rw [hrs', ← hlen, hrs] at hlen'
        simp at hlen'
      | cons r rest =>
        have hc := h.capture
        rw [hrs, hrs'] at hc
        exact ⟨r.eliminated, fun x hx => (hc x hx r' (by simp)).symm.trans (hc r (by simp) r' (by simp)),
          fun x hx => hc r (by simp) x hx⟩
  have hQ : Q.map ofRealHom * (Q.map ofRealHom)ᵀ = 1 := by
    have := congrArg (fun M => M.map ofRealHom) h.orthogonal
    simpa [Matrix.map_mul, Matrix.transpose_map] using this
  obtain ⟨d1, r1⟩ := rMatrix_product (channels := channels) h.length hG hp
  obtain ⟨d2, r2⟩ := rMatrix_product (channels := channels) h.length' hG' hp'
  obtain ⟨o1, o2⟩ := change_open (G := G) h hclosed
  have hR := rmatrix_change d1 d2 hQ o2
  rw [← o1, ← r1, ← r2] at hR
  have hL : diagonal ((Spec.logDerivative .constant channels' (P ∘ σ.symm) (S ∘ σ.symm)) ∘ σ)
      = diagonal (Spec.logDerivative .constant channels P S)
        - diagonal (fun c => (Spec.boundaryShift channels channels' c : ℂ)) := by
    rw [diagonal_sub]
    congr 1
    funext i
    exact logDerivative_same h.sameChannels i
  obtain ⟨l1, l2⟩ := level_change hR hL hdet
  have hsub : (Spec.levelDenominator .constant channels' rs' E (P ∘ σ.symm) (S ∘ σ.symm)).submatrix σ σ
      = 1 - Spec.rMatrix channels rs' E
        * diagonal ((Spec.logDerivative .constant channels' (P ∘ σ.symm) (S ∘ σ.symm)) ∘ σ) := by
    unfold Spec.levelDenominator
    rw [← rMatrix_same h.sameChannels rs']
    ext i j
    simp only [Matrix.submatrix_apply, Matrix.sub_apply, Matrix.mul_diagonal, Matrix.one_apply,
      EmbeddingLike.apply_eq_iff_eq, Function.comp_apply]
    rfl
  rw [← hsub] at l1 l2
  rw [det_submatrix_equiv_self] at l1
  refine ⟨l1, fun i j => ?_⟩
  simp only [Spec.tMatrix, Matrix.of_apply, Function.comp_apply, Equiv.symm_apply_apply]
  congr 2
  have := congrFun (congrFun l2 i) j
  rw [← rMatrix_same h.sameChannels rs', inv_submatrix_equiv, submatrix_mul_equiv, Matrix.submatrix_apply] at this
  exact this

end

end Verif
