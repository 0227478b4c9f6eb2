import Verif.Spec.Uncoupled
import Verif.Lemmas.Evaluate
import Mathlib.Data.Matrix.Block
import Mathlib.LinearAlgebra.Matrix.SchurComplement
import Mathlib.Logic.Equiv.Set

/-!
# The R-matrix formulas with and without channels that take no part
-/

namespace Verif

open Complex Matrix

section Matrices

variable {m n : Type*} [Fintype m] [DecidableEq m] [Fintype n] [DecidableEq n]

/-- The inverse of a matrix that is the identity outside some rows and columns. -/
theorem inverse_left_out {σ : m → n} (hσ : Function.Injective σ) {M : Matrix m m ℂ} {M' : Matrix n n ℂ}
    {R : Matrix m m ℂ} {R' : Matrix n n ℂ} (hM : ∀ i j, M' (σ i) (σ j) = M i j)
    (hMr : ∀ a b, b ∉ Set.range σ → M' a b = (1 : Matrix n n ℂ) a b)
    (hMl : ∀ a b, a ∉ Set.range σ → M' a b = (1 : Matrix n n ℂ) a b)
    (hR : ∀ i j, R' (σ i) (σ j) = R i j) (hRr : ∀ a b, b ∉ Set.range σ → R' a b = 0)
    (hRl : ∀ a b, a ∉ Set.range σ → R' a b = 0) :
    M'.det = M.det ∧ (M.det ≠ 0 → (∀ i j, (M'⁻¹ * R') (σ i) (σ j) = (M⁻¹ * R) i j) ∧
      (∀ a b, b ∉ Set.range σ → (M'⁻¹ * R') a b = 0)) := by
  classical
  let e : m ⊕ {j // j ∉ Set.range σ} ≃ n :=
    ((Equiv.ofInjective σ hσ).sumCongr (Equiv.refl _)).trans (Equiv.Set.sumCompl (Set.range σ))
  have he1 : ∀ i, e (Sum.inl i) = σ i := fun i => rfl
  have he2 : ∀ j, e (Sum.inr j) = j.1 := fun j => rfl
  have hne : ∀ i (j : {j // j ∉ Set.range σ}), σ i ≠ j.1 := fun i j h => j.2 ⟨i, h⟩
  have hsub : M'.submatrix e e = fromBlocks M 0 0 1 := by
    ext a b
    rcases a with a | a <;> rcases b with b | b
    · simp [he1, hM]
    · simp only [submatrix_apply, he1, he2, fromBlocks_apply₁₂, Matrix.zero_apply]
      rw [hMr _ _ b.2, Matrix.one_apply_ne (hne _ _)]
    · simp only [submatrix_apply, he1, he2, fromBlocks_apply₂₁, Matrix.zero_apply]
      rw [hMl _ _ a.2, Matrix.one_apply_ne (hne _ _).symm]
    · simp only [submatrix_apply, he2, fromBlocks_apply₂₂]
      rw [hMl _ _ a.2, Matrix.one_apply, Matrix.one_apply]
      simp only [Subtype.ext_iff]
  have hsubR : R'.submatrix e e = fromBlocks R 0 0 0 := by
    ext a b
    rcases a with a | a <;> rcases b with b | b
    · simp [he1, hR]
    · simp only [submatrix_apply, he1, he2, fromBlocks_apply₁₂, Matrix.zero_apply]
      rw [hRr _ _ b.2]
    · simp only [submatrix_apply, he1, he2, fromBlocks_apply₂₁, Matrix.zero_apply]
      rw [hRl _ _ a.2]
    · simp only [submatrix_apply, he2, fromBlocks_apply₂₂, Matrix.zero_apply]
      rw [hRl _ _ a.2]
  have hdet : M'.det = M.det := by
    rw [← det_submatrix_equiv_self e, hsub, det_fromBlocks_zero₂₁, det_one, mul_one]
  refine ⟨hdet, fun hM0 => ?_⟩
  have hinv : (fromBlocks M 0 0 (1 : Matrix {j // j ∉ Set.range σ} {j // j ∉ Set.range σ} ℂ))⁻¹
      = fromBlocks M⁻¹ 0 0 1 := by
    apply inv_eq_right_inv
    rw [fromBlocks_multiply]
    simp [mul_nonsing_inv _ (isUnit_iff_ne_zero.mpr hM0)]
  have hprod : (M'⁻¹ * R').submatrix e e = fromBlocks (M⁻¹ * R) 0 0 0 := by
    rw [← submatrix_mul_equiv _ _ e e e, ← inv_submatrix_equiv, hsub, hsubR, hinv, fromBlocks_multiply]
    simp
  refine ⟨fun i j => ?_, fun a b hb => ?_⟩
  · have := congrFun (congrFun hprod (Sum.inl i)) (Sum.inl j)
    simpa [he1] using this
  · rw [Matrix.mul_apply]
    exact Finset.sum_eq_zero fun c _ => by rw [hRr _ _ hb, mul_zero]

/-- Sums over the channels that are not left out. -/
theorem sum_left_out {σ : m → n} (hσ : Function.Injective σ) {f : n → ℝ}
    (hf : ∀ j, j ∉ Set.range σ → f j = 0) : ∑ j, f j = ∑ i, f (σ i) := by
  classical
  have h1 : ∑ i, f (σ i) = ∑ j ∈ Finset.univ.image σ, f j :=
    (Finset.sum_image fun a _ b _ h => hσ h).symm
  rw [h1]
  refine (Finset.sum_subset (Finset.subset_univ _) fun j _ hj => hf j ?_).symm
  rintro ⟨i, rfl⟩
  exact hj (Finset.mem_image_of_mem _ (Finset.mem_univ _))

end Matrices

section LeavesOut

variable {channels channels' : List Channel} {σ : Fin channels.length → Fin channels'.length}
  {rs rs' : List Resonance} {E : ℝ} {option : BoundaryOption} {K : Constants} {lib : CoulombLibrary}
  {P S w phi : Fin channels'.length → ℝ}

theorem rMatrix_leavesOut (h : Spec.LeavesOut E σ rs rs') (i j : Fin channels.length) :
    Spec.rMatrix channels' rs' E (σ i) (σ j) = Spec.rMatrix channels rs E i j := by
  obtain ⟨-, hc, -, hr⟩ := h
  induction hr with
  | nil => simp [rMatrix_nil]
  | @cons r r' _ _ h1 _ ih =>
    rw [rMatrix_cons, rMatrix_cons, Matrix.add_apply, Matrix.add_apply, ih]
    congr 1
    have hamp : ∀ i, Spec.amplitude channels' E r' (σ i) = Spec.amplitude channels E r i := by
      intro i
      unfold Spec.amplitude
      rw [hc i, h1.2.2.2.1 i]
    have hd : r'.denominator E = r.denominator E := by
      rw [denominator_eq, denominator_eq, h1.1, h1.2.1]
    simp only [Matrix.of_apply, hamp, hd]

theorem rMatrix_left_out (h : Spec.LeavesOut E σ rs rs') (a b : Fin channels'.length)
    (hb : b ∉ Set.range σ) : Spec.rMatrix channels' rs' E a b = 0 := by
  obtain ⟨-, -, -, hr⟩ := h
  induction hr with
  | nil => simp [rMatrix_nil]
  | @cons r r' _ _ h1 _ ih =>
    have hamp : Spec.amplitude channels' E r' b = 0 := by
      unfold Spec.amplitude
      rcases h1.2.2.2.2 b hb with h2 | h2
      · rw [if_pos h2]
      · rw [h2, ite_self]
    rw [rMatrix_cons, Matrix.add_apply, ih, Matrix.of_apply, hamp]
    simp

theorem rMatrix_left_out' (h : Spec.LeavesOut E σ rs rs') (a b : Fin channels'.length)
    (ha : a ∉ Set.range σ) : Spec.rMatrix channels' rs' E a b = 0 := by
  rw [← rMatrix_transpose, Matrix.transpose_apply]
  exact rMatrix_left_out h b a ha

theorem logDerivative_leavesOut (h : Spec.LeavesOut E σ rs rs') (i : Fin channels.length) :
    Spec.logDerivative option channels' P S (σ i)
      = Spec.logDerivative option channels (P ∘ σ) (S ∘ σ) i := by
  cases option
  · rfl
  · simp only [Spec.logDerivative, h.sameChannels i, Function.comp_apply]

theorem levels_leavesOut (h : Spec.LeavesOut E σ rs rs') :
    (Spec.levelDenominator option channels' rs' E P S).det
      = (Spec.levelDenominator option channels rs E (P ∘ σ) (S ∘ σ)).det ∧
    ((Spec.levelDenominator option channels rs E (P ∘ σ) (S ∘ σ)).det ≠ 0 →
      (∀ i j, Spec.tMatrix option channels' rs' E P S (σ i) (σ j)
        = Spec.tMatrix option channels rs E (P ∘ σ) (S ∘ σ) i j) ∧
      ∀ a b, b ∉ Set.range σ → Spec.tMatrix option channels' rs' E P S a b = 0) := by
  obtain ⟨h1, h2⟩ := inverse_left_out (σ := σ) h.order.injective
    (M := Spec.levelDenominator option channels rs E (P ∘ σ) (S ∘ σ))
    (M' := Spec.levelDenominator option channels' rs' E P S)
    (R := Spec.rMatrix channels rs E) (R' := Spec.rMatrix channels' rs' E)
    (by
      intro i j
      simp only [Spec.levelDenominator, Matrix.sub_apply, Matrix.mul_diagonal, rMatrix_leavesOut h,
        logDerivative_leavesOut h, Matrix.one_apply, h.order.injective.eq_iff])
    (by
      intro a b hb
      simp only [Spec.levelDenominator, Matrix.sub_apply, Matrix.mul_diagonal, rMatrix_left_out h a b hb,
        zero_mul, sub_zero])
    (by
      intro a b ha
      simp only [Spec.levelDenominator, Matrix.sub_apply, Matrix.mul_diagonal, rMatrix_left_out' h a b ha,
        zero_mul, sub_zero])
    (rMatrix_leavesOut h) (rMatrix_left_out h) (rMatrix_left_out' h)
  refine ⟨h1, fun h0 => ?_⟩
  obtain ⟨h3, h4⟩ := h2 h0
  refine ⟨fun i j => ?_, fun a b hb => ?_⟩
  · simp only [Spec.tMatrix, Matrix.of_apply, h3, Function.comp_apply]
  · simp only [Spec.tMatrix, Matrix.of_apply, h4 a b hb, mul_zero, zero_mul]

theorem find?_leavesOut (h : Spec.LeavesOut E σ rs rs') :
    channels'.find? Channel.isIncident = channels.find? Channel.isIncident := by
  cases hc : channels.find? Channel.isIncident with
  | none =>
    rw [List.find?_eq_none] at hc ⊢
    intro c hm
    obtain ⟨j, hj, rfl⟩ := List.getElem_of_mem hm
    by_cases hr : (⟨j, hj⟩ : Fin channels'.length) ∈ Set.range σ
    · obtain ⟨i, hi⟩ := hr
      have h2 : channels'[j] = channels[i] := by
        have := h.sameChannels i
        simp only [hi] at this
        exact this
      rw [h2]
      exact hc _ (List.getElem_mem _)
    · have : channels'[j].isIncident = false := h.notIncident _ hr
      rw [this]
      exact Bool.false_ne_true
  | some c =>
    rw [List.find?_eq_some_iff_getElem] at hc ⊢
    obtain ⟨h1, i, hi, h2, h3⟩ := hc
    refine ⟨h1, (σ ⟨i, hi⟩).val, (σ ⟨i, hi⟩).isLt, ?_, fun j hj => ?_⟩
    · exact (h.sameChannels ⟨i, hi⟩).trans h2
    · have hj' : j < channels'.length := lt_trans hj (σ ⟨i, hi⟩).isLt
      by_cases hr : (⟨j, hj'⟩ : Fin channels'.length) ∈ Set.range σ
      · obtain ⟨k, hk⟩ := hr
        have h4 : channels'[j] = channels[k] := by
          have := h.sameChannels k
          simp only [hk] at this
          exact this
        have h5 : k < ⟨i, hi⟩ := by
          rw [← h.order.lt_iff_lt, hk]
          exact hj
        rw [h4]
        exact h3 k.val h5
      · have : channels'[j].isIncident = false := h.notIncident _ hr
        rw [this]
        rfl

theorem contribution_leavesOut (h : Spec.LeavesOut E σ rs rs')
    (hdet : (Spec.levelDenominator option channels rs E (P ∘ σ) (S ∘ σ)).det ≠ 0)
    (hcap : Spec.captureID channels' = Spec.captureID channels) (id : ReactionID) :
    Spec.contribution option K channels' rs' E P S w phi id
      = Spec.contribution option K channels rs E (P ∘ σ) (S ∘ σ) (w ∘ σ) (phi ∘ σ) id := by
  have hσ := h.order.injective
  obtain ⟨hT, hT0⟩ := (levels_leavesOut (option := option) (P := P) (S := S) h).2 hdet
  have hfac : Spec.incidentFactor K channels' E = Spec.incidentFactor K channels E := by
    unfold Spec.incidentFactor
    rw [find?_leavesOut h]
  have hU : ∀ i j, Spec.collision (Spec.tMatrix option channels' rs' E P S) w phi (σ i) (σ j)
      = Spec.collision (Spec.tMatrix option channels rs E (P ∘ σ) (S ∘ σ)) (w ∘ σ) (phi ∘ σ) i j := by
    intro i j
    simp only [Spec.collision, hT, Function.comp_apply, hσ.eq_iff]
  have hU0 : ∀ i b, b ∉ Set.range σ →
      Spec.collision (Spec.tMatrix option channels' rs' E P S) w phi (σ i) b = 0 := by
    intro i b hb
    have hne : σ i ≠ b := fun h2 => hb ⟨i, h2⟩
    simp [Spec.collision, hT0 _ _ hb, hne]
  unfold Spec.contribution
  simp only
  rw [sum_left_out hσ]
  swap
  · intro j hj
    rw [h.notIncident j hj]
    rfl
  refine Finset.sum_congr rfl fun c _ => ?_
  have hinner : (∑ c', if channels'[c'].reaction = id then
        Spec.incidentFactor K channels' E * Spec.partialCrossSection (Spec.collision
          (Spec.tMatrix option channels' rs' E P S) w phi) w (σ c) c' else 0)
      = ∑ c' : Fin channels.length, if channels[c'].reaction = id then
        Spec.incidentFactor K channels E * Spec.partialCrossSection (Spec.collision
          (Spec.tMatrix option channels rs E (P ∘ σ) (S ∘ σ)) (w ∘ σ) (phi ∘ σ)) (w ∘ σ) c c' else 0 := by
    rw [sum_left_out hσ]
    · refine Finset.sum_congr rfl fun c' _ => ?_
      rw [h.sameChannels c', hfac]
      simp only [Spec.partialCrossSection, hU, hσ.eq_iff, Function.comp_apply]
    · intro j hj
      have hne : σ c ≠ j := fun h2 => hj ⟨c, h2⟩
      simp [Spec.partialCrossSection, hU0 c j hj, hne]
  have hc : Spec.captureCrossSection (Spec.collision
          (Spec.tMatrix option channels' rs' E P S) w phi) (σ c)
      = Spec.captureCrossSection (Spec.collision
          (Spec.tMatrix option channels rs E (P ∘ σ) (S ∘ σ)) (w ∘ σ) (phi ∘ σ)) c := by
    unfold Spec.captureCrossSection
    rw [sum_left_out hσ]
    · simp only [hU]
    · intro j hj
      rw [hU0 c j hj, map_zero]
  rw [hinner, hc, hcap, h.sameChannels c, hfac]

theorem Evaluable_leavesOut (h : Spec.LeavesOut E σ rs rs') :
    Spec.Evaluable option K lib channels' rs' E P S w phi ↔
      Spec.Evaluable option K lib channels rs E (P ∘ σ) (S ∘ σ) (w ∘ σ) (phi ∘ σ) ∧
      ∀ j : Fin channels'.length, j ∉ Set.range σ →
        channels'[j].penetrability K lib E = .ok (P j) ∧
        (option = .constant → channels'[j].shiftFactor K lib E = .ok (S j)) ∧
        channels'[j].coulombPhaseShift K E = .ok (w j) ∧
        channels'[j].phaseShift K lib E = .ok (phi j) ∧ 0 ≤ P j := by
  have hw : (∀ r ∈ rs', r.widths.length = channels'.length) ↔
      ∀ r ∈ rs, r.widths.length = channels.length := by
    have hr := h.sameResonances
    clear h
    induction hr with
    | nil => simp
    | cons h1 _ ih => simp only [List.mem_cons, forall_eq_or_imp, h1.2.2.1, ih]
  have hp : (∀ r ∈ rs', ¬ (r.energy = E ∧ r.eliminated = 0)) ↔
      ∀ r ∈ rs, ¬ (r.energy = E ∧ r.eliminated = 0) := by
    have hr := h.sameResonances
    clear h hw
    induction hr with
    | nil => simp
    | cons h1 _ ih => simp only [List.mem_cons, forall_eq_or_imp, h1.1, h1.2.1, ih]
  constructor
  · intro hev
    refine ⟨⟨fun i => ?_, fun ho i => ?_, fun i => ?_, fun i => ?_, fun i => hev.nonneg _, hw.mp hev.widths,
      hp.mp hev.noPole, ?_, ?_⟩, fun j _ => ⟨hev.penetrability j, fun ho => hev.shiftFactor ho j,
        hev.coulomb j, hev.phase j, hev.nonneg j⟩⟩
    · rw [← h.sameChannels i]; exact hev.penetrability _
    · rw [← h.sameChannels i]; exact hev.shiftFactor ho _
    · rw [← h.sameChannels i]; exact hev.coulomb _
    · rw [← h.sameChannels i]; exact hev.phase _
    · rw [← (levels_leavesOut h).1]; exact hev.invertible
    · rw [← find?_leavesOut h]; exact hev.waveNumber
  · rintro ⟨hev, hx⟩
    have hall : ∀ {p : Fin channels'.length → Prop}, (∀ i, p (σ i)) → (∀ j, j ∉ Set.range σ → p j) →
        ∀ j, p j := by
      intro p h1 h2 j
      by_cases hj : j ∈ Set.range σ
      · obtain ⟨i, rfl⟩ := hj
        exact h1 i
      · exact h2 j hj
    refine ⟨hall (fun i => ?_) fun j hj => (hx j hj).1, fun ho => hall (fun i => ?_) fun j hj => (hx j hj).2.1 ho,
      hall (fun i => ?_) fun j hj => (hx j hj).2.2.1, hall (fun i => ?_) fun j hj => (hx j hj).2.2.2.1,
      hall (fun i => hev.nonneg i) fun j hj => (hx j hj).2.2.2.2, hw.mpr hev.widths, hp.mpr hev.noPole, ?_, ?_⟩
    · rw [h.sameChannels i]; exact hev.penetrability i
    · rw [h.sameChannels i]; exact hev.shiftFactor ho i
    · rw [h.sameChannels i]; exact hev.coulomb i
    · rw [h.sameChannels i]; exact hev.phase i
    · rw [(levels_leavesOut h).1]; exact hev.invertible
    · rw [find?_leavesOut h]; exact hev.waveNumber

end LeavesOut

end Verif
