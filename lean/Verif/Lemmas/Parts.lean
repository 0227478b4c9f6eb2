import Verif.Spec.Parts
import Verif.Props.SpinGroupSymmetry
import Mathlib.Data.Matrix.Block
import Mathlib.LinearAlgebra.Matrix.SchurComplement

/-!
# The R-matrix formulas for spin groups of two independent parts
-/

namespace Verif

open Complex Matrix

section Matrices

variable {m₁ m₂ n : Type*} [Fintype m₁] [DecidableEq m₁] [Fintype m₂] [DecidableEq m₂] [Fintype n]
  [DecidableEq n] {ρ₁ : m₁ → n} {ρ₂ : m₂ → n}

theorem sum_parts (hρ : Function.Bijective (Sum.elim ρ₁ ρ₂)) (f : n → ℝ) :
    ∑ j, f j = ∑ i, f (ρ₁ i) + ∑ i, f (ρ₂ i) := by
  rw [← Equiv.sum_comp (Equiv.ofBijective _ hρ), Fintype.sum_sum_type]
  rfl

/-- Inverses of block diagonal matrices. -/
theorem inverse_parts (hρ : Function.Bijective (Sum.elim ρ₁ ρ₂)) {M₁ R₁ : Matrix m₁ m₁ ℂ}
    {M₂ R₂ : Matrix m₂ m₂ ℂ} {M R : Matrix n n ℂ}
    (h1 : ∀ i j, M (ρ₁ i) (ρ₁ j) = M₁ i j ∧ R (ρ₁ i) (ρ₁ j) = R₁ i j)
    (h2 : ∀ i j, M (ρ₂ i) (ρ₂ j) = M₂ i j ∧ R (ρ₂ i) (ρ₂ j) = R₂ i j)
    (h12 : ∀ i j, M (ρ₁ i) (ρ₂ j) = 0 ∧ R (ρ₁ i) (ρ₂ j) = 0)
    (h21 : ∀ i j, M (ρ₂ i) (ρ₁ j) = 0 ∧ R (ρ₂ i) (ρ₁ j) = 0) :
    M.det = M₁.det * M₂.det ∧ (M.det ≠ 0 →
      (∀ i j, (M⁻¹ * R) (ρ₁ i) (ρ₁ j) = (M₁⁻¹ * R₁) i j) ∧
      (∀ i j, (M⁻¹ * R) (ρ₂ i) (ρ₂ j) = (M₂⁻¹ * R₂) i j) ∧
      (∀ i j, (M⁻¹ * R) (ρ₁ i) (ρ₂ j) = 0) ∧ ∀ i j, (M⁻¹ * R) (ρ₂ i) (ρ₁ j) = 0) := by
  let e := Equiv.ofBijective _ hρ
  have he1 : ∀ i, e (Sum.inl i) = ρ₁ i := fun i => rfl
  have he2 : ∀ i, e (Sum.inr i) = ρ₂ i := fun i => rfl
  have hM : M.submatrix e e = fromBlocks M₁ 0 0 M₂ := by
    ext a b
    rcases a with a | a <;> rcases b with b | b <;> simp [he1, he2, h1, h2, h12, h21]
  have hR : R.submatrix e e = fromBlocks R₁ 0 0 R₂ := by
    ext a b
    rcases a with a | a <;> rcases b with b | b <;> simp [he1, he2, h1, h2, h12, h21]
  have hdet : M.det = M₁.det * M₂.det := by
    rw [← det_submatrix_equiv_self e, hM, det_fromBlocks_zero₂₁]
  refine ⟨hdet, fun h0 => ?_⟩
  rw [hdet] at h0
  have hinv : (fromBlocks M₁ 0 0 M₂)⁻¹ = fromBlocks M₁⁻¹ 0 0 M₂⁻¹ := by
    apply inv_eq_right_inv
    rw [fromBlocks_multiply]
    simp [mul_nonsing_inv _ (isUnit_iff_ne_zero.mpr (left_ne_zero_of_mul h0)),
      mul_nonsing_inv _ (isUnit_iff_ne_zero.mpr (right_ne_zero_of_mul h0))]
  have hprod : (M⁻¹ * R).submatrix e e = fromBlocks (M₁⁻¹ * R₁) 0 0 (M₂⁻¹ * R₂) := by
    rw [← submatrix_mul_equiv _ _ e e e, ← inv_submatrix_equiv, hM, hR, hinv, fromBlocks_multiply]
    simp
  have key : ∀ a b, (M⁻¹ * R) (e a) (e b) = fromBlocks (M₁⁻¹ * R₁) 0 0 (M₂⁻¹ * R₂) a b := fun a b =>
    congrFun (congrFun hprod a) b
  exact ⟨fun i j => key (.inl i) (.inl j), fun i j => key (.inr i) (.inr j),
    fun i j => key (.inl i) (.inr j), fun i j => key (.inr i) (.inl j)⟩

end Matrices

section Within

variable {E : ℝ} {part channels : List Channel} {ρ : Fin part.length → Fin channels.length}
  {rs rs' : List Resonance}

theorem rMatrix_within (hc : ∀ i : Fin part.length, channels[ρ i] = part[i])
    (h : List.Forall₂ (Spec.Within E ρ) rs rs') (i j : Fin part.length) :
    Spec.rMatrix channels rs' E (ρ i) (ρ j) = Spec.rMatrix part rs E i j := by
  induction h with
  | nil => simp [rMatrix_nil]
  | @cons r r' _ _ h1 _ ih =>
    rw [rMatrix_cons, rMatrix_cons, Matrix.add_apply, Matrix.add_apply, ih]
    congr 1
    have hamp : ∀ i, Spec.amplitude channels E r' (ρ i) = Spec.amplitude part E r i := by
      intro i
      unfold Spec.amplitude
      rw [hc i, h1.same i]
    have hd : r'.denominator E = r.denominator E := by
      rw [denominator_eq, denominator_eq, h1.energy, h1.eliminated]
    simp only [Matrix.of_apply, hamp, hd]

theorem rMatrix_outside (h : List.Forall₂ (Spec.Within E ρ) rs rs') (a b : Fin channels.length)
    (hab : a ∉ Set.range ρ ∨ b ∉ Set.range ρ) : Spec.rMatrix channels rs' E a b = 0 := by
  induction h with
  | nil => simp [rMatrix_nil]
  | @cons r r' _ _ h1 _ ih =>
    have hamp : ∀ j, j ∉ Set.range ρ → Spec.amplitude channels E r' j = 0 := by
      intro j hj
      unfold Spec.amplitude
      rcases h1.other j hj with h2 | h2
      · rw [if_pos h2]
      · rw [h2, ite_self]
    rw [rMatrix_cons, Matrix.add_apply, ih, Matrix.of_apply]
    rcases hab with h2 | h2
    · rw [hamp a h2]; simp
    · rw [hamp b h2]; simp

theorem widths_within (h : List.Forall₂ (Spec.Within E ρ) rs rs') :
    (∀ r ∈ rs', r.widths.length = channels.length) ↔ ∀ r ∈ rs, r.widths.length = part.length := by
  induction h with
  | nil => simp
  | cons h1 _ ih => simp only [List.mem_cons, forall_eq_or_imp, h1.widths, ih]

theorem noPole_within (h : List.Forall₂ (Spec.Within E ρ) rs rs') :
    (∀ r ∈ rs', ¬ (r.energy = E ∧ r.eliminated = 0)) ↔ ∀ r ∈ rs, ¬ (r.energy = E ∧ r.eliminated = 0) := by
  induction h with
  | nil => simp
  | cons h1 _ ih => simp only [List.mem_cons, forall_eq_or_imp, h1.energy, h1.eliminated, ih]

end Within

section Splits

variable {E : ℝ} {part₁ part₂ channels : List Channel} {ρ₁ : Fin part₁.length → Fin channels.length}
  {ρ₂ : Fin part₂.length → Fin channels.length} {rs₁ rs₂ rs : List Resonance} {option : BoundaryOption}
  {K : Constants} {lib : CoulombLibrary} {P S w phi : Fin channels.length → ℝ}

theorem SplitsInto.symm (h : Spec.SplitsInto E ρ₁ ρ₂ rs₁ rs₂ rs) : Spec.SplitsInto E ρ₂ ρ₁ rs₂ rs₁ rs := by
  obtain ⟨hb, h1, h2, rs₁', rs₂', hp, h3, h4⟩ := h
  refine ⟨?_, h2, h1, rs₂', rs₁', hp.trans List.perm_append_comm, h4, h3⟩
  have : Sum.elim ρ₂ ρ₁ = Sum.elim ρ₁ ρ₂ ∘ Sum.swap := by
    funext x
    rcases x with x | x <;> rfl
  rw [this]
  exact hb.comp (Equiv.sumComm _ _).bijective

theorem SplitsInto.injective (h : Spec.SplitsInto E ρ₁ ρ₂ rs₁ rs₂ rs) : Function.Injective ρ₁ :=
  fun _ _ hab => Sum.inl_injective (h.bijective.1 hab)

theorem SplitsInto.disjoint (h : Spec.SplitsInto E ρ₁ ρ₂ rs₁ rs₂ rs) (i : Fin part₁.length)
    (j : Fin part₂.length) : ρ₁ i ≠ ρ₂ j := by
  intro hij
  have := h.bijective.1 (a₁ := Sum.inl i) (a₂ := Sum.inr j) hij
  cases this

theorem SplitsInto.cover (h : Spec.SplitsInto E ρ₁ ρ₂ rs₁ rs₂ rs) (j : Fin channels.length) :
    (∃ i, ρ₁ i = j) ∨ ∃ i, ρ₂ i = j := by
  obtain ⟨x, hx⟩ := h.bijective.2 j
  rcases x with x | x
  · exact Or.inl ⟨x, hx⟩
  · exact Or.inr ⟨x, hx⟩

theorem SplitsInto.mem (h : Spec.SplitsInto E ρ₁ ρ₂ rs₁ rs₂ rs) (c : Channel) :
    c ∈ channels ↔ c ∈ part₁ ∨ c ∈ part₂ := by
  constructor
  · intro hc
    obtain ⟨j, hj, rfl⟩ := List.getElem_of_mem hc
    rcases SplitsInto.cover h ⟨j, hj⟩ with ⟨i, hi⟩ | ⟨i, hi⟩
    · left
      have := h.channels₁ i
      simp only [hi] at this
      have h2 : channels[j] = part₁[i] := this
      rw [h2]
      exact List.getElem_mem _
    · right
      have := h.channels₂ i
      simp only [hi] at this
      have h2 : channels[j] = part₂[i] := this
      rw [h2]
      exact List.getElem_mem _
  · rintro (hc | hc)
    · obtain ⟨i, hi, rfl⟩ := List.getElem_of_mem hc
      have : channels[ρ₁ ⟨i, hi⟩] = part₁[i] := h.channels₁ ⟨i, hi⟩
      rw [← this]
      exact List.getElem_mem _
    · obtain ⟨i, hi, rfl⟩ := List.getElem_of_mem hc
      have : channels[ρ₂ ⟨i, hi⟩] = part₂[i] := h.channels₂ ⟨i, hi⟩
      rw [← this]
      exact List.getElem_mem _

theorem rMatrix_append (rs rs' : List Resonance) :
    Spec.rMatrix channels (rs ++ rs') E = Spec.rMatrix channels rs E + Spec.rMatrix channels rs' E := by
  ext i j
  simp [Spec.rMatrix]

theorem rMatrix_part (h : Spec.SplitsInto E ρ₁ ρ₂ rs₁ rs₂ rs) (i j : Fin part₁.length) :
    Spec.rMatrix channels rs E (ρ₁ i) (ρ₁ j) = Spec.rMatrix part₁ rs₁ E i j := by
  obtain ⟨rs₁', rs₂', hp, h3, h4⟩ := h.resonances
  rw [rMatrix_perm hp, rMatrix_append, Matrix.add_apply, rMatrix_within h.channels₁ h3,
    rMatrix_outside h4, add_zero]
  left
  rintro ⟨k, hk⟩
  exact SplitsInto.disjoint h i k hk.symm

theorem rMatrix_parts (h : Spec.SplitsInto E ρ₁ ρ₂ rs₁ rs₂ rs) (i : Fin part₁.length)
    (j : Fin part₂.length) : Spec.rMatrix channels rs E (ρ₁ i) (ρ₂ j) = 0 := by
  obtain ⟨rs₁', rs₂', hp, h3, h4⟩ := h.resonances
  rw [rMatrix_perm hp, rMatrix_append, Matrix.add_apply, rMatrix_outside h3, rMatrix_outside h4, add_zero]
  · left
    rintro ⟨k, hk⟩
    exact SplitsInto.disjoint h i k hk.symm
  · right
    rintro ⟨k, hk⟩
    exact SplitsInto.disjoint h k j hk

theorem logDerivative_part (h : Spec.SplitsInto E ρ₁ ρ₂ rs₁ rs₂ rs) (i : Fin part₁.length) :
    Spec.logDerivative option channels P S (ρ₁ i)
      = Spec.logDerivative option part₁ (P ∘ ρ₁) (S ∘ ρ₁) i := by
  cases option
  · rfl
  · simp only [Spec.logDerivative, h.channels₁ i, Function.comp_apply]

theorem levelDenominator_part (h : Spec.SplitsInto E ρ₁ ρ₂ rs₁ rs₂ rs) (i j : Fin part₁.length) :
    Spec.levelDenominator option channels rs E P S (ρ₁ i) (ρ₁ j)
      = Spec.levelDenominator option part₁ rs₁ E (P ∘ ρ₁) (S ∘ ρ₁) i j := by
  simp only [Spec.levelDenominator, Matrix.sub_apply, Matrix.mul_diagonal, rMatrix_part h,
    logDerivative_part h, Matrix.one_apply, (SplitsInto.injective h).eq_iff]

theorem levelDenominator_parts (h : Spec.SplitsInto E ρ₁ ρ₂ rs₁ rs₂ rs) (i : Fin part₁.length)
    (j : Fin part₂.length) : Spec.levelDenominator option channels rs E P S (ρ₁ i) (ρ₂ j) = 0 := by
  simp only [Spec.levelDenominator, Matrix.sub_apply, Matrix.mul_diagonal, rMatrix_parts h, zero_mul,
    sub_zero, Matrix.one_apply_ne (SplitsInto.disjoint h i j)]

theorem levels_parts (h : Spec.SplitsInto E ρ₁ ρ₂ rs₁ rs₂ rs) :
    (Spec.levelDenominator option channels rs E P S).det
      = (Spec.levelDenominator option part₁ rs₁ E (P ∘ ρ₁) (S ∘ ρ₁)).det
        * (Spec.levelDenominator option part₂ rs₂ E (P ∘ ρ₂) (S ∘ ρ₂)).det ∧
    ((Spec.levelDenominator option channels rs E P S).det ≠ 0 →
      (∀ i j, Spec.tMatrix option channels rs E P S (ρ₁ i) (ρ₁ j)
        = Spec.tMatrix option part₁ rs₁ E (P ∘ ρ₁) (S ∘ ρ₁) i j) ∧
      ∀ i j, Spec.tMatrix option channels rs E P S (ρ₁ i) (ρ₂ j) = 0) := by
  have hs := SplitsInto.symm h
  obtain ⟨h1, h2⟩ := inverse_parts h.bijective
    (M := Spec.levelDenominator option channels rs E P S) (R := Spec.rMatrix channels rs E)
    (fun i j => ⟨levelDenominator_part h i j, rMatrix_part h i j⟩)
    (fun i j => ⟨levelDenominator_part hs i j, rMatrix_part hs i j⟩)
    (fun i j => ⟨levelDenominator_parts h i j, rMatrix_parts h i j⟩)
    (fun i j => ⟨levelDenominator_parts hs i j, rMatrix_parts hs i j⟩)
  refine ⟨h1, fun h0 => ?_⟩
  obtain ⟨h3, -, h4, -⟩ := h2 h0
  refine ⟨fun i j => ?_, fun i j => ?_⟩
  · simp only [Spec.tMatrix, Matrix.of_apply, h3, Function.comp_apply]
  · simp only [Spec.tMatrix, Matrix.of_apply, h4, mul_zero, zero_mul]

/-- A part has the factor of the whole group, or no incident channel. -/
theorem incidentFactor_part (h : Spec.SplitsInto E ρ₁ ρ₂ rs₁ rs₂ rs) (hsame : SameIncident K E channels)
    {i : Fin part₁.length} (hi : part₁[i].isIncident) :
    Spec.incidentFactor K part₁ E = Spec.incidentFactor K channels E := by
  unfold Spec.incidentFactor
  have hm : part₁[i] ∈ part₁ := List.getElem_mem _
  cases h1 : part₁.find? Channel.isIncident with
  | none => exact absurd hi (List.find?_eq_none.mp h1 _ hm)
  | some c =>
    cases h2 : channels.find? Channel.isIncident with
    | none => exact absurd hi (List.find?_eq_none.mp h2 _ ((SplitsInto.mem h _).mpr (Or.inl hm)))
    | some d =>
      obtain ⟨h3, h4⟩ := hsame c ((SplitsInto.mem h c).mpr (Or.inl (List.mem_of_find?_eq_some h1))) d
        (List.mem_of_find?_eq_some h2) (List.find?_some h1) (List.find?_some h2)
      simp [h3, h4]

/-- The terms of the cross section with incident channels of one part. -/
theorem contribution_part (h : Spec.SplitsInto E ρ₁ ρ₂ rs₁ rs₂ rs) (hsame : SameIncident K E channels)
    (hdet : (Spec.levelDenominator option channels rs E P S).det ≠ 0)
    (hcap : Spec.captureID channels = Spec.captureID part₁) (id : ReactionID) :
    (∑ i : Fin part₁.length, if channels[ρ₁ i].isIncident then
      (∑ c' : Fin channels.length, if channels[c'].reaction = id then
        Spec.incidentFactor K channels E * Spec.partialCrossSection
          (Spec.collision (Spec.tMatrix option channels rs E P S) w phi) w (ρ₁ i) c' else 0)
      + (if Spec.captureID channels = some id then
        Spec.incidentFactor K channels E * Spec.captureCrossSection
          (Spec.collision (Spec.tMatrix option channels rs E P S) w phi) (ρ₁ i) else 0)
      else 0)
      = Spec.contribution option K part₁ rs₁ E (P ∘ ρ₁) (S ∘ ρ₁) (w ∘ ρ₁) (phi ∘ ρ₁) id := by
  have hi := SplitsInto.injective h
  obtain ⟨hT, hT0⟩ := (levels_parts h).2 hdet
  have hU : ∀ i j, Spec.collision (Spec.tMatrix option channels rs E P S) w phi (ρ₁ i) (ρ₁ j)
      = Spec.collision (Spec.tMatrix option part₁ rs₁ E (P ∘ ρ₁) (S ∘ ρ₁)) (w ∘ ρ₁) (phi ∘ ρ₁) i j := by
    intro i j
    simp only [Spec.collision, hT, Function.comp_apply, hi.eq_iff]
  have hU0 : ∀ i j, Spec.collision (Spec.tMatrix option channels rs E P S) w phi (ρ₁ i) (ρ₂ j) = 0 := by
    intro i j
    simp [Spec.collision, hT0, SplitsInto.disjoint h i j]
  unfold Spec.contribution
  refine Finset.sum_congr rfl fun c _ => ?_
  rw [h.channels₁ c]
  by_cases hinc : part₁[c].isIncident
  swap
  · rw [if_neg hinc, if_neg hinc]
  rw [if_pos hinc, if_pos hinc, incidentFactor_part h hsame hinc]
  have hinner : (∑ c' : Fin channels.length, if channels[c'].reaction = id then
        Spec.incidentFactor K channels E * Spec.partialCrossSection
          (Spec.collision (Spec.tMatrix option channels rs E P S) w phi) w (ρ₁ c) c' else 0)
      = ∑ c' : Fin part₁.length, if part₁[c'].reaction = id then
        Spec.incidentFactor K channels E * Spec.partialCrossSection (Spec.collision
          (Spec.tMatrix option part₁ rs₁ E (P ∘ ρ₁) (S ∘ ρ₁)) (w ∘ ρ₁) (phi ∘ ρ₁)) (w ∘ ρ₁) c c' else 0 := by
    rw [sum_parts h.bijective]
    have h2 : (∑ i : Fin part₂.length, if channels[ρ₂ i].reaction = id then
        Spec.incidentFactor K channels E * Spec.partialCrossSection
          (Spec.collision (Spec.tMatrix option channels rs E P S) w phi) w (ρ₁ c) (ρ₂ i) else 0) = 0 := by
      refine Finset.sum_eq_zero fun j _ => ?_
      simp [Spec.partialCrossSection, hU0 c j, SplitsInto.disjoint h c j]
    rw [h2, add_zero]
    refine Finset.sum_congr rfl fun c' _ => ?_
    rw [h.channels₁ c']
    simp only [Spec.partialCrossSection, hU, hi.eq_iff, Function.comp_apply]
  have hc : Spec.captureCrossSection (Spec.collision (Spec.tMatrix option channels rs E P S) w phi) (ρ₁ c)
      = Spec.captureCrossSection (Spec.collision
          (Spec.tMatrix option part₁ rs₁ E (P ∘ ρ₁) (S ∘ ρ₁)) (w ∘ ρ₁) (phi ∘ ρ₁)) c := by
    unfold Spec.captureCrossSection
    rw [sum_parts h.bijective]
    simp only [hU, hU0, map_zero, Finset.sum_const_zero, add_zero]
  rw [hinner, hc, hcap]

theorem contribution_parts (h : Spec.SplitsInto E ρ₁ ρ₂ rs₁ rs₂ rs) (hsame : SameIncident K E channels)
    (hdet : (Spec.levelDenominator option channels rs E P S).det ≠ 0)
    (hcap₁ : Spec.captureID channels = Spec.captureID part₁)
    (hcap₂ : Spec.captureID channels = Spec.captureID part₂) (id : ReactionID) :
    Spec.contribution option K channels rs E P S w phi id
      = Spec.contribution option K part₁ rs₁ E (P ∘ ρ₁) (S ∘ ρ₁) (w ∘ ρ₁) (phi ∘ ρ₁) id
        + Spec.contribution option K part₂ rs₂ E (P ∘ ρ₂) (S ∘ ρ₂) (w ∘ ρ₂) (phi ∘ ρ₂) id := by
  rw [← contribution_part h hsame hdet hcap₁ id,
    ← contribution_part (SplitsInto.symm h) hsame hdet hcap₂ id]
  unfold Spec.contribution
  exact sum_parts h.bijective _

theorem contribution_no_incident (h : Spec.SplitsInto E ρ₁ ρ₂ rs₁ rs₂ rs) (hsame : SameIncident K E channels)
    (hdet : (Spec.levelDenominator option channels rs E P S).det ≠ 0)
    (hcap : Spec.captureID channels = Spec.captureID part₁)
    (hno : ∀ c ∈ part₂, c.isIncident = false) (id : ReactionID) :
    Spec.contribution option K channels rs E P S w phi id
      = Spec.contribution option K part₁ rs₁ E (P ∘ ρ₁) (S ∘ ρ₁) (w ∘ ρ₁) (phi ∘ ρ₁) id := by
  rw [← contribution_part h hsame hdet hcap id]
  unfold Spec.contribution
  dsimp only
  rw [sum_parts h.bijective]
  have h2 : ∀ i : Fin part₂.length, channels[ρ₂ i].isIncident = false := fun i => by
    rw [h.channels₂ i]
    exact hno _ (List.getElem_mem _)
  simp only [h2, Bool.false_eq_true, if_false, Finset.sum_const_zero, add_zero]

/-- A part with an incident channel can be evaluated if the whole group can. -/
theorem Evaluable_part (h : Spec.SplitsInto E ρ₁ ρ₂ rs₁ rs₂ rs) (hsame : SameIncident K E channels)
    (hinc : ∃ c ∈ part₁, c.isIncident)
    (hev : Spec.Evaluable option K lib channels rs E P S w phi) :
    Spec.Evaluable option K lib part₁ rs₁ E (P ∘ ρ₁) (S ∘ ρ₁) (w ∘ ρ₁) (phi ∘ ρ₁) := by
  obtain ⟨rs₁', rs₂', hp, h3, -⟩ := h.resonances
  have hmem : ∀ r ∈ rs₁', r ∈ rs := fun r hr => hp.mem_iff.mpr (List.mem_append_left _ hr)
  refine ⟨fun i => ?_, fun ho i => ?_, fun i => ?_, fun i => ?_, fun i => hev.nonneg _,
    (widths_within h3).mp fun r hr => hev.widths r (hmem r hr),
    (noPole_within h3).mp fun r hr => hev.noPole r (hmem r hr), ?_, ?_⟩
  · rw [← h.channels₁ i]; exact hev.penetrability _
  · rw [← h.channels₁ i]; exact hev.shiftFactor ho _
  · rw [← h.channels₁ i]; exact hev.coulomb _
  · rw [← h.channels₁ i]; exact hev.phase _
  · have := hev.invertible
    rw [(levels_parts h).1] at this
    exact left_ne_zero_of_mul this
  · obtain ⟨c, hc, hk⟩ := hev.waveNumber
    obtain ⟨d, hd, hdi⟩ := hinc
    cases h1 : part₁.find? Channel.isIncident with
    | none => exact absurd hdi (List.find?_eq_none.mp h1 _ hd)
    | some b =>
      refine ⟨b, rfl, ?_⟩
      rw [(hsame b ((SplitsInto.mem h b).mpr (Or.inl (List.mem_of_find?_eq_some h1))) c
        (List.mem_of_find?_eq_some hc) (List.find?_some h1) (List.find?_some hc)).1]
      exact hk

/-- The whole group can be evaluated if both parts can. -/
theorem Evaluable_parts (h : Spec.SplitsInto E ρ₁ ρ₂ rs₁ rs₂ rs) (hsame : SameIncident K E channels)
    (h1 : Spec.Evaluable option K lib part₁ rs₁ E (P ∘ ρ₁) (S ∘ ρ₁) (w ∘ ρ₁) (phi ∘ ρ₁))
    (h2 : Spec.Evaluable option K lib part₂ rs₂ E (P ∘ ρ₂) (S ∘ ρ₂) (w ∘ ρ₂) (phi ∘ ρ₂)) :
    Spec.Evaluable option K lib channels rs E P S w phi := by
  obtain ⟨rs₁', rs₂', hp, h3, h4⟩ := h.resonances
  have hall : ∀ {p : Fin channels.length → Prop}, (∀ i, p (ρ₁ i)) → (∀ j, p (ρ₂ j)) → ∀ j, p j := by
    intro p h1 h2 j
    rcases SplitsInto.cover h j with ⟨i, rfl⟩ | ⟨i, rfl⟩
    · exact h1 i
    · exact h2 i
  refine ⟨hall (fun i => ?_) fun i => ?_, fun ho => hall (fun i => ?_) fun i => ?_,
    hall (fun i => ?_) fun i => ?_, hall (fun i => ?_) fun i => ?_, hall h1.nonneg h2.nonneg,
    fun r hr => ?_, fun r hr => ?_, ?_, ?_⟩
  · rw [h.channels₁ i]; exact h1.penetrability i
  · rw [h.channels₂ i]; exact h2.penetrability i
  · rw [h.channels₁ i]; exact h1.shiftFactor ho i
  · rw [h.channels₂ i]; exact h2.shiftFactor ho i
  · rw [h.channels₁ i]; exact h1.coulomb i
  · rw [h.channels₂ i]; exact h2.coulomb i
  · rw [h.channels₁ i]; exact h1.phase i
  · rw [h.channels₂ i]; exact h2.phase i
  · rcases List.mem_append.mp (hp.mem_iff.mp hr) with hr | hr
    · exact (widths_within h3).mpr h1.widths r hr
    · exact (widths_within h4).mpr h2.widths r hr
  · rcases List.mem_append.mp (hp.mem_iff.mp hr) with hr | hr
    · exact (noPole_within h3).mpr h1.noPole r hr
    · exact (noPole_within h4).mpr h2.noPole r hr
  · rw [(levels_parts h).1]
    exact mul_ne_zero h1.invertible h2.invertible
  · obtain ⟨c, hc, hk⟩ := h1.waveNumber
    have hc1 := (SplitsInto.mem h c).mpr (Or.inl (List.mem_of_find?_eq_some hc))
    cases hf : channels.find? Channel.isIncident with
    | none => exact absurd (List.find?_some hc) (List.find?_eq_none.mp hf _ hc1)
    | some b =>
      refine ⟨b, rfl, ?_⟩
      rw [(hsame b (List.mem_of_find?_eq_some hf) c hc1 (List.find?_some hf) (List.find?_some hc)).1]
      exact hk

end Splits

end Verif
