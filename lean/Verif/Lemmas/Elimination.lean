import Verif.Spec.Elimination
import Verif.Lemmas.Uncoupled
import Verif.Lemmas.BoundaryChange

/-!
# The R-matrix formulas before and after the elimination of channels
-/

namespace Verif

open Complex Matrix

section Algebra

variable {ι κ : Type*} [Fintype ι] [DecidableEq ι] [Fintype κ] [DecidableEq κ]

/-- The formulas in terms of the matrix of levels. -/
theorem level_product {D : Matrix ι ι ℂ} (γ : Matrix ι κ ℂ) (L : Matrix κ κ ℂ) (hD : D.det ≠ 0) :
    (1 - γᵀ * D⁻¹ * γ * L).det = (D⁻¹).det * (D - γ * L * γᵀ).det ∧
    ((D - γ * L * γᵀ).det ≠ 0 →
      (1 - γᵀ * D⁻¹ * γ * L)⁻¹ * (γᵀ * D⁻¹ * γ) = γᵀ * (D - γ * L * γᵀ)⁻¹ * γ) := by
  have hu : IsUnit D.det := isUnit_iff_ne_zero.mpr hD
  have h1 : (1 - γᵀ * D⁻¹ * γ * L).det = (D⁻¹).det * (D - γ * L * γᵀ).det := by
    rw [Matrix.mul_assoc, Matrix.mul_assoc, det_one_sub_mul_comm, ← det_mul, Matrix.mul_sub,
      nonsing_inv_mul _ hu]
    simp only [Matrix.mul_assoc]
  refine ⟨h1, fun hM => ?_⟩
  have hu' : IsUnit (1 - γᵀ * D⁻¹ * γ * L).det := by
    rw [h1]
    refine isUnit_iff_ne_zero.mpr (mul_ne_zero ?_ hM)
    rw [det_nonsing_inv]
    simpa using hD
  have hM' : IsUnit (D - γ * L * γᵀ).det := isUnit_iff_ne_zero.mpr hM
  have key : (1 - γᵀ * D⁻¹ * γ * L) * (γᵀ * (D - γ * L * γᵀ)⁻¹ * γ) = γᵀ * D⁻¹ * γ := by
    calc (1 - γᵀ * D⁻¹ * γ * L) * (γᵀ * (D - γ * L * γᵀ)⁻¹ * γ)
        = γᵀ * (D⁻¹ * D) * (D - γ * L * γᵀ)⁻¹ * γ
          - γᵀ * D⁻¹ * (γ * L * γᵀ) * (D - γ * L * γᵀ)⁻¹ * γ := by
          rw [nonsing_inv_mul _ hu, Matrix.mul_one, Matrix.sub_mul, Matrix.one_mul]
          simp only [Matrix.mul_assoc]
      _ = γᵀ * D⁻¹ * ((D - γ * L * γᵀ) * (D - γ * L * γᵀ)⁻¹) * γ := by
          simp only [Matrix.sub_mul, Matrix.mul_sub, Matrix.mul_assoc]
      _ = _ := by rw [mul_nonsing_inv _ hM', Matrix.mul_one]
  calc (1 - γᵀ * D⁻¹ * γ * L)⁻¹ * (γᵀ * D⁻¹ * γ)
      = (1 - γᵀ * D⁻¹ * γ * L)⁻¹ * ((1 - γᵀ * D⁻¹ * γ * L) * (γᵀ * (D - γ * L * γᵀ)⁻¹ * γ)) := by rw [key]
    _ = _ := by rw [← Matrix.mul_assoc, nonsing_inv_mul _ hu', Matrix.one_mul]

end Algebra

/-- Sums over the channels that are kept and those that are left out. -/
theorem sum_leftOut {R : Type*} [AddCommMonoid R] {m n : ℕ} {σ : Fin m → Fin n}
    (hσ : Function.Injective σ) (f : Fin n → R) :
    ∑ j, f j = ∑ i, f (σ i) + ∑ j ∈ Spec.leftOut σ, f j := by
  classical
  have h1 : ∑ i, f (σ i) = ∑ j ∈ Finset.univ.filter (· ∈ Set.range σ), f j := by
    rw [← Finset.sum_image fun a _ b _ h => hσ h]
    congr 1
    ext j
    simp
  rw [h1]
  unfold Spec.leftOut
  convert (Finset.sum_filter_add_sum_filter_not Finset.univ (· ∈ Set.range σ) f).symm

section

variable {n : ℕ} {channels channels' : List Channel} {σ : Fin channels.length → Fin channels'.length}
  {rs rs' : List Resonance} {E : ℝ} {option : BoundaryOption} {K : Constants} {lib : CoulombLibrary}
  {P S w phi : Fin channels'.length → ℝ}

/-- The denominators of the resonances. -/
noncomputable def poles (n : ℕ) (rs : List Resonance) (E : ℝ) : Matrix (Fin n) (Fin n) ℂ :=
  diagonal fun i => ((rs.getD i ⟨0, [], 0⟩).energy : ℂ) - E - I * ((rs.getD i ⟨0, [], 0⟩).eliminated : ℂ) ^ 2

theorem rMatrix_poles (hn : rs.length = n) (hp : ∀ r ∈ rs, ¬ (r.energy = E ∧ r.eliminated = 0)) :
    (poles n rs E).det ≠ 0 ∧
    Spec.rMatrix channels rs E
      = (openMatrix n channels rs E)ᵀ * (poles n rs E)⁻¹ * openMatrix n channels rs E := by
  have hd : ∀ i : Fin n, ((rs.getD i ⟨0, [], 0⟩).energy : ℂ) - E
      - I * ((rs.getD i ⟨0, [], 0⟩).eliminated : ℂ) ^ 2 ≠ 0 := by
    intro i
    have hi : (i : ℕ) < rs.length := hn ▸ i.isLt
    have hm : rs.getD i ⟨0, [], 0⟩ ∈ rs := by
      rw [getD_getElem hi]
      exact List.getElem_mem _
    exact denominator_ne (hp _ hm)
  have hdet : (poles n rs E).det ≠ 0 := by
    rw [poles, det_diagonal]
    exact Finset.prod_ne_zero_iff.mpr fun i _ => hd i
  refine ⟨hdet, ?_⟩
  have hinv : (poles n rs E)⁻¹ = diagonal fun i : Fin n => (((rs.getD i ⟨0, [], 0⟩).energy : ℂ) - E
      - I * ((rs.getD i ⟨0, [], 0⟩).eliminated : ℂ) ^ 2)⁻¹ := by
    refine Matrix.inv_eq_right_inv ?_
    rw [poles, diagonal_mul_diagonal]
    ext i j
    by_cases h : i = j
    · subst h
      simp only [diagonal_apply_eq, one_apply_eq]
      exact mul_inv_cancel₀ (hd i)
    · simp [h]
  rw [hinv, rMatrix_params hn]
  ext c c'
  simp only [paramR, Matrix.of_apply]
  rw [Matrix.mul_apply]
  refine Finset.sum_congr rfl fun i _ => ?_
  rw [Matrix.mul_diagonal, Matrix.transpose_apply]
  simp only [openMatrix, Matrix.of_apply]
  rw [div_eq_mul_inv]
  rw [mul_right_comm]
  rfl

/-- What is needed of the order of the channels. -/
theorem Eliminates_leavesOut (h : Spec.Eliminates E σ rs rs') : Spec.LeavesOut E σ [] [] :=
  ⟨h.order, h.sameChannels, fun j hj => h.notIncident j (by simpa [Spec.leftOut] using hj), .nil⟩

theorem Eliminates_getD (h : Spec.Eliminates E σ rs rs') (hn : rs.length = n) (i : Fin n) :
    (rs'.getD i ⟨0, [], 0⟩).energy = (rs.getD i ⟨0, [], 0⟩).energy ∧
    (∀ c, (rs'.getD i ⟨0, [], 0⟩).width (σ c) = (rs.getD i ⟨0, [], 0⟩).width c) ∧
    (rs.getD i ⟨0, [], 0⟩).eliminated ^ 2 = (rs'.getD i ⟨0, [], 0⟩).eliminated ^ 2
      + ∑ j ∈ Spec.leftOut σ, (rs'.getD i ⟨0, [], 0⟩).width j ^ 2 := by
  have hi : (i : ℕ) < rs.length := hn ▸ i.isLt
  have hi' : (i : ℕ) < rs'.length := h.sameResonances.length_eq ▸ hi
  have := (List.forall₂_iff_get.mp h.sameResonances).2 i hi hi'
  rw [getD_getElem hi, getD_getElem hi']
  exact ⟨this.1, this.2.2.1, this.2.2.2⟩

theorem Eliminates_orthogonal (h : Spec.Eliminates E σ rs rs') (hn : rs.length = n) {i k : Fin n} (hik : i ≠ k) :
    ∑ j ∈ Spec.leftOut σ, (rs'.getD i ⟨0, [], 0⟩).width j * (rs'.getD k ⟨0, [], 0⟩).width j = 0 := by
  have hlen : rs'.length = n := h.sameResonances.length_eq ▸ hn
  have hi : (i : ℕ) < rs'.length := hlen ▸ i.isLt
  have hk : (k : ℕ) < rs'.length := hlen ▸ k.isLt
  rw [getD_getElem hi, getD_getElem hk]
  rcases lt_or_gt_of_ne hik with hlt | hlt
  · exact List.pairwise_iff_getElem.mp h.orthogonal i k hi hk hlt
  · have := List.pairwise_iff_getElem.mp h.orthogonal k i hk hi hlt
    simpa only [mul_comm] using this

/-- The matrix of levels is the same before and after the elimination. -/
theorem levels_eliminated (h : Spec.Eliminates E σ rs rs') (hn : rs.length = n)
    (hL : ∀ j ∈ Spec.leftOut σ, Spec.logDerivative option channels' P S j = I) :
    poles n rs' E - openMatrix n channels' rs' E * diagonal (Spec.logDerivative option channels' P S)
        * (openMatrix n channels' rs' E)ᵀ
      = poles n rs E - openMatrix n channels rs E
        * diagonal (Spec.logDerivative option channels (P ∘ σ) (S ∘ σ)) * (openMatrix n channels rs E)ᵀ := by
  classical
  have hopen : ∀ i c, openMatrix n channels' rs' E i (σ c) = openMatrix n channels rs E i c := by
    intro i c
    simp only [openMatrix, Matrix.of_apply, Spec.widthMatrix]
    rw [h.sameChannels c, (Eliminates_getD h hn i).2.1 c]
  have hout : ∀ i, ∀ j ∈ Spec.leftOut σ, openMatrix n channels' rs' E i j
      = ((rs'.getD i ⟨0, [], 0⟩).width j : ℂ) := by
    intro i j hj
    simp only [openMatrix, Matrix.of_apply, Spec.widthMatrix]
    rw [if_neg (h.photons j hj).2]
  ext i k
  rw [Matrix.sub_apply, Matrix.sub_apply, Matrix.mul_apply, Matrix.mul_apply,
    sum_leftOut h.order.injective]
  simp only [Matrix.mul_diagonal, Matrix.transpose_apply]
  have e1 : ∀ c, openMatrix n channels' rs' E i (σ c) * Spec.logDerivative option channels' P S (σ c)
        * openMatrix n channels' rs' E k (σ c)
      = openMatrix n channels rs E i c * Spec.logDerivative option channels (P ∘ σ) (S ∘ σ) c
        * openMatrix n channels rs E k c := fun c => by
    rw [hopen, hopen, logDerivative_leavesOut (Eliminates_leavesOut h)]
  have e2 : ∑ j ∈ Spec.leftOut σ, openMatrix n channels' rs' E i j
        * Spec.logDerivative option channels' P S j * openMatrix n channels' rs' E k j
      = I * ((∑ j ∈ Spec.leftOut σ, (rs'.getD i ⟨0, [], 0⟩).width j * (rs'.getD k ⟨0, [], 0⟩).width j : ℝ) : ℂ) := by
    push_cast
    rw [Finset.mul_sum]
    refine Finset.sum_congr rfl fun j hj => ?_
    rw [hout i j hj, hout k j hj, hL j hj]
    ring
  rw [Finset.sum_congr rfl fun c _ => e1 c, e2]
  by_cases hik : i = k
  · subst hik
    obtain ⟨g1, -, g3⟩ := Eliminates_getD h hn i
    have g3' : ((rs.getD i ⟨0, [], 0⟩).eliminated : ℂ) ^ 2
        = ((rs'.getD i ⟨0, [], 0⟩).eliminated : ℂ) ^ 2
          + ((∑ j ∈ Spec.leftOut σ, (rs'.getD i ⟨0, [], 0⟩).width j * (rs'.getD i ⟨0, [], 0⟩).width j : ℝ) : ℂ) := by
      have : (rs.getD i ⟨0, [], 0⟩).eliminated ^ 2 = (rs'.getD i ⟨0, [], 0⟩).eliminated ^ 2
          + ∑ j ∈ Spec.leftOut σ, (rs'.getD i ⟨0, [], 0⟩).width j * (rs'.getD i ⟨0, [], 0⟩).width j := by
        rw [g3]
        simp only [sq]
      exact_mod_cast this
    simp only [poles, diagonal_apply_eq]
    rw [g1, g3']
    ring
  · simp only [poles, diagonal_apply_ne _ hik]
    rw [Eliminates_orthogonal h hn hik]
    simp

/-- `1 - R L` is invertible before the elimination if it is afterwards, and conversely; the elements of the
T-matrix between the remaining channels are the same. -/
theorem tMatrix_eliminated (h : Spec.Eliminates E σ rs rs')
    (hp' : ∀ r ∈ rs', ¬ (r.energy = E ∧ r.eliminated = 0))
    (hp : ∀ r ∈ rs, ¬ (r.energy = E ∧ r.eliminated = 0))
    (hL : ∀ j ∈ Spec.leftOut σ, Spec.logDerivative option channels' P S j = I) :
    ((Spec.levelDenominator option channels' rs' E P S).det ≠ 0 ↔
      (Spec.levelDenominator option channels rs E (P ∘ σ) (S ∘ σ)).det ≠ 0) ∧
    ((Spec.levelDenominator option channels rs E (P ∘ σ) (S ∘ σ)).det ≠ 0 →
      ∀ i j, Spec.tMatrix option channels' rs' E P S (σ i) (σ j)
        = Spec.tMatrix option channels rs E (P ∘ σ) (S ∘ σ) i j) := by
  classical
  have hlen : rs'.length = rs.length := h.sameResonances.length_eq.symm
  obtain ⟨d', r'⟩ := rMatrix_poles (channels := channels') hlen hp'
  obtain ⟨d, r⟩ := rMatrix_poles (channels := channels) rfl hp
  obtain ⟨a', b'⟩ := level_product (openMatrix rs.length channels' rs' E)
    (diagonal (Spec.logDerivative option channels' P S)) d'
  obtain ⟨a, b⟩ := level_product (openMatrix rs.length channels rs E)
    (diagonal (Spec.logDerivative option channels (P ∘ σ) (S ∘ σ))) d
  rw [← r', levels_eliminated h rfl hL] at a' b'
  rw [← r] at a b
  have hinv : ∀ {D : Matrix (Fin rs.length) (Fin rs.length) ℂ}, D.det ≠ 0 → (D⁻¹).det ≠ 0 := by
    intro D hD
    rw [det_nonsing_inv]
    simpa using hD
  have key : ∀ {x y : ℂ}, x ≠ 0 → (x * y ≠ 0 ↔ y ≠ 0) := fun hx => by simp [hx]
  unfold Spec.levelDenominator
  refine ⟨by rw [a', a, key (hinv d'), key (hinv d)], fun h0 i j => ?_⟩
  rw [a, key (hinv d)] at h0
  simp only [Spec.tMatrix, Spec.levelDenominator, Matrix.of_apply, Function.comp_apply]
  rw [b' h0, b h0]
  congr 2
  have hopen : ∀ i c, openMatrix rs.length channels' rs' E i (σ c) = openMatrix rs.length channels rs E i c := by
    intro i c
    simp only [openMatrix, Matrix.of_apply, Spec.widthMatrix]
    rw [h.sameChannels c, (Eliminates_getD h rfl i).2.1 c]
  simp only [Matrix.mul_apply, Matrix.transpose_apply, hopen]

theorem mem_leftOut {m n : ℕ} {σ : Fin m → Fin n} {j : Fin n} : j ∈ Spec.leftOut σ ↔ j ∉ Set.range σ := by
  simp [Spec.leftOut]

/-- Functions of photon and fission channels, where they have values. -/
theorem photon_values {c : Channel} (hc : c.type = .photon ∨ c.type = .fission) {p : ℝ}
    (hp : c.penetrability K lib E = .ok p) : p = 1 := by
  unfold Channel.penetrability at hp
  simp only [Bind.bind, Except.bind] at hp
  split at hp
  · cases hp
  · split at hp
    · cases hp
    · rcases hc with hc | hc <;> rw [hc] at hp <;> cases hp <;> rfl

theorem photon_shift {c : Channel} (hc : c.type = .photon ∨ c.type = .fission) {s : ℝ}
    (hs : c.shiftFactor K lib E = .ok s) : s = 0 := by
  unfold Channel.shiftFactor at hs
  simp only [Bind.bind, Except.bind] at hs
  split at hs
  · cases hs
  · split at hs
    · cases hs
    · rcases hc with hc | hc <;> rw [hc] at hs <;> cases hs <;> rfl

theorem logDerivative_photon (h : Spec.Eliminates E σ rs rs')
    (hB : option = .constant → ∀ j ∈ Spec.leftOut σ, channels'[j].boundary = 0)
    (hP : ∀ j ∈ Spec.leftOut σ, channels'[j].penetrability K lib E = .ok (P j))
    (hS : option = .constant → ∀ j ∈ Spec.leftOut σ, channels'[j].shiftFactor K lib E = .ok (S j)) :
    ∀ j ∈ Spec.leftOut σ, Spec.logDerivative option channels' P S j = I := by
  intro j hj
  have h1 := photon_values (h.photons j hj).1 (hP j hj)
  cases option with
  | shiftFactor => simp [Spec.logDerivative, h1]
  | constant =>
    have h2 := photon_shift (h.photons j hj).1 (hS rfl j hj)
    have h3 := hB rfl j hj
    simp only [Spec.logDerivative, h1, h2, h3]
    simp

theorem noPole_eliminated (h : Spec.Eliminates E σ rs rs')
    (hp' : ∀ r ∈ rs', ¬ (r.energy = E ∧ r.eliminated = 0)) :
    ∀ r ∈ rs, ¬ (r.energy = E ∧ r.eliminated = 0) := by
  have hr := h.sameResonances
  clear h
  induction hr with
  | nil => simp
  | @cons r r' _ _ h1 _ ih =>
    simp only [List.mem_cons, forall_eq_or_imp] at hp' ⊢
    refine ⟨?_, ih hp'.2⟩
    rintro ⟨e1, e2⟩
    refine hp'.1 ⟨by rw [h1.1, e1], ?_⟩
    have h2 := h1.2.2.2
    rw [e2] at h2
    have h3 : 0 ≤ ∑ j ∈ Spec.leftOut σ, r'.width j ^ 2 := Finset.sum_nonneg fun j _ => sq_nonneg _
    have h4 : r'.eliminated ^ 2 = 0 := le_antisymm (by nlinarith) (sq_nonneg _)
    exact pow_eq_zero_iff (two_ne_zero) |>.mp h4

theorem Evaluable_eliminated (h : Spec.Eliminates E σ rs rs')
    (hB : option = .constant → ∀ j ∈ Spec.leftOut σ, channels'[j].boundary = 0) :
    Spec.Evaluable option K lib channels' rs' E P S w phi ↔
      Spec.Evaluable option K lib channels rs E (P ∘ σ) (S ∘ σ) (w ∘ σ) (phi ∘ σ) ∧
      (∀ r ∈ rs', ¬ (r.energy = E ∧ r.eliminated = 0)) ∧
      ∀ j ∈ Spec.leftOut σ,
        channels'[j].penetrability K lib E = .ok (P j) ∧
        (option = .constant → channels'[j].shiftFactor K lib E = .ok (S j)) ∧
        channels'[j].coulombPhaseShift K E = .ok (w j) ∧
        channels'[j].phaseShift K lib E = .ok (phi j) := by
  have hw : (∀ r ∈ rs', r.widths.length = channels'.length) ↔
      ∀ r ∈ rs, r.widths.length = channels.length := by
    have hr := h.sameResonances
    clear h
    induction hr with
    | nil => simp
    | cons h1 _ ih => simp only [List.mem_cons, forall_eq_or_imp, h1.2.1, ih]
  have h0 := Eliminates_leavesOut h
  constructor
  · intro hev
    have hp := noPole_eliminated h hev.noPole
    have hL := logDerivative_photon (K := K) (lib := lib) h hB (fun j _ => hev.penetrability j)
      (fun ho j _ => hev.shiftFactor ho j)
    refine ⟨⟨fun i => ?_, fun ho i => ?_, fun i => ?_, fun i => ?_, fun i => hev.nonneg _, hw.mp hev.widths,
      hp, (tMatrix_eliminated h hev.noPole hp hL).1.mp hev.invertible, ?_⟩, hev.noPole,
      fun j _ => ⟨hev.penetrability j, fun ho => hev.shiftFactor ho j, hev.coulomb j, hev.phase j⟩⟩
    · rw [← h.sameChannels i]; exact hev.penetrability _
    · rw [← h.sameChannels i]; exact hev.shiftFactor ho _
    · rw [← h.sameChannels i]; exact hev.coulomb _
    · rw [← h.sameChannels i]; exact hev.phase _
    · rw [← find?_leavesOut h0]; exact hev.waveNumber
  · rintro ⟨hev, hp', hx⟩
    have hL := logDerivative_photon (K := K) (lib := lib) h hB (fun j hj => (hx j hj).1)
      (fun ho j hj => (hx j hj).2.1 ho)
    have hall : ∀ {p : Fin channels'.length → Prop}, (∀ i, p (σ i)) → (∀ j ∈ Spec.leftOut σ, p j) →
        ∀ j, p j := by
      intro p h1 h2 j
      by_cases hj : j ∈ Set.range σ
      · obtain ⟨i, rfl⟩ := hj
        exact h1 i
      · exact h2 j (mem_leftOut.mpr hj)
    refine ⟨hall (fun i => ?_) fun j hj => (hx j hj).1, fun ho => hall (fun i => ?_) fun j hj => (hx j hj).2.1 ho,
      hall (fun i => ?_) fun j hj => (hx j hj).2.2.1, hall (fun i => ?_) fun j hj => (hx j hj).2.2.2,
      hall (fun i => hev.nonneg i) fun j hj => ?_, hw.mpr hev.widths, hp', ?_, ?_⟩
    · rw [h.sameChannels i]; exact hev.penetrability i
    · rw [h.sameChannels i]; exact hev.shiftFactor ho i
    · rw [h.sameChannels i]; exact hev.coulomb i
    · rw [h.sameChannels i]; exact hev.phase i
    · rw [photon_values (h.photons j hj).1 (hx j hj).1]; exact zero_le_one
    · exact (tMatrix_eliminated h hp' hev.noPole hL).1.mpr hev.invertible
    · rw [find?_leavesOut h0]; exact hev.waveNumber

/-- Cross sections before and after the elimination. -/
theorem contribution_eliminated (h : Spec.Eliminates E σ rs rs')
    (hT : ∀ i j, Spec.tMatrix option channels' rs' E P S (σ i) (σ j)
        = Spec.tMatrix option channels rs E (P ∘ σ) (S ∘ σ) i j)
    {capture : ReactionID} (hcap' : Spec.captureID channels' = some capture)
    (hcap : Spec.captureID channels = some capture) {X : Finset ReactionID}
    (hX : ∀ id, id ∈ X ↔ id = capture ∨ ∃ j ∈ Spec.leftOut σ, channels'[j].reaction = id)
    (hd : ∀ i : Fin channels.length, ∀ j ∈ Spec.leftOut σ, channels'[j].reaction ≠ channels[i].reaction) :
    (∀ id ∉ X, Spec.contribution option K channels' rs' E P S w phi id
      = Spec.contribution option K channels rs E (P ∘ σ) (S ∘ σ) (w ∘ σ) (phi ∘ σ) id) ∧
    ∑ id ∈ X, Spec.contribution option K channels' rs' E P S w phi id
      = Spec.contribution option K channels rs E (P ∘ σ) (S ∘ σ) (w ∘ σ) (phi ∘ σ) capture := by
  classical
  have hσ := h.order.injective
  have h0 := Eliminates_leavesOut h
  have hfac : Spec.incidentFactor K channels' E = Spec.incidentFactor K channels E := by
    unfold Spec.incidentFactor
    rw [find?_leavesOut h0]
  set U' := Spec.collision (Spec.tMatrix option channels' rs' E P S) w phi with hU'
  set U := Spec.collision (Spec.tMatrix option channels rs E (P ∘ σ) (S ∘ σ)) (w ∘ σ) (phi ∘ σ) with hUdef
  have hU : ∀ i j, U' (σ i) (σ j) = U i j := by
    intro i j
    simp only [hU', hUdef, Spec.collision, hT, Function.comp_apply, hσ.eq_iff]
  have hpart : ∀ i j, Spec.partialCrossSection U' w (σ i) (σ j) = Spec.partialCrossSection U (w ∘ σ) i j := by
    intro i j
    simp only [Spec.partialCrossSection, hU, hσ.eq_iff, Function.comp_apply]
  have hout : ∀ i, ∀ j ∈ Spec.leftOut σ, Spec.partialCrossSection U' w (σ i) j = normSq (U' (σ i) j) := by
    intro i j hj
    have hne : σ i ≠ j := fun h2 => mem_leftOut.mp hj ⟨i, h2⟩
    simp [Spec.partialCrossSection, hne]
  have hcapture : ∀ i, Spec.captureCrossSection U i = Spec.captureCrossSection U' (σ i)
      + ∑ j ∈ Spec.leftOut σ, normSq (U' (σ i) j) := by
    intro i
    unfold Spec.captureCrossSection
    rw [sum_leftOut hσ]
    simp only [hU]
    ring
  -- the sum over the incident channels
  have hinc : ∀ f : Fin channels'.length → ℝ, (∑ c, if channels'[c].isIncident then f c else 0)
      = ∑ c : Fin channels.length, if channels[c].isIncident then f (σ c) else 0 := by
    intro f
    rw [sum_leftOut hσ, Finset.sum_eq_zero (s := Spec.leftOut σ), add_zero]
    · exact Finset.sum_congr rfl fun c _ => by rw [h.sameChannels c]
    · intro j hj
      rw [h.notIncident j hj]
      rfl
  constructor
  · intro id hid
    rw [hX, not_or] at hid
    unfold Spec.contribution
    simp only
    rw [← hU', ← hUdef, hinc]
    refine Finset.sum_congr rfl fun c _ => ?_
    congr 1
    rw [hcap', hcap, if_neg (by simpa using fun e => hid.1 e.symm),
      if_neg (by simpa using fun e => hid.1 e.symm), add_zero, add_zero, sum_leftOut hσ,
      Finset.sum_eq_zero (s := Spec.leftOut σ), add_zero]
    · refine Finset.sum_congr rfl fun c' _ => ?_
      rw [h.sameChannels c', hfac, hpart]
    · intro j hj
      rw [if_neg fun e => hid.2 ⟨j, hj, e⟩]
  · unfold Spec.contribution
    simp only
    rw [← hU', ← hUdef, Finset.sum_congr rfl fun id _ => hinc _, Finset.sum_comm]
    refine Finset.sum_congr rfl fun c _ => ?_
    by_cases hc : channels[c].isIncident = true
    swap
    · simp only [hc, Bool.false_eq_true, if_false, Finset.sum_const_zero]
    simp only [hc, if_true, hcap', hcap, Finset.sum_add_distrib]
    have hcX : capture ∈ X := (hX _).mpr (Or.inl rfl)
    have e1 : (∑ id ∈ X, if (some capture : Option ReactionID) = some id then
        Spec.incidentFactor K channels' E * Spec.captureCrossSection U' (σ c) else 0)
        = Spec.incidentFactor K channels E * Spec.captureCrossSection U' (σ c) := by
      simp only [Option.some.injEq]
      rw [Finset.sum_ite_eq, if_pos hcX, hfac]
    rw [e1, Finset.sum_comm]
    have e2 : ∀ c', (∑ id ∈ X, if channels'[c'].reaction = id then
        Spec.incidentFactor K channels' E * Spec.partialCrossSection U' w (σ c) c' else 0)
        = if channels'[c'].reaction ∈ X then
          Spec.incidentFactor K channels' E * Spec.partialCrossSection U' w (σ c) c' else 0 := fun c' => by
      rw [Finset.sum_ite_eq]
    rw [Finset.sum_congr rfl fun c' _ => e2 c', sum_leftOut hσ, hcapture]
    have e3 : ∀ c', (if channels'[σ c'].reaction ∈ X then
          Spec.incidentFactor K channels' E * Spec.partialCrossSection U' w (σ c) (σ c') else 0)
        = if channels[c'].reaction = capture then
          Spec.incidentFactor K channels E * Spec.partialCrossSection U (w ∘ σ) c c' else 0 := fun c' => by
      rw [hpart, hfac, h.sameChannels c']
      congr 1
      rw [hX, eq_iff_iff]
      refine ⟨fun hx => hx.resolve_right ?_, Or.inl⟩
      rintro ⟨j, hj, e⟩
      exact hd c' j hj e
    have e4 : ∑ j ∈ Spec.leftOut σ, (if channels'[j].reaction ∈ X then
          Spec.incidentFactor K channels' E * Spec.partialCrossSection U' w (σ c) j else 0)
        = Spec.incidentFactor K channels E * ∑ j ∈ Spec.leftOut σ, normSq (U' (σ c) j) := by
      rw [Finset.mul_sum]
      refine Finset.sum_congr rfl fun j hj => ?_
      rw [if_pos ((hX _).mpr (Or.inr ⟨j, hj, rfl⟩)), hfac, hout c j hj]
    rw [Finset.sum_congr rfl fun c' _ => e3 c', e4]
    ring

end

end Verif
