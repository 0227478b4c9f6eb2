import Verif.Lemmas.Units
import Verif.Props.SpinGroup
import Verif.Props.SpinGroupConstruction
import Verif.Lemmas.System

/-!
# Lemmas for property C92: R-matrices in other units
-/

namespace Verif

open Complex Matrix
open Spec (Units)

variable {option : BoundaryOption} {K : Constants} {lib : CoulombLibrary} {E : ℝ}
  {channels : List Channel} {rs : List Resonance} (u : Units)

/-- The channels in the new units, in the same order. -/
noncomputable def unitsIndex (channels : List Channel) :
    Fin channels.length ≃ Fin (channels.map u.channel).length :=
  finCongr (by rw [List.length_map])

theorem units_getElem (i : Fin channels.length) :
    (channels.map u.channel)[unitsIndex u channels i] = u.channel channels[i] :=
  List.getElem_map _

theorem units_width (r : Resonance) (i : ℕ) :
    (u.resonance r).width i = Real.sqrt u.energy * r.width i := by
  unfold Resonance.width Spec.Units.resonance
  simp only [List.getD_eq_getElem?_getD, List.getElem?_map]
  cases r.widths[i]? <;> simp

theorem units_rMatrix :
    (Spec.rMatrix (channels.map u.channel) (rs.map u.resonance) (u.energy * E)).submatrix
      (unitsIndex u channels) (unitsIndex u channels) = Spec.rMatrix channels rs E := by
  have he := u.energy_pos
  have hamp : ∀ r (i : Fin channels.length), Spec.amplitude (channels.map u.channel)
      (u.energy * E) (u.resonance r) (unitsIndex u channels i)
        = Real.sqrt u.energy * Spec.amplitude channels E r i := by
    intro r i
    unfold Spec.amplitude
    rw [units_getElem]
    have ht := units_threshold (E := E) (c := channels[i]) u
    by_cases h1 : channels[i].belowThreshold E
    · rw [if_pos (ht.mpr h1), if_pos h1, mul_zero]
    · rw [if_neg (fun h => h1 (ht.mp h)), if_neg h1]
      exact units_width u r i
  ext i j
  simp only [Matrix.submatrix_apply, Spec.rMatrix, Matrix.of_apply, List.map_map]
  congr 1
  refine List.map_congr_left fun r _ => ?_
  simp only [Function.comp_apply, hamp]
  have e1 : (((u.resonance r).energy : ℝ) : ℂ) - (u.energy * E : ℝ) - I * ((u.resonance r).eliminated : ℂ) ^ 2
      = (u.energy : ℂ) * ((r.energy : ℂ) - E - I * (r.eliminated : ℂ) ^ 2) := by
    have e2 : (((u.resonance r).eliminated : ℂ)) ^ 2 = (u.energy : ℂ) * (r.eliminated : ℂ) ^ 2 := by
      change ((Real.sqrt u.energy * r.eliminated : ℝ) : ℂ) ^ 2 = _
      rw [← ofReal_pow, mul_pow, Real.sq_sqrt he.le]
      push_cast
      ring
    rw [e2]
    change ((u.energy * r.energy : ℝ) : ℂ) - (u.energy * E : ℝ) - _ = _
    push_cast
    ring
  rw [e1]
  have e4 : ∀ x y : ℝ, (((Real.sqrt u.energy * x : ℝ)) : ℂ) * ((Real.sqrt u.energy * y : ℝ) : ℂ)
      = (u.energy : ℂ) * ((x : ℂ) * y) := by
    intro x y
    rw [← ofReal_mul, show Real.sqrt u.energy * x * (Real.sqrt u.energy * y)
      = Real.sqrt u.energy ^ 2 * (x * y) by ring, Real.sq_sqrt he.le]
    push_cast
    ring
  rw [e4, mul_div_mul_left _ _ (ofReal_ne_zero.mpr he.ne')]

variable {P S w phi : Fin channels.length → ℝ}

theorem units_denominator :
    (Spec.levelDenominator option (channels.map u.channel) (rs.map u.resonance) (u.energy * E)
      (P ∘ (unitsIndex u channels).symm) (S ∘ (unitsIndex u channels).symm)).submatrix
        (unitsIndex u channels) (unitsIndex u channels)
      = Spec.levelDenominator option channels rs E P S := by
  unfold Spec.levelDenominator
  have hL : ∀ i, Spec.logDerivative option (channels.map u.channel)
      (P ∘ (unitsIndex u channels).symm) (S ∘ (unitsIndex u channels).symm)
      (unitsIndex u channels i) = Spec.logDerivative option channels P S i := by
    intro i
    cases option with
    | shiftFactor => simp [Spec.logDerivative]
    | constant =>
      simp only [Spec.logDerivative, Function.comp_apply, Equiv.symm_apply_apply, units_getElem]
      rfl
  rw [← units_rMatrix (E := E) (channels := channels) (rs := rs) u]
  ext i j
  simp only [Matrix.submatrix_apply, Matrix.sub_apply, Matrix.mul_diagonal, hL, Matrix.one_apply,
    EmbeddingLike.apply_eq_iff_eq]

theorem units_tMatrix (i j : Fin channels.length) :
    Spec.tMatrix option (channels.map u.channel) (rs.map u.resonance) (u.energy * E)
      (P ∘ (unitsIndex u channels).symm) (S ∘ (unitsIndex u channels).symm)
      (unitsIndex u channels i) (unitsIndex u channels j)
      = Spec.tMatrix option channels rs E P S i j := by
  simp only [Spec.tMatrix, Matrix.of_apply, Function.comp_apply, Equiv.symm_apply_apply]
  rw [← units_denominator (option := option) (E := E) (channels := channels) (rs := rs) (P := P) (S := S) u,
    ← units_rMatrix (E := E) (channels := channels) (rs := rs) u, inv_submatrix_equiv, submatrix_mul_equiv,
    Matrix.submatrix_apply]

theorem units_collision (i j : Fin channels.length) :
    Spec.collision (Spec.tMatrix option (channels.map u.channel) (rs.map u.resonance) (u.energy * E)
      (P ∘ (unitsIndex u channels).symm) (S ∘ (unitsIndex u channels).symm))
      (w ∘ (unitsIndex u channels).symm) (phi ∘ (unitsIndex u channels).symm)
      (unitsIndex u channels i) (unitsIndex u channels j)
      = Spec.collision (Spec.tMatrix option channels rs E P S) w phi i j := by
  simp only [Spec.collision, Function.comp_apply, Equiv.symm_apply_apply, EmbeddingLike.apply_eq_iff_eq,
    units_tMatrix]

theorem units_find :
    (channels.map u.channel).find? Channel.isIncident = (channels.find? Channel.isIncident).map u.channel := by
  rw [List.find?_map]
  rfl

theorem units_factor :
    Spec.incidentFactor (u.constants K) (channels.map u.channel) (u.energy * E)
      = u.length ^ 2 * Spec.incidentFactor K channels E := by
  unfold Spec.incidentFactor
  rw [units_find]
  cases channels.find? Channel.isIncident with
  | none => simp
  | some c =>
    simp only [Option.map_some]
    rw [units_waveNumber]
    change Real.pi / (c.waveNumber K E / u.length) ^ 2 * c.spinFactor = _
    rw [div_pow, div_div_eq_mul_div]
    ring

theorem units_contribution (id : ReactionID) :
    Spec.contribution option (u.constants K) (channels.map u.channel) (rs.map u.resonance) (u.energy * E)
      (P ∘ (unitsIndex u channels).symm) (S ∘ (unitsIndex u channels).symm)
      (w ∘ (unitsIndex u channels).symm) (phi ∘ (unitsIndex u channels).symm) id
      = u.length ^ 2 * Spec.contribution option K channels rs E P S w phi id := by
  unfold Spec.contribution
  simp only
  rw [Finset.mul_sum, ← Equiv.sum_comp (unitsIndex u channels)]
  refine Finset.sum_congr rfl fun i _ => ?_
  have hcap : Spec.captureID (channels.map u.channel) = Spec.captureID channels := by
    unfold Spec.captureID
    cases channels <;> rfl
  have hsum : ∀ i, Spec.captureCrossSection (Spec.collision (Spec.tMatrix option (channels.map u.channel)
        (rs.map u.resonance) (u.energy * E)
      (P ∘ (unitsIndex u channels).symm) (S ∘ (unitsIndex u channels).symm))
      (w ∘ (unitsIndex u channels).symm) (phi ∘ (unitsIndex u channels).symm)) (unitsIndex u channels i)
      = Spec.captureCrossSection (Spec.collision (Spec.tMatrix option channels rs E P S) w phi) i := by
    intro i
    unfold Spec.captureCrossSection
    rw [← Equiv.sum_comp (unitsIndex u channels)]
    simp only [units_collision]
  have hpart : ∀ i j, Spec.partialCrossSection (Spec.collision (Spec.tMatrix option (channels.map u.channel)
        (rs.map u.resonance) (u.energy * E)
      (P ∘ (unitsIndex u channels).symm) (S ∘ (unitsIndex u channels).symm))
      (w ∘ (unitsIndex u channels).symm) (phi ∘ (unitsIndex u channels).symm))
      (w ∘ (unitsIndex u channels).symm) (unitsIndex u channels i) (unitsIndex u channels j)
      = Spec.partialCrossSection (Spec.collision (Spec.tMatrix option channels rs E P S) w phi) w i j := by
    intro i j
    unfold Spec.partialCrossSection
    simp only [units_collision, EmbeddingLike.apply_eq_iff_eq, Function.comp_apply, Equiv.symm_apply_apply]
  rw [units_getElem, hcap, units_factor, hsum, ← Equiv.sum_comp (unitsIndex u channels)]
  simp only [units_getElem, hpart]
  change (if channels[i].isIncident = true then _ else _) = _
  split
  · rw [mul_add, Finset.mul_sum]
    congr 1
    · refine Finset.sum_congr rfl fun j _ => ?_
      change (if channels[j].reaction = id then _ else _) = _
      split
      · ring
      · ring
    · split
      · ring
      · ring
  · ring

/-- An evaluation succeeds in the new units if and only if it does in the old ones. -/
theorem units_evaluable :
    Spec.Evaluable option (u.constants K) lib (channels.map u.channel) (rs.map u.resonance) (u.energy * E)
      (P ∘ (unitsIndex u channels).symm) (S ∘ (unitsIndex u channels).symm)
      (w ∘ (unitsIndex u channels).symm) (phi ∘ (unitsIndex u channels).symm) ↔
    Spec.Evaluable option K lib channels rs E P S w phi := by
  have he := u.energy_pos.ne'
  have hs := (Real.sqrt_pos.mpr u.energy_pos).ne'
  have hL := u.length_pos.ne'
  have hfun : ∀ i : Fin channels.length, _ := fun i => units_functions (K := K) (lib := lib) (E := E) (c := channels[i]) u
  have hall : ∀ p : Fin (channels.map u.channel).length → Prop,
      (∀ i, p i) ↔ ∀ i, p (unitsIndex u channels i) := fun p => (unitsIndex u channels).surjective.forall
  have hwave : (∃ c, (channels.map u.channel).find? Channel.isIncident = some c ∧
      c.waveNumber (u.constants K) (u.energy * E) ≠ 0) ↔
      ∃ c, channels.find? Channel.isIncident = some c ∧ c.waveNumber K E ≠ 0 := by
    rw [units_find]
    cases channels.find? Channel.isIncident with
    | none => simp
    | some c =>
      simp only [Option.map_some, Option.some.injEq, exists_eq_left']
      rw [units_waveNumber]
      simp [hL]
  have hdet : (Spec.levelDenominator option (channels.map u.channel) (rs.map u.resonance) (u.energy * E)
      (P ∘ (unitsIndex u channels).symm) (S ∘ (unitsIndex u channels).symm)).det
      = (Spec.levelDenominator option channels rs E P S).det := by
    rw [← units_denominator (option := option) (E := E) (channels := channels) (rs := rs) (P := P) (S := S) u, det_submatrix_equiv_self]
  constructor
  · rintro ⟨h1, h2, h3, h4, h5, h6, h7, h8, h9⟩
    refine ⟨fun i => ?_, fun ho i => ?_, fun i => ?_, fun i => ?_, fun i => ?_, fun r hr => ?_, fun r hr => ?_,
      by rwa [← hdet], hwave.mp h9⟩
    · have := h1 (unitsIndex u channels i)
      rwa [units_getElem, (hfun i).1, Function.comp_apply, Equiv.symm_apply_apply] at this
    · have := h2 ho (unitsIndex u channels i)
      rwa [units_getElem, (hfun i).2.1, Function.comp_apply, Equiv.symm_apply_apply] at this
    · have := h3 (unitsIndex u channels i)
      rwa [units_getElem, (hfun i).2.2.2, Function.comp_apply, Equiv.symm_apply_apply] at this
    · have := h4 (unitsIndex u channels i)
      rwa [units_getElem, (hfun i).2.2.1, Function.comp_apply, Equiv.symm_apply_apply] at this
    · have := h5 (unitsIndex u channels i)
      rwa [Function.comp_apply, Equiv.symm_apply_apply] at this
    · have := h6 _ (List.mem_map_of_mem hr)
      rw [List.length_map] at this
      rw [← this]
      exact (List.length_map _).symm
    · rintro ⟨h10, h11⟩
      refine h7 _ (List.mem_map_of_mem hr) ⟨?_, ?_⟩
      · change u.energy * r.energy = _
        rw [h10]
      · change Real.sqrt u.energy * r.eliminated = 0
        rw [h11, mul_zero]
  · rintro ⟨h1, h2, h3, h4, h5, h6, h7, h8, h9⟩
    refine ⟨(hall _).mpr fun i => ?_, fun ho => (hall _).mpr fun i => ?_, (hall _).mpr fun i => ?_,
      (hall _).mpr fun i => ?_, fun i => h5 _, fun r' hr => ?_, fun r' hr => ?_,
      by rwa [hdet], hwave.mpr h9⟩
    · rw [units_getElem, (hfun i).1, Function.comp_apply, Equiv.symm_apply_apply]
      exact h1 i
    · rw [units_getElem, (hfun i).2.1, Function.comp_apply, Equiv.symm_apply_apply]
      exact h2 ho i
    · rw [units_getElem, (hfun i).2.2.2, Function.comp_apply, Equiv.symm_apply_apply]
      exact h3 i
    · rw [units_getElem, (hfun i).2.2.1, Function.comp_apply, Equiv.symm_apply_apply]
      exact h4 i
    · obtain ⟨r, hr', rfl⟩ := List.mem_map.mp hr
      rw [List.length_map, ← h6 r hr']
      exact List.length_map _
    · obtain ⟨r, hr', rfl⟩ := List.mem_map.mp hr
      rintro ⟨h10, h11⟩
      exact h7 r hr' ⟨mul_left_cancel₀ he h10, (mul_eq_zero.mp h11).resolve_left hs⟩

end Verif
