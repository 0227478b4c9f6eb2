import Verif.Spec.LevelMatrix
import Verif.Props.Continuity

/-!
# Lemmas on the level matrix
-/

namespace Verif

open Complex Matrix Filter Topology

section Algebra

variable {m n : Type*} [Fintype m] [DecidableEq m] [Fintype n] [DecidableEq n]

/-- The determinants of the two forms. -/
theorem level_det {G : Matrix m n ℂ} {D : m → ℂ} {L : n → ℂ} (hD : ∀ i, D i ≠ 0) :
    (diagonal D - G * diagonal L * Gᵀ).det
      = (∏ i, D i) * (1 - Gᵀ * diagonal (fun i => (D i)⁻¹) * G * diagonal L).det := by
  have h : diagonal D - G * diagonal L * Gᵀ
      = diagonal D * (1 - diagonal (fun i => (D i)⁻¹) * (G * diagonal L * Gᵀ)) := by
    have e : diagonal D * diagonal (fun i => (D i)⁻¹) = 1 := by
      rw [diagonal_mul_diagonal, ← diagonal_one]
      congr 1
      funext i
      exact mul_inv_cancel₀ (hD i)
    rw [Matrix.mul_sub, Matrix.mul_one, ← Matrix.mul_assoc (diagonal D), e, Matrix.one_mul]
  rw [h, det_mul, det_diagonal]
  congr 1
  rw [show diagonal (fun i => (D i)⁻¹) * (G * diagonal L * Gᵀ)
      = (diagonal (fun i => (D i)⁻¹) * G * diagonal L) * Gᵀ by simp only [Matrix.mul_assoc],
    Matrix.det_one_sub_mul_comm]
  simp only [Matrix.mul_assoc]

/-- The two forms agree. -/
theorem level_form {G : Matrix m n ℂ} {D : m → ℂ} {L : n → ℂ} (hD : ∀ i, D i ≠ 0)
    (hdet : (diagonal D - G * diagonal L * Gᵀ).det ≠ 0) :
    (1 - Gᵀ * diagonal (fun i => (D i)⁻¹) * G * diagonal L)⁻¹ * (Gᵀ * diagonal (fun i => (D i)⁻¹) * G)
      = Gᵀ * (diagonal D - G * diagonal L * Gᵀ)⁻¹ * G := by
  have hd : (1 - Gᵀ * diagonal (fun i => (D i)⁻¹) * G * diagonal L).det ≠ 0 := by
    intro h
    rw [level_det hD, h, mul_zero] at hdet
    exact hdet rfl
  set N := diagonal D - G * diagonal L * Gᵀ with hN
  have key : (1 - Gᵀ * diagonal (fun i => (D i)⁻¹) * G * diagonal L) * (Gᵀ * N⁻¹ * G)
      = Gᵀ * diagonal (fun i => (D i)⁻¹) * G := by
    have e : diagonal (fun i => (D i)⁻¹) * diagonal D = 1 := by
      rw [diagonal_mul_diagonal, ← diagonal_one]
      congr 1
      funext i
      exact inv_mul_cancel₀ (hD i)
    have e2 : (1 - Gᵀ * diagonal (fun i => (D i)⁻¹) * G * diagonal L) * Gᵀ
        = Gᵀ * diagonal (fun i => (D i)⁻¹) * N := by
      rw [hN, Matrix.mul_sub, Matrix.sub_mul, Matrix.one_mul, Matrix.mul_assoc Gᵀ _ (diagonal D), e,
        Matrix.mul_one]
      simp only [Matrix.mul_assoc]
    rw [← Matrix.mul_assoc, ← Matrix.mul_assoc, e2, Matrix.mul_assoc _ N, mul_nonsing_inv _
      (isUnit_iff_ne_zero.mpr hdet), Matrix.mul_one]
  calc _ = (1 - Gᵀ * diagonal (fun i => (D i)⁻¹) * G * diagonal L)⁻¹
        * ((1 - Gᵀ * diagonal (fun i => (D i)⁻¹) * G * diagonal L) * (Gᵀ * N⁻¹ * G)) := by rw [key]
    _ = _ := by
      rw [← Matrix.mul_assoc, nonsing_inv_mul _ (isUnit_iff_ne_zero.mpr hd), Matrix.one_mul]

/-- The level matrix has an inverse even where one of the levels has neither a distance nor a width of its
own, if that level is coupled to a channel. -/
theorem level_regular {G : Matrix m n ℂ} (hG : ∀ i c, star (G i c) = G i c) {D : m → ℂ} {L : n → ℂ}
    (hDi : ∀ i, (D i).im ≤ 0) (hLi : ∀ c, 0 ≤ (L c).im)
    (hL0 : ∀ c, (L c).im = 0 → L c = 0 ∨ ∀ i, G i c = 0)
    (honce : ∀ i j, D i = 0 → D j = 0 → i = j) (hcoupled : ∀ i, D i = 0 → ∃ c, G i c ≠ 0 ∧ L c ≠ 0) :
    (diagonal D - G * diagonal L * Gᵀ).det ≠ 0 := by
  intro hdet
  obtain ⟨v, hv0, hv⟩ := Matrix.exists_mulVec_eq_zero_iff.mpr hdet
  set u : n → ℂ := Gᵀ *ᵥ v with hu
  have hvi : ∀ i, D i * v i = ∑ c, G i c * (L c * u c) := by
    intro i
    have := congrFun hv i
    rw [sub_mulVec, ← mulVec_mulVec, ← mulVec_mulVec, ← hu] at this
    simp only [Pi.sub_apply, mulVec_diagonal, Pi.zero_apply, sub_eq_zero] at this
    rw [this]
    show ∑ c, G i c * (diagonal L *ᵥ u) c = _
    simp only [mulVec_diagonal]
  have hsum : ∑ i, D i * ((normSq (v i) : ℝ) : ℂ) = ∑ c, L c * ((normSq (u c) : ℝ) : ℂ) := by
    have e1 : ∀ i, D i * ((normSq (v i) : ℝ) : ℂ) = ∑ c, star (v i) * (G i c * (L c * u c)) := by
      intro i
      rw [← Finset.mul_sum, ← hvi, normSq_eq_conj_mul_self]
      show D i * (star (v i) * v i) = _
      ring
    simp only [e1]
    rw [Finset.sum_comm]
    refine Finset.sum_congr rfl fun c _ => ?_
    rw [normSq_eq_conj_mul_self]
    show _ = L c * (star (u c) * u c)
    have : star (u c) = ∑ i, G i c * star (v i) := by
      simp only [hu, mulVec, dotProduct, Matrix.transpose_apply, star_sum, star_mul', hG]
    rw [this, Finset.sum_mul, Finset.mul_sum]
    refine Finset.sum_congr rfl fun i _ => ?_
    ring
  have him : ∑ i, -(D i).im * normSq (v i) + ∑ c, (L c).im * normSq (u c) = 0 := by
    have := congrArg im hsum
    simp only [Complex.im_sum, mul_im, ofReal_re, ofReal_im, mul_zero, zero_add] at this
    simp only [neg_mul, Finset.sum_neg_distrib]
    linarith
  have hn1 : ∀ i ∈ Finset.univ, 0 ≤ -(D i).im * normSq (v i) := fun i _ =>
    mul_nonneg (by linarith [hDi i]) (normSq_nonneg _)
  have hn2 : ∀ c ∈ Finset.univ, 0 ≤ (L c).im * normSq (u c) := fun c _ =>
    mul_nonneg (hLi c) (normSq_nonneg _)
  have h2 : ∑ c, (L c).im * normSq (u c) = 0 := by
    have := Finset.sum_nonneg hn1
    have := Finset.sum_nonneg hn2
    linarith
  rw [Finset.sum_eq_zero_iff_of_nonneg hn2] at h2
  have hLu : ∀ c, L c * u c = 0 := by
    intro c
    rcases mul_eq_zero.mp (h2 c (Finset.mem_univ c)) with h | h
    · rcases hL0 c h with h | h
      · rw [h, zero_mul]
      · have : u c = 0 := by
          simp only [hu, mulVec, dotProduct, Matrix.transpose_apply]
          exact Finset.sum_eq_zero fun i _ => by rw [h i, zero_mul]
        rw [this, mul_zero]
    · rw [normSq_eq_zero.mp h, mul_zero]
  have hDv : ∀ i, D i * v i = 0 := by
    intro i
    rw [hvi]
    exact Finset.sum_eq_zero fun c _ => by rw [hLu, mul_zero]
  apply hv0
  funext i
  by_contra hi
  have hDi0 : D i = 0 := by
    rcases mul_eq_zero.mp (hDv i) with h | h
    · exact h
    · exact absurd h hi
  obtain ⟨c, hc, hLc⟩ := hcoupled i hDi0
  have huc : u c = G i c * v i := by
    simp only [hu, mulVec, dotProduct, Matrix.transpose_apply]
    refine Finset.sum_eq_single i (fun j _ hj => ?_) fun h => absurd (Finset.mem_univ i) h
    rcases mul_eq_zero.mp (hDv j) with h | h
    · exact absurd (honce j i h hDi0) hj
    · rw [h, mul_zero]
  have := hLu c
  rw [huc] at this
  rcases mul_eq_zero.mp this with h | h
  · exact hLc h
  · rcases mul_eq_zero.mp h with h | h
    · exact hc h
    · exact hi h

end Algebra

section Forms

variable {option : BoundaryOption} {channels : List Channel} {rs : List Resonance} {E : ℝ}
  {P S : Fin channels.length → ℝ}

/-- The widths as a matrix. -/
noncomputable def widthMatrix (channels : List Channel) (rs : List Resonance) (E : ℝ) :
    Matrix (Fin rs.length) (Fin channels.length) ℂ :=
  Matrix.of fun i c => (Spec.amplitude channels E rs[i] c : ℂ)

/-- The distances of the levels. -/
noncomputable def distances (rs : List Resonance) (E : ℝ) (i : Fin rs.length) : ℂ :=
  (rs[i].energy : ℂ) - E - I * (rs[i].eliminated : ℂ) ^ 2

theorem distances_eq_zero (i : Fin rs.length) :
    distances rs E i = 0 ↔ rs[i].energy = E ∧ rs[i].eliminated = 0 := by
  have := denominator_ne_zero rs[i] E
  rw [denominator_eq] at this
  exact not_iff_not.mp this

theorem levelInverse_eq : Spec.levelInverse option channels rs E P S
    = diagonal (distances rs E) - widthMatrix channels rs E
      * diagonal (Spec.logDerivative option channels P S) * (widthMatrix channels rs E)ᵀ := by
  ext i j
  rw [Matrix.sub_apply, Matrix.mul_apply]
  simp only [mul_diagonal, Matrix.transpose_apply, widthMatrix, Spec.levelInverse, Matrix.of_apply,
    diagonal_apply, distances]

theorem rMatrix_widths : Spec.rMatrix channels rs E = (widthMatrix channels rs E)ᵀ
    * diagonal (fun i => (distances rs E i)⁻¹) * widthMatrix channels rs E := by
  ext c c'
  rw [Matrix.mul_apply]
  simp only [mul_diagonal, Matrix.transpose_apply, widthMatrix, Spec.rMatrix, Matrix.of_apply, distances]
  rw [← Fin.sum_univ_fun_getElem]
  refine Finset.sum_congr rfl fun i _ => ?_
  simp only [div_eq_mul_inv]
  exact mul_right_comm _ _ _

theorem levelTMatrix_eq : Spec.levelTMatrix option channels rs E P S
    = Matrix.of fun c c' => (Real.sqrt (P c) : ℂ) * ((widthMatrix channels rs E)ᵀ
      * (Spec.levelInverse option channels rs E P S)⁻¹ * widthMatrix channels rs E) c c'
      * (Real.sqrt (P c') : ℂ) := by
  ext c c'
  simp only [Spec.levelTMatrix, Matrix.of_apply]
  congr 2
  rw [Matrix.mul_apply, Finset.sum_comm]
  refine Finset.sum_congr rfl fun j _ => ?_
  rw [Matrix.mul_apply, Finset.sum_mul]
  rfl

theorem levelInverse_det (hpole : ∀ r ∈ rs, ¬ (r.energy = E ∧ r.eliminated = 0)) :
    (Spec.levelInverse option channels rs E P S).det ≠ 0
      ↔ (Spec.levelDenominator option channels rs E P S).det ≠ 0 := by
  have hD : ∀ i, distances rs E i ≠ 0 := fun i h =>
    hpole _ (List.getElem_mem _) ((distances_eq_zero i).mp h)
  rw [levelInverse_eq, level_det hD, Spec.levelDenominator, rMatrix_widths]
  constructor
  · exact fun h => right_ne_zero_of_mul h
  · exact fun h => mul_ne_zero (Finset.prod_ne_zero_iff.mpr fun i _ => hD i) h

/-- The two forms of the T-matrix agree. -/
theorem tMatrix_level (hpole : ∀ r ∈ rs, ¬ (r.energy = E ∧ r.eliminated = 0))
    (hdet : (Spec.levelInverse option channels rs E P S).det ≠ 0) :
    Spec.tMatrix option channels rs E P S = Spec.levelTMatrix option channels rs E P S := by
  have hD : ∀ i, distances rs E i ≠ 0 := fun i h =>
    hpole _ (List.getElem_mem _) ((distances_eq_zero i).mp h)
  rw [levelTMatrix_eq]
  rw [levelInverse_eq] at hdet ⊢
  rw [← level_form hD hdet, Spec.tMatrix, Spec.levelDenominator, rMatrix_widths]

theorem contribution_eq {K : Constants} {w phi : Fin channels.length → ℝ} (id : ReactionID) :
    Spec.contribution option K channels rs E P S w phi id
      = Spec.contributionOf K channels E (Spec.tMatrix option channels rs E P S) w phi id := rfl

/-- The level matrix exists where no more than one of the levels has neither a distance nor an eliminated
width. -/
theorem levelInverse_regular (hP : ∀ c, 0 ≤ P c)
    (hopen : ∀ c : Fin channels.length, ¬ channels[c].belowThreshold E → 0 < P c)
    (hcross : Spec.Crossing channels rs E) : (Spec.levelInverse option channels rs E P S).det ≠ 0 := by
  rw [levelInverse_eq]
  have hclosed : ∀ c r, Spec.amplitude channels E r c ≠ 0 → 0 < P c := by
    intro c r h
    refine hopen c fun hb => h ?_
    exact if_pos hb
  have him : ∀ c, (Spec.logDerivative option channels P S c).im = P c := by
    intro c
    rw [logDerivative_eq]
  refine level_regular (fun i c => conj_ofReal _) (fun i => ?_) (fun c => him c ▸ hP c) (fun c h => ?_)
    (fun i j hi hj => hcross.once i j ((distances_eq_zero i).mp hi) ((distances_eq_zero j).mp hj))
    fun i hi => ?_
  · have : (distances rs E i).im = -(rs[i].eliminated ^ 2) := by
      unfold distances
      rw [← ofReal_pow]
      simp [-ofReal_pow]
    rw [this]
    have := sq_nonneg rs[i].eliminated
    linarith
  · right
    intro i
    by_contra hne
    have := hclosed c rs[i] fun h0 => hne ((congrArg ofReal h0).trans ofReal_zero)
    rw [← him c, h] at this
    exact lt_irrefl _ this
  · obtain ⟨c, hc⟩ := hcross.coupled rs[i] (List.getElem_mem _) ((distances_eq_zero i).mp hi)
    refine ⟨c, ofReal_ne_zero.mpr hc, fun h => ?_⟩
    have h2 := hclosed c _ hc
    rw [← him c, h] at h2
    exact lt_irrefl _ h2

end Forms

section Limits

variable {option : BoundaryOption} {K : Constants} {lib : CoulombLibrary} {channels : List Channel}
  {rs : List Resonance} {E₀ : ℝ} {P S w phi : Fin channels.length → ℝ → ℝ}

/-- Away from thresholds the channels remain open or closed. -/
theorem amplitude_constant (hthr : ∀ c ∈ channels, ¬ Spec.AtThreshold c E₀) :
    ∀ᶠ E in 𝓝 E₀, ∀ c r, Spec.amplitude channels E r c = Spec.amplitude channels E₀ r c := by
  rw [eventually_all]
  intro c
  have hv := (threshold_continuous channels[c]).continuousAt (x := E₀)
  rcases lt_trichotomy (channels[c].incident.massRatio * E₀ + channels[c].q) 0 with h | h | h
  · filter_upwards [hv.eventually_lt continuousAt_const h] with E hE r
    have h1 : Spec.amplitude channels E r c = 0 := if_pos hE
    have h2 : Spec.amplitude channels E₀ r c = 0 := if_pos h
    rw [h1, h2]
  · exact absurd h (hthr _ (List.getElem_mem _))
  · filter_upwards [continuousAt_const.eventually_lt hv h] with E hE r
    have h1 : Spec.amplitude channels E r c = r.width c := if_neg (not_lt.mpr hE.le)
    have h2 : Spec.amplitude channels E₀ r c = r.width c := if_neg (not_lt.mpr h.le)
    rw [h1, h2]

/-- Where the level matrix exists the level matrix form of the T-matrix is continuous. -/
theorem levelTMatrix_continuous (hthr : ∀ c ∈ channels, ¬ Spec.AtThreshold c E₀)
    (hch : ∀ c : Fin channels.length,
      ContinuousChannel option K lib channels[c] E₀ (P c) (S c) (w c) (phi c))
    (hdet : (Spec.levelInverse option channels rs E₀ (fun c => P c E₀) (fun c => S c E₀)).det ≠ 0) :
    (∀ᶠ E in 𝓝 E₀,
      (Spec.levelInverse option channels rs E (fun c => P c E) (fun c => S c E)).det ≠ 0) ∧
    ∀ c c', ContinuousAt (fun E =>
      Spec.levelTMatrix option channels rs E (fun c => P c E) (fun c => S c E) c c') E₀ := by
  have hamp : ∀ r c, ContinuousAt (fun E => (Spec.amplitude channels E r c : ℂ)) E₀ := by
    intro r c
    refine continuousAt_const.congr (f := fun _ => (Spec.amplitude channels E₀ r c : ℂ)) ?_
    filter_upwards [amplitude_constant hthr] with E hE
    rw [hE]
  have hL : ∀ c, ContinuousAt (fun E =>
      Spec.logDerivative option channels (fun c => P c E) (fun c => S c E) c) E₀ := by
    intro c
    have hP : ContinuousAt (fun E => (P c E : ℂ)) E₀ :=
      continuous_ofReal.continuousAt.comp (f := P c) (hch c).penetrability
    simp only [Spec.logDerivative]
    cases option with
    | shiftFactor => exact continuousAt_const.mul hP
    | constant =>
      have hS : ContinuousAt (fun E => (S c E : ℂ)) E₀ :=
        continuous_ofReal.continuousAt.comp (f := S c) ((hch c).shiftFactor rfl)
      exact (hS.sub continuousAt_const).add (continuousAt_const.mul hP)
  have hN : ContinuousAt (fun E =>
      Spec.levelInverse option channels rs E (fun c => P c E) (fun c => S c E)) E₀ := by
    refine continuousAt_pi.mpr fun i => continuousAt_pi.mpr fun j => ?_
    simp only [Spec.levelInverse, Matrix.of_apply]
    refine ContinuousAt.sub ?_ (tendsto_finsetSum _ fun c _ => ((hamp _ c).mul (hL c)).mul (hamp _ c))
    split
    · have : Continuous fun E : ℝ => (rs[i].energy : ℂ) - (E : ℂ) - I * (rs[i].eliminated : ℂ) ^ 2 := by
        fun_prop
      exact this.continuousAt
    · exact continuousAt_const
  have hdetc : ContinuousAt (fun E =>
      (Spec.levelInverse option channels rs E (fun c => P c E) (fun c => S c E)).det) E₀ :=
    (continuous_id.matrix_det (R := ℂ)).continuousAt.comp (f := fun E => _) hN
  refine ⟨hdetc.eventually_ne hdet, fun c c' => ?_⟩
  have hinv := inverse_continuous hN hdet
  have hsq : ∀ c, ContinuousAt (fun E => (Real.sqrt (P c E) : ℂ)) E₀ := fun c =>
    continuous_ofReal.continuousAt.comp (f := fun E => Real.sqrt (P c E))
      (Real.continuous_sqrt.continuousAt.comp (f := P c) (hch c).penetrability)
  simp only [Spec.levelTMatrix, Matrix.of_apply]
  refine ((hsq c).mul ?_).mul (hsq c')
  refine tendsto_finsetSum _ fun i _ => tendsto_finsetSum _ fun j _ => ?_
  exact ((hamp _ c).mul (continuousAt_pi.mp (continuousAt_pi.mp hinv i) j)).mul (hamp _ c')

end Limits

end Verif
