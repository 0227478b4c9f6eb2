import Verif.Spec.Rotation
import Verif.Lemmas.CrossSections
import Verif.Lemmas.TMatrix
import Mathlib.LinearAlgebra.Matrix.NonsingularInverse

/-!
# Lemmas about mixing indistinguishable channels
-/

namespace Verif.Rotation

open Complex Matrix

variable {n : ℕ}

/-- The entries of a real matrix as complex numbers. -/
def cplx (Q : Matrix (Fin n) (Fin n) ℝ) : Matrix (Fin n) (Fin n) ℂ := Matrix.of fun i j => (Q i j : ℂ)

theorem cplx_orthogonal {Q : Matrix (Fin n) (Fin n) ℝ}
    (h : ∀ i j, ∑ c, Q i c * Q j c = if i = j then 1 else 0) : cplx Q * (cplx Q)ᵀ = 1 := by
  ext i j
  rw [Matrix.mul_apply, Matrix.one_apply]
  have := congrArg (fun x : ℝ => (x : ℂ)) (h i j)
  simp only [ofReal_sum, ofReal_mul] at this
  simp only [cplx, Matrix.transpose_apply, Matrix.of_apply, this]
  split <;> simp

theorem columns {Q : Matrix (Fin n) (Fin n) ℝ}
    (h : ∀ i j, ∑ c, Q i c * Q j c = if i = j then 1 else 0) (i j : Fin n) :
    ∑ c, Q c i * Q c j = if i = j then 1 else 0 := by
  have h1 : Q * Qᵀ = 1 := by
    ext a b
    rw [Matrix.mul_apply, Matrix.one_apply]
    exact h a b
  have h2 : Qᵀ * Q = 1 := mul_eq_one_comm.mp h1
  have h3 := congrFun (congrFun h2 i) j
  rw [Matrix.mul_apply, Matrix.one_apply] at h3
  exact h3

/-- A diagonal matrix whose entries agree on mixed channels commutes with the mixing. -/
theorem cplx_diagonal {Q : Matrix (Fin n) (Fin n) ℝ} {d : Fin n → ℂ}
    (h : ∀ i j, Q i j ≠ 0 → d i = d j) : cplx Q * diagonal d = diagonal d * cplx Q := by
  ext i j
  rw [Matrix.mul_diagonal, Matrix.diagonal_mul]
  by_cases hq : Q i j = 0
  · simp [cplx, hq]
  · rw [h i j hq, mul_comm]

theorem transpose_diagonal {Q : Matrix (Fin n) (Fin n) ℝ} {d : Fin n → ℂ}
    (h : ∀ i j, Q i j ≠ 0 → d i = d j) : (cplx Q)ᵀ * diagonal d = diagonal d * (cplx Q)ᵀ := by
  have := congrArg Matrix.transpose (cplx_diagonal h)
  rw [Matrix.transpose_mul, Matrix.transpose_mul, diagonal_transpose] at this
  exact this.symm

/-- Lengths do not change, also when only a part of the channels is looked at. -/
theorem sum_normSq {Q : Matrix (Fin n) (Fin n) ℝ}
    (h : ∀ i j, ∑ c, Q i c * Q j c = if i = j then 1 else 0) {p : Fin n → Prop} [DecidablePred p]
    (hp : ∀ i j, Q i j ≠ 0 → (p i ↔ p j)) (v : Fin n → ℂ) :
    ∑ i, (if p i then normSq (∑ j, (Q i j : ℂ) * v j) else 0) = ∑ i, if p i then normSq (v i) else 0 := by
  have hre : ∀ u : Fin n → ℝ, ∑ i, (∑ j, Q i j * u j) * (∑ j, Q i j * u j) = ∑ j, u j * u j := by
    intro u
    simp only [Finset.sum_mul_sum]
    rw [Finset.sum_comm]
    have : ∀ a b, ∑ i, Q i a * u a * (Q i b * u b) = u a * u b * (if a = b then 1 else 0) := by
      intro a b
      rw [← columns h a b, Finset.mul_sum]
      exact Finset.sum_congr rfl fun i _ => by ring
    refine Finset.sum_congr rfl fun a _ => ?_
    rw [Finset.sum_comm]
    simp only [this]
    simp
  set u : Fin n → ℂ := fun j => if p j then v j else 0 with hu
  have e1 : ∀ i, (if p i then normSq (∑ j, (Q i j : ℂ) * v j) else 0)
      = normSq (∑ j, (Q i j : ℂ) * u j) := by
    intro i
    by_cases hi : p i
    · rw [if_pos hi]
      congr 1
      refine Finset.sum_congr rfl fun j _ => ?_
      by_cases hq : Q i j = 0
      · simp [hq]
      · simp only [hu]
        rw [if_pos ((hp i j hq).mp hi)]
    · rw [if_neg hi, Finset.sum_eq_zero, map_zero]
      intro j _
      by_cases hq : Q i j = 0
      · simp [hq]
      · simp only [hu]
        rw [if_neg (fun hj => hi ((hp i j hq).mpr hj)), mul_zero]
  have e2 : ∀ i, (if p i then normSq (v i) else 0) = normSq (u i) := by
    intro i
    simp only [hu]
    split <;> simp
  simp only [e1, e2]
  simp only [normSq_apply, re_sum, im_sum, re_ofReal_mul, im_ofReal_mul, Finset.sum_add_distrib, hre]

/-- The same for matrices. -/
theorem sum_sum_normSq {Q : Matrix (Fin n) (Fin n) ℝ}
    (h : ∀ i j, ∑ c, Q i c * Q j c = if i = j then 1 else 0) {p q : Fin n → Prop} [DecidablePred p]
    [DecidablePred q] (hp : ∀ i j, Q i j ≠ 0 → (p i ↔ p j)) (hq : ∀ i j, Q i j ≠ 0 → (q i ↔ q j))
    (M : Matrix (Fin n) (Fin n) ℂ) :
    ∑ i, (if p i then ∑ j, (if q j then normSq ((cplx Q * M * (cplx Q)ᵀ) i j) else 0) else 0)
      = ∑ i, if p i then ∑ j, (if q j then normSq (M i j) else 0) else 0 := by
  have e1 : ∀ i j, (cplx Q * M * (cplx Q)ᵀ) i j = ∑ b, (Q j b : ℂ) * (cplx Q * M) i b := by
    intro i j
    rw [Matrix.mul_apply]
    exact Finset.sum_congr rfl fun b _ => mul_comm _ _
  have e2 : ∀ i, ∑ j, (if q j then normSq ((cplx Q * M * (cplx Q)ᵀ) i j) else 0)
      = ∑ j, if q j then normSq ((cplx Q * M) i j) else 0 := by
    intro i
    simp only [e1]
    exact sum_normSq h hq _
  simp only [e2]
  have e3 : ∀ X : Matrix (Fin n) (Fin n) ℂ,
      ∑ i, (if p i then ∑ j, (if q j then normSq (X i j) else 0) else 0)
        = ∑ j, if q j then ∑ i, (if p i then normSq (X i j) else 0) else 0 := by
    intro X
    have : ∀ i, (if p i then ∑ j, (if q j then normSq (X i j) else 0) else 0)
        = ∑ j, if p i then (if q j then normSq (X i j) else 0) else 0 := by
      intro i
      split <;> simp
    simp only [this]
    rw [Finset.sum_comm]
    refine Finset.sum_congr rfl fun j _ => ?_
    by_cases hj : q j <;> simp [hj]
  rw [e3, e3]
  refine Finset.sum_congr rfl fun j _ => ?_
  by_cases hj : q j
  · rw [if_pos hj, if_pos hj]
    have : ∀ i, (cplx Q * M) i j = ∑ b, (Q i b : ℂ) * M b j := fun i => by rw [Matrix.mul_apply]; rfl
    simp only [this]
    exact sum_normSq h hp _
  · rw [if_neg hj, if_neg hj]

variable {channels : List Channel} {E : ℝ} {Q : Matrix (Fin channels.length) (Fin channels.length) ℝ}
  {option : BoundaryOption} {P S w phi : Fin channels.length → ℝ} {rs rs' : List Resonance}
  {K : Constants} {lib : CoulombLibrary}

theorem mixed_symm (h : ∀ i j, ∑ c, Q i c * Q j c = if i = j then 1 else 0) (hm : Spec.Mixed Q rs rs') :
    Spec.Mixed Qᵀ rs' rs := by
  induction hm with
  | nil => exact .nil
  | @cons r r' _ _ h1 _ ih =>
    refine .cons ⟨h1.1.symm, h1.2.1.symm, h1.2.2.1.symm, fun c => ?_⟩ ih
    simp only [h1.2.2.2, Matrix.transpose_apply, Finset.mul_sum]
    rw [Finset.sum_comm]
    have : ∀ b, ∑ i, Q i c * (Q i b * r.width b) = (if c = b then 1 else 0) * r.width b := by
      intro b
      rw [← columns h c b, Finset.sum_mul]
      exact Finset.sum_congr rfl fun i _ => by ring
    simp only [this]
    simp

theorem mixesSpins_symm (h : Spec.MixesSpins channels Q) : Spec.MixesSpins channels Qᵀ := by
  refine ⟨fun i j => ?_, fun i j hij => ?_⟩
  · exact columns h.orthogonal i j
  · obtain ⟨h1, h2, h3, h4, h5, h6, h7, h8⟩ := h.mixes j i hij
    exact ⟨h1.symm, h2.symm, h3.symm, h4.symm, h5.symm, h6.symm, h7.symm, h8.symm⟩

/-! ## Values of indistinguishable channels -/

theorem below {c c' : Channel} (h : Spec.Indistinguishable c c') :
    c.belowThreshold E ↔ c'.belowThreshold E := by
  unfold Channel.belowThreshold
  rw [h.incident, h.q]

theorem isIncident_eq {c c' : Channel} (h : Spec.Indistinguishable c c') : c.isIncident = c'.isIncident := by
  unfold Channel.isIncident
  rw [h.incident, h.pair]

theorem waveNumber_eq {c c' : Channel} (h : Spec.Indistinguishable c c') :
    c.waveNumber K E = c'.waveNumber K E := by
  unfold Channel.waveNumber
  rw [h.incident, h.pair, h.q]

theorem eta_eq {c c' : Channel} (h : Spec.Indistinguishable c c') : c.eta K E = c'.eta K E := by
  unfold Channel.eta Channel.sommerfeldParameter
  rw [waveNumber_eq h, h.pair, h.type]

theorem penetrability_eq {c c' : Channel} (h : Spec.Indistinguishable c c') :
    c.penetrability K lib E = c'.penetrability K lib E := by
  unfold Channel.penetrability
  rw [waveNumber_eq h, eta_eq h, h.radii, h.type, h.l]

theorem shiftFactor_eq {c c' : Channel} (h : Spec.Indistinguishable c c') :
    c.shiftFactor K lib E = c'.shiftFactor K lib E := by
  unfold Channel.shiftFactor
  rw [waveNumber_eq h, eta_eq h, h.radii, h.type, h.l]

theorem phaseShift_eq {c c' : Channel} (h : Spec.Indistinguishable c c') :
    c.phaseShift K lib E = c'.phaseShift K lib E := by
  unfold Channel.phaseShift
  rw [waveNumber_eq h, eta_eq h, h.radii, h.type, h.l]

theorem coulombPhaseShift_eq {c c' : Channel} (h : Spec.Indistinguishable c c') :
    c.coulombPhaseShift K E = c'.coulombPhaseShift K E := by
  unfold Channel.coulombPhaseShift
  rw [eta_eq h, h.type, h.l]

/-! ## Matrices -/

theorem rMatrix_mixed (h : Spec.MixesSpins channels Q) (hm : Spec.Mixed Q rs rs') :
    Spec.rMatrix channels rs' E = cplx Q * Spec.rMatrix channels rs E * (cplx Q)ᵀ := by
  induction hm with
  | nil => simp [rMatrix_nil]
  | @cons r r' _ _ h1 _ ih =>
    rw [rMatrix_cons, rMatrix_cons, ih, Matrix.mul_add, Matrix.add_mul]
    congr 1
    obtain ⟨he, hel, hlen, hw⟩ := h1
    have hamp : ∀ c, Spec.amplitude channels E r' c = ∑ c', Q c c' * Spec.amplitude channels E r c' := by
      intro c
      unfold Spec.amplitude
      by_cases hb : channels[c].belowThreshold E
      · rw [if_pos hb, Finset.sum_eq_zero]
        intro c' _
        by_cases hq : Q c c' = 0
        · rw [hq, zero_mul]
        · rw [if_pos ((below (h.mixes c c' hq)).mp hb), mul_zero]
      · rw [if_neg hb, hw]
        refine Finset.sum_congr rfl fun c' _ => ?_
        by_cases hq : Q c c' = 0
        · rw [hq, zero_mul, zero_mul]
        · rw [if_neg (fun h' => hb ((below (h.mixes c c' hq)).mpr h'))]
    have hden : r'.denominator E = r.denominator E := by
      rw [denominator_eq, denominator_eq, he, hel]
    ext i j
    rw [Matrix.mul_apply]
    simp only [Matrix.mul_apply, Matrix.of_apply, cplx, Matrix.transpose_apply, hamp, hden, ofReal_sum,
      ofReal_mul, Finset.sum_mul, Finset.mul_sum]
    refine Finset.sum_congr rfl fun a _ => Finset.sum_congr rfl fun b _ => ?_
    ring

theorem logDerivative_mixed (h : Spec.MixesSpins channels Q)
    (hP : ∀ i : Fin channels.length, channels[i].penetrability K lib E = .ok (P i))
    (hS : option = .constant →
      ∀ i : Fin channels.length, channels[i].shiftFactor K lib E = .ok (S i)) :
    ∀ i j, Q i j ≠ 0 → Spec.logDerivative option channels P S i = Spec.logDerivative option channels P S j := by
  intro i j hij
  have hi := h.mixes i j hij
  have h1 : P i = P j := by
    have := (hP i).symm.trans ((penetrability_eq hi).trans (hP j))
    simpa using this
  cases option with
  | shiftFactor => simp only [Spec.logDerivative, h1]
  | constant =>
    have h2 : S i = S j := by
      have := (hS rfl i).symm.trans ((shiftFactor_eq hi).trans (hS rfl j))
      simpa using this
    simp only [Spec.logDerivative, h1, h2, hi.boundary]

theorem levelDenominator_mixed (h : Spec.MixesSpins channels Q) (hm : Spec.Mixed Q rs rs')
    (hL : ∀ i j, Q i j ≠ 0 →
      Spec.logDerivative option channels P S i = Spec.logDerivative option channels P S j) :
    Spec.levelDenominator option channels rs' E P S
      = cplx Q * Spec.levelDenominator option channels rs E P S * (cplx Q)ᵀ := by
  unfold Spec.levelDenominator
  rw [rMatrix_mixed h hm, Matrix.mul_sub, Matrix.sub_mul, Matrix.mul_one, cplx_orthogonal h.orthogonal]
  congr 1
  simp only [Matrix.mul_assoc]
  rw [transpose_diagonal hL]

theorem det_mixed (h : Spec.MixesSpins channels Q) (hm : Spec.Mixed Q rs rs')
    (hL : ∀ i j, Q i j ≠ 0 →
      Spec.logDerivative option channels P S i = Spec.logDerivative option channels P S j) :
    (Spec.levelDenominator option channels rs' E P S).det
      = (Spec.levelDenominator option channels rs E P S).det := by
  rw [levelDenominator_mixed h hm hL, det_mul, det_mul]
  have : (cplx Q).det * (cplx Q)ᵀ.det = 1 := by
    rw [← det_mul, cplx_orthogonal h.orthogonal, det_one]
  linear_combination ((Spec.levelDenominator option channels rs E P S).det) * this

theorem tMatrix_eq (rs : List Resonance) : Spec.tMatrix option channels rs E P S
    = diagonal (fun c => (Real.sqrt (P c) : ℂ)) * ((Spec.levelDenominator option channels rs E P S)⁻¹ *
      Spec.rMatrix channels rs E) * diagonal (fun c => (Real.sqrt (P c) : ℂ)) := by
  ext i j
  rw [Matrix.mul_diagonal, Matrix.diagonal_mul]
  rfl

theorem tMatrix_mixed (h : Spec.MixesSpins channels Q) (hm : Spec.Mixed Q rs rs')
    (hL : ∀ i j, Q i j ≠ 0 →
      Spec.logDerivative option channels P S i = Spec.logDerivative option channels P S j)
    (hP : ∀ i j, Q i j ≠ 0 → P i = P j) :
    Spec.tMatrix option channels rs' E P S
      = cplx Q * Spec.tMatrix option channels rs E P S * (cplx Q)ᵀ := by
  have hQ := cplx_orthogonal h.orthogonal
  have hQ' : (cplx Q)ᵀ * cplx Q = 1 := mul_eq_one_comm.mp hQ
  have i1 : (cplx Q)⁻¹ = (cplx Q)ᵀ := inv_eq_right_inv hQ
  have i2 : ((cplx Q)ᵀ)⁻¹ = cplx Q := inv_eq_right_inv hQ'
  have hd : ∀ i j, Q i j ≠ 0 → (Real.sqrt (P i) : ℂ) = (Real.sqrt (P j) : ℂ) := fun i j hij => by
    rw [hP i j hij]
  rw [tMatrix_eq, tMatrix_eq, levelDenominator_mixed h hm hL, rMatrix_mixed h hm, Matrix.mul_inv_rev,
    Matrix.mul_inv_rev, i1, i2]
  set D := diagonal fun c => (Real.sqrt (P c) : ℂ)
  set X := (Spec.levelDenominator option channels rs E P S)⁻¹
  set R := Spec.rMatrix channels rs E
  have c1 : D * cplx Q = cplx Q * D := (cplx_diagonal hd).symm
  have c2 : (cplx Q)ᵀ * D = D * (cplx Q)ᵀ := transpose_diagonal hd
  calc D * (cplx Q * (X * (cplx Q)ᵀ) * (cplx Q * R * (cplx Q)ᵀ)) * D
      = (D * cplx Q) * X * ((cplx Q)ᵀ * cplx Q) * R * ((cplx Q)ᵀ * D) := by simp only [Matrix.mul_assoc]
    _ = cplx Q * (D * (X * R) * D) * (cplx Q)ᵀ := by
      rw [c1, c2, hQ']
      simp only [Matrix.mul_assoc, Matrix.one_mul]

theorem collision_eq (T : Matrix (Fin n) (Fin n) ℂ) (w phi : Fin n → ℝ) :
    Matrix.of (Spec.collision T w phi) = diagonal (fun c => exp (I * (w c - phi c))) *
      (1 + (2 * I) • T) * diagonal (fun c => exp (I * (w c - phi c))) := by
  ext i j
  rw [Matrix.mul_diagonal, Matrix.diagonal_mul, Matrix.add_apply, Matrix.one_apply, Matrix.smul_apply,
    smul_eq_mul]
  rfl

theorem collision_mixed {Q : Matrix (Fin n) (Fin n) ℝ} {T T' : Matrix (Fin n) (Fin n) ℂ} {w phi : Fin n → ℝ}
    (hQ : cplx Q * (cplx Q)ᵀ = 1) (hT : T' = cplx Q * T * (cplx Q)ᵀ)
    (hw : ∀ i j, Q i j ≠ 0 → w i = w j) (hphi : ∀ i j, Q i j ≠ 0 → phi i = phi j) :
    Matrix.of (Spec.collision T' w phi) = cplx Q * Matrix.of (Spec.collision T w phi) * (cplx Q)ᵀ := by
  have hd : ∀ i j, Q i j ≠ 0 → exp (I * ((w i : ℂ) - phi i)) = exp (I * ((w j : ℂ) - phi j)) :=
    fun i j hij => by rw [hw i j hij, hphi i j hij]
  rw [collision_eq, collision_eq]
  set D := diagonal fun c => exp (I * ((w c : ℂ) - phi c))
  have c1 : D * cplx Q = cplx Q * D := (cplx_diagonal hd).symm
  have c2 : (cplx Q)ᵀ * D = D * (cplx Q)ᵀ := transpose_diagonal hd
  have e : (1 : Matrix (Fin n) (Fin n) ℂ) + (2 * I) • T' = cplx Q * (1 + (2 * I) • T) * (cplx Q)ᵀ := by
    rw [Matrix.mul_add, Matrix.add_mul, Matrix.mul_one, hQ, hT, Matrix.mul_smul, Matrix.smul_mul]
  rw [e]
  calc D * (cplx Q * (1 + (2 * I) • T) * (cplx Q)ᵀ) * D
      = (D * cplx Q) * (1 + (2 * I) • T) * ((cplx Q)ᵀ * D) := by simp only [Matrix.mul_assoc]
    _ = cplx Q * (D * (1 + (2 * I) • T) * D) * (cplx Q)ᵀ := by
      rw [c1, c2]
      simp only [Matrix.mul_assoc]

/-- The entries of the difference whose squares are the cross sections. -/
theorem difference_mixed {Q : Matrix (Fin n) (Fin n) ℝ} {U U' : Fin n → Fin n → ℂ} {w : Fin n → ℝ}
    (hQ : cplx Q * (cplx Q)ᵀ = 1) (hU : Matrix.of U' = cplx Q * Matrix.of U * (cplx Q)ᵀ)
    (hw : ∀ i j, Q i j ≠ 0 → w i = w j) :
    (Matrix.of fun c c' => (if c = c' then exp (I * w c) else 0) - U' c c')
      = cplx Q * (Matrix.of fun c c' => (if c = c' then exp (I * w c) else 0) - U c c') * (cplx Q)ᵀ := by
  have e : ∀ V : Fin n → Fin n → ℂ, (Matrix.of fun c c' => (if c = c' then exp (I * w c) else 0) - V c c')
      = diagonal (fun c => exp (I * (w c : ℂ))) - Matrix.of V := by
    intro V
    ext i j
    rw [Matrix.sub_apply, Matrix.diagonal_apply]
    rfl
  have hd : ∀ i j, Q i j ≠ 0 → exp (I * (w i : ℂ)) = exp (I * (w j : ℂ)) :=
    fun i j hij => by rw [hw i j hij]
  rw [e, e, hU, Matrix.mul_sub, Matrix.sub_mul, cplx_diagonal hd, Matrix.mul_assoc (diagonal _), hQ,
    Matrix.mul_one]

theorem contribution_mixed (h : Spec.MixesSpins channels Q) (hm : Spec.Mixed Q rs rs')
    (hev : Spec.Evaluable option K lib channels rs E P S w phi) (id : ReactionID) :
    Spec.contribution option K channels rs' E P S w phi id
      = Spec.contribution option K channels rs E P S w phi id := by
  have hQ := cplx_orthogonal h.orthogonal
  have hL := logDerivative_mixed h hev.penetrability hev.shiftFactor
  have hP : ∀ i j, Q i j ≠ 0 → P i = P j := fun i j hij => by
    have := (hev.penetrability i).symm.trans
      ((penetrability_eq (h.mixes i j hij)).trans (hev.penetrability j))
    simpa using this
  have hw : ∀ i j, Q i j ≠ 0 → w i = w j := fun i j hij => by
    have := (hev.coulomb i).symm.trans ((coulombPhaseShift_eq (h.mixes i j hij)).trans (hev.coulomb j))
    simpa using this
  have hphi : ∀ i j, Q i j ≠ 0 → phi i = phi j := fun i j hij => by
    have := (hev.phase i).symm.trans ((phaseShift_eq (h.mixes i j hij)).trans (hev.phase j))
    simpa using this
  have hU := collision_mixed (w := w) (phi := phi) hQ (tMatrix_mixed (E := E) h hm hL hP) hw hphi
  have hV := difference_mixed hQ hU hw
  have hinc : ∀ i j, Q i j ≠ 0 → (channels[i].isIncident = true ↔ channels[j].isIncident = true) :=
    fun i j hij => by rw [isIncident_eq (h.mixes i j hij)]
  have hre : ∀ i j, Q i j ≠ 0 → (channels[i].reaction = id ↔ channels[j].reaction = id) :=
    fun i j hij => by rw [(h.mixes i j hij).reaction]
  set U' := Spec.collision (Spec.tMatrix option channels rs' E P S) w phi with hU'
  set U := Spec.collision (Spec.tMatrix option channels rs E P S) w phi with hU0
  -- the two parts of the contribution
  have split : ∀ V : Fin channels.length → Fin channels.length → ℂ,
      (∑ c : Fin channels.length, if channels[c].isIncident then
        (∑ c' : Fin channels.length, if channels[c'].reaction = id then
          Spec.incidentFactor K channels E * Spec.partialCrossSection V w c c' else 0)
        + (if Spec.captureID channels = some id then
          Spec.incidentFactor K channels E * Spec.captureCrossSection V c else 0)
      else 0)
      = Spec.incidentFactor K channels E * (∑ c : Fin channels.length, if channels[c].isIncident then
          ∑ c' : Fin channels.length, (if channels[c'].reaction = id then
            normSq ((Matrix.of fun c c' => (if c = c' then exp (I * w c) else 0) - V c c') c c') else 0)
          else 0)
        + (if Spec.captureID channels = some id then Spec.incidentFactor K channels E *
            ((∑ c : Fin channels.length, if channels[c].isIncident then (1 : ℝ) else 0)
              - ∑ c : Fin channels.length, if channels[c].isIncident then
                ∑ c' : Fin channels.length, (if True then normSq ((Matrix.of V) c c') else 0) else 0)
          else 0) := by
    intro V
    have e1 : ∀ c : Fin channels.length, (if channels[c].isIncident then
        (∑ c' : Fin channels.length, if channels[c'].reaction = id then
          Spec.incidentFactor K channels E * Spec.partialCrossSection V w c c' else 0)
        + (if Spec.captureID channels = some id then
          Spec.incidentFactor K channels E * Spec.captureCrossSection V c else 0)
      else 0) = Spec.incidentFactor K channels E * (if channels[c].isIncident then
          ∑ c' : Fin channels.length, (if channels[c'].reaction = id then
            normSq ((Matrix.of fun c c' => (if c = c' then exp (I * w c) else 0) - V c c') c c') else 0)
          else 0)
        + (if Spec.captureID channels = some id then Spec.incidentFactor K channels E *
            ((if channels[c].isIncident then (1 : ℝ) else 0)
              - if channels[c].isIncident then
                ∑ c' : Fin channels.length, (if True then normSq ((Matrix.of V) c c') else 0) else 0)
          else 0) := by
      intro c
      by_cases hc : channels[c].isIncident
      · simp only [hc, if_true, Finset.mul_sum, mul_ite, mul_zero]
        rfl
      · simp only [if_neg hc, mul_zero, sub_zero, zero_add, ite_self]
    simp only [e1]
    rw [Finset.sum_add_distrib, Finset.mul_sum]
    congr 1
    by_cases hid : Spec.captureID channels = some id
    · simp only [if_pos hid]
      rw [← Finset.mul_sum, Finset.sum_sub_distrib]
    · simp [if_neg hid]
  unfold Spec.contribution
  simp only
  rw [← hU', ← hU0, split U', split U, hV, hU,
    sum_sum_normSq h.orthogonal hinc hre, sum_sum_normSq h.orthogonal hinc (fun _ _ _ => Iff.rfl)]

theorem evaluable_mixed (h : Spec.MixesSpins channels Q) (hm : Spec.Mixed Q rs rs')
    (hev : Spec.Evaluable option K lib channels rs E P S w phi) :
    Spec.Evaluable option K lib channels rs' E P S w phi := by
  refine ⟨hev.penetrability, hev.shiftFactor, hev.coulomb, hev.phase, hev.nonneg, ?_, ?_, ?_,
    hev.waveNumber⟩
  · have := hev.widths
    clear hev
    induction hm with
    | nil => simp
    | cons h1 _ ih =>
      simp only [List.mem_cons, forall_eq_or_imp] at this ⊢
      exact ⟨h1.2.2.1.trans this.1, ih this.2⟩
  · have := hev.noPole
    clear hev
    induction hm with
    | nil => simp
    | cons h1 _ ih =>
      simp only [List.mem_cons, forall_eq_or_imp] at this ⊢
      refine ⟨?_, ih this.2⟩
      rw [h1.1, h1.2.1]
      exact this.1
  · rw [det_mixed h hm (logDerivative_mixed h hev.penetrability hev.shiftFactor)]
    exact hev.invertible

end Verif.Rotation
