import Mathlib.Topology.Order.IntermediateValue
import Mathlib.Topology.ContinuousOn
import Verif.Props.SpinGroup

/-!
# Spin groups with one channel and no eliminated widths
-/

namespace Verif.Interference

open Complex Set

/-- The R-function of one channel. -/
noncomputable def rFunction (rs : List Resonance) (E : ℝ) : ℝ :=
  (rs.map fun r => r.width 0 * r.width 0 / (r.energy - E)).sum

/-- A term of the R-function without the poles at the ends of an interval. -/
noncomputable def term (e₁ e₂ : ℝ) (r : Resonance) (E : ℝ) : ℝ :=
  if r.energy = e₁ then -(r.width 0 * r.width 0 * (e₂ - E))
  else if r.energy = e₂ then r.width 0 * r.width 0 * (E - e₁)
  else (E - e₁) * (e₂ - E) * (r.width 0 * r.width 0 / (r.energy - E))

theorem term_eq {e₁ e₂ E : ℝ} (hE : E ∈ Ioo e₁ e₂) (r : Resonance) :
    term e₁ e₂ r E = (E - e₁) * (e₂ - E) * (r.width 0 * r.width 0 / (r.energy - E)) := by
  obtain ⟨h1, h2⟩ := hE
  have n1 : e₁ - E ≠ 0 := by linarith
  have n2 : e₂ - E ≠ 0 := by linarith
  unfold term
  split_ifs with c1 c2
  · rw [c1]; field_simp; ring
  · rw [c2]; field_simp
  · rfl

theorem sum_continuousOn {rs : List Resonance} {f : Resonance → ℝ → ℝ} {s : Set ℝ}
    (h : ∀ r ∈ rs, ContinuousOn (f r) s) : ContinuousOn (fun E => (rs.map fun r => f r E).sum) s := by
  induction rs with
  | nil => simpa using continuousOn_const
  | cons r rs ih =>
    simp only [List.map_cons, List.sum_cons]
    exact (h r List.mem_cons_self).add (ih fun r hr => h r (List.mem_cons_of_mem _ hr))

/-- Between two neighbouring poles the R-function takes all values, even if these depend on the energy. -/
theorem crosses {rs : List Resonance} {e₁ e₂ : ℝ} (he : e₁ < e₂)
    (hgap : ∀ r ∈ rs, r.energy ≤ e₁ ∨ e₂ ≤ r.energy)
    (h1 : ∃ r ∈ rs, r.energy = e₁ ∧ r.width 0 ≠ 0) (h2 : ∃ r ∈ rs, r.energy = e₂ ∧ r.width 0 ≠ 0)
    {u v : ℝ → ℝ} (hu : ContinuousOn u (Icc e₁ e₂)) (hv : ContinuousOn v (Icc e₁ e₂))
    (hpos : ∀ E ∈ Icc e₁ e₂, 0 < u E) : ∃ E ∈ Ioo e₁ e₂, rFunction rs E * u E = v E := by
  have hsub : 0 < e₂ - e₁ := by linarith
  set T : ℝ → ℝ := fun E => (rs.map fun r => term e₁ e₂ r E).sum with hT
  have hTc : ContinuousOn T (Icc e₁ e₂) := by
    refine sum_continuousOn fun r hr => ?_
    unfold term
    split_ifs with c1 c2
    · fun_prop
    · fun_prop
    · refine ContinuousOn.mul (by fun_prop) (ContinuousOn.div continuousOn_const (by fun_prop) fun E hE => ?_)
      intro h0
      have h0' : r.energy = E := by linarith
      rcases hgap r hr with h | h
      · exact c1 (le_antisymm h (h0' ▸ hE.1))
      · exact c2 (le_antisymm (h0' ▸ hE.2) h)
  have T1 : T e₁ < 0 := by
    have := List.sum_lt_sum (l := rs) (fun r => term e₁ e₂ r e₁) (fun _ => 0) (fun r _ => ?_) ?_
    · simpa using this
    · unfold term
      split_ifs
      · have := mul_nonneg (mul_self_nonneg (r.width 0)) hsub.le
        linarith
      · simp
      · simp
    · obtain ⟨r, hr, h3, h4⟩ := h1
      refine ⟨r, hr, ?_⟩
      unfold term
      rw [if_pos h3]
      have := mul_pos (mul_self_pos.mpr h4) hsub
      linarith
  have T2 : 0 < T e₂ := by
    have := List.sum_lt_sum (l := rs) (fun _ => 0) (fun r => term e₁ e₂ r e₂) (fun r _ => ?_) ?_
    · simpa using this
    · unfold term
      split_ifs
      · simp
      · exact mul_nonneg (mul_self_nonneg (r.width 0)) hsub.le
      · simp
    · obtain ⟨r, hr, h3, h4⟩ := h2
      refine ⟨r, hr, ?_⟩
      unfold term
      rw [if_neg (by rw [h3]; exact he.ne'), if_pos h3]
      exact mul_pos (mul_self_pos.mpr h4) hsub
  obtain ⟨E, hE, h0⟩ := intermediate_value_Ioo he.le
    (f := fun E => T E * u E - (E - e₁) * (e₂ - E) * v E)
    ((hTc.mul hu).sub (ContinuousOn.mul (by fun_prop) hv))
    (show (0 : ℝ) ∈ Ioo _ _ by
      have a := mul_neg_of_neg_of_pos T1 (hpos e₁ ⟨le_rfl, he.le⟩)
      have b := mul_pos T2 (hpos e₂ ⟨he.le, le_rfl⟩)
      constructor
      · simpa using a
      · simpa using b)
  refine ⟨E, hE, ?_⟩
  have e : T E = (E - e₁) * (e₂ - E) * rFunction rs E := by
    rw [hT, rFunction, ← List.sum_map_mul_left]
    simp only [term_eq hE]
  simp only [e] at h0
  have hne : (E - e₁) * (e₂ - E) ≠ 0 := mul_ne_zero (by linarith [hE.1]) (by linarith [hE.2])
  refine mul_left_cancel₀ hne ?_
  linarith

section

variable {option : BoundaryOption} {K : Constants} {lib : CoulombLibrary} {c : Channel} {rs : List Resonance}
  {E : ℝ} {P S w phi : Fin [c].length → ℝ}

theorem logDerivative_one (hB : option = .constant → S 0 = c.boundary) :
    Spec.logDerivative option [c] P S 0 = I * P 0 := by
  cases option with
  | shiftFactor => rfl
  | constant =>
    have h := hB rfl
    have : Spec.logDerivative .constant [c] P S 0 = S 0 - c.boundary + I * P 0 := rfl
    rw [this, h]; ring

theorem rMatrix_one (hopen : ¬ c.belowThreshold E) (hel : ∀ r ∈ rs, r.eliminated = 0) :
    Spec.rMatrix [c] rs E 0 0 = rFunction rs E := by
  have ha (r : Resonance) : Spec.amplitude [c] E r 0 = r.width 0 := if_neg hopen
  have hl (l : List ℝ) : ((l.sum : ℝ) : ℂ) = (l.map fun x : ℝ => (x : ℂ)).sum := map_list_sum ofRealHom l
  rw [Spec.rMatrix, Matrix.of_apply, rFunction, hl, List.map_map]
  congr 1
  refine List.map_congr_left fun r hr => ?_
  rw [ha, hel r hr]
  simp

theorem tMatrix_one (hopen : ¬ c.belowThreshold E) (hel : ∀ r ∈ rs, r.eliminated = 0)
    (hB : option = .constant → S 0 = c.boundary) (hP : 0 ≤ P 0)
    (hdet : (Spec.levelDenominator option [c] rs E P S).det ≠ 0) :
    Spec.tMatrix option [c] rs E P S 0 0 * (1 - I * (P 0 * rFunction rs E : ℝ)) = (P 0 * rFunction rs E : ℝ) := by
  set D := Spec.levelDenominator option [c] rs E P S with hD
  set R := Spec.rMatrix [c] rs E with hR
  have h := congrFun (congrFun (Matrix.mul_nonsing_inv_cancel_left D R (isUnit_iff_ne_zero.mpr hdet)) 0) 0
  rw [Matrix.mul_apply] at h
  have hs (f : Fin [c].length → ℂ) : ∑ i, f i = f 0 := Fin.sum_univ_one f
  rw [hs] at h
  have d0 : D 0 0 = 1 - R 0 0 * (I * P 0) := by
    rw [hD, Spec.levelDenominator, Matrix.sub_apply, Matrix.mul_diagonal, logDerivative_one hB, Matrix.one_apply_eq]
  rw [d0, hR, rMatrix_one hopen hel, ← hR] at h
  have hq : (Real.sqrt (P 0) : ℂ) * Real.sqrt (P 0) = P 0 := by
    rw [← ofReal_mul, Real.mul_self_sqrt hP]
  rw [Spec.tMatrix, Matrix.of_apply, ← hD, ← hR]
  push_cast
  linear_combination (P 0 : ℂ) * h + (D⁻¹ * R) 0 0 * (1 - I * (P 0 * (rFunction rs E : ℂ))) * hq

/-- The collision matrix of one channel, `(1 + i x)/(1 - i x) exp(-2 i φ)`. -/
theorem collision_one (hopen : ¬ c.belowThreshold E) (hel : ∀ r ∈ rs, r.eliminated = 0)
    (hB : option = .constant → S 0 = c.boundary) (hP : 0 ≤ P 0) (hw : w 0 = 0)
    (hdet : (Spec.levelDenominator option [c] rs E P S).det ≠ 0) :
    Spec.collision (Spec.tMatrix option [c] rs E P S) w phi 0 0 * (1 - I * (P 0 * rFunction rs E : ℝ))
      = exp (-(2 * phi 0 * I)) * (1 + I * (P 0 * rFunction rs E : ℝ)) := by
  have h := tMatrix_one hopen hel hB hP hdet
  have e : exp (-(2 * phi 0 * I)) = exp (I * (w 0 - phi 0)) * exp (I * (w 0 - phi 0)) := by
    rw [← exp_add, hw]; congr 1; push_cast; ring
  rw [Spec.collision, if_pos rfl, e]
  linear_combination 2 * I * exp (I * (w 0 - phi 0)) * exp (I * (w 0 - phi 0)) * h

theorem denominator_ne (x : ℝ) : (1 - I * x : ℂ) ≠ 0 := by
  intro h
  have := congrArg Complex.re h
  simp at this

/-- Where the phase of the resonances cancels that of the hard sphere nothing happens. -/
theorem collision_zero {U : ℂ} {φ x : ℝ} (h : U * (1 - I * x) = exp (-(2 * φ * I)) * (1 + I * x))
    (hx : x * Real.cos φ = Real.sin φ) : U = 1 := by
  have hc : Real.cos φ ≠ 0 := by
    intro h0
    have := Real.sin_sq_add_cos_sq φ
    rw [← hx, h0] at this
    norm_num at this
  have h1 : (x : ℂ) * Complex.cos φ = Complex.sin φ := by exact_mod_cast hx
  have hc' : Complex.cos φ ≠ 0 := by exact_mod_cast hc
  have e1 : exp (φ * I) = Complex.cos φ * (1 + I * x) := by
    rw [exp_mul_I, ← h1]; ring
  have e2 : exp (-(φ * I)) = Complex.cos φ * (1 - I * x) := by
    rw [← neg_mul, exp_mul_I, Complex.cos_neg, Complex.sin_neg, ← h1]; ring
  have e3 : exp (-(2 * φ * I)) = exp (-(φ * I)) * exp (-(φ * I)) := by rw [← exp_add]; congr 1; ring
  have e4 : exp (-(φ * I)) * exp (φ * I) = 1 := by rw [← exp_add, neg_add_cancel, exp_zero]
  refine mul_right_cancel₀ (mul_ne_zero (denominator_ne x) hc') ?_
  linear_combination Complex.cos φ * h + exp (-(φ * I)) * e4 + Complex.cos φ * (1 + I * x) * e3
    - exp (-(φ * I)) ^ 2 * e1 + e2

/-- Where both phases together are a right angle scattering is strongest. -/
theorem collision_max {U : ℂ} {φ x : ℝ} (h : U * (1 - I * x) = exp (-(2 * φ * I)) * (1 + I * x))
    (hx : x * Real.sin φ = -Real.cos φ) : U = -1 := by
  have hs : Real.sin φ ≠ 0 := by
    intro h0
    have := Real.sin_sq_add_cos_sq φ
    rw [h0, mul_zero] at hx
    have hc : Real.cos φ = 0 := by linarith
    rw [h0, hc] at this
    norm_num at this
  have h1 : (x : ℂ) * Complex.sin φ = -Complex.cos φ := by exact_mod_cast hx
  have hs' : Complex.sin φ ≠ 0 := by exact_mod_cast hs
  have e1 : exp (φ * I) = I * Complex.sin φ * (1 + I * x) := by
    rw [exp_mul_I]
    linear_combination h1 - (x : ℂ) * Complex.sin φ * I_sq
  have e2 : exp (-(φ * I)) = -(I * Complex.sin φ * (1 - I * x)) := by
    rw [← neg_mul, exp_mul_I, Complex.cos_neg, Complex.sin_neg]
    linear_combination h1 - (x : ℂ) * Complex.sin φ * I_sq
  have e3 : exp (-(2 * φ * I)) = exp (-(φ * I)) * exp (-(φ * I)) := by rw [← exp_add]; congr 1; ring
  have e4 : exp (-(φ * I)) * exp (φ * I) = 1 := by rw [← exp_add, neg_add_cancel, exp_zero]
  refine mul_right_cancel₀ (mul_ne_zero (denominator_ne x) (mul_ne_zero I_ne_zero hs')) ?_
  linear_combination I * Complex.sin φ * h + exp (-(φ * I)) * e4 + I * Complex.sin φ * (1 + I * x) * e3
    - exp (-(φ * I)) ^ 2 * e1 + e2

/-- What a group of one channel contributes to the scattering if no flux is lost. -/
theorem contribution_one {U : ℂ} (hU : Spec.collision (Spec.tMatrix option [c] rs E P S) w phi 0 0 = U)
    (hw : w 0 = 0) (hi : c.isIncident = true) (hn : normSq U = 1) :
    Spec.contribution option K [c] rs E P S w phi c.reaction
      = Real.pi / c.waveNumber K E ^ 2 * c.spinFactor * normSq (1 - U) := by
  have hs (f : Fin [c].length → ℝ) : ∑ i, f i = f 0 := Fin.sum_univ_one f
  have h0 : ([c] : List Channel)[(0 : Fin [c].length)] = c := rfl
  have hf : Spec.incidentFactor K [c] E = Real.pi / c.waveNumber K E ^ 2 * c.spinFactor := by
    rw [Spec.incidentFactor, List.find?_cons_of_pos hi]
  simp only [Spec.contribution]
  rw [hs, hs, h0, if_pos hi, if_pos rfl, Spec.partialCrossSection, Spec.captureCrossSection, hs, hU, hn, if_pos rfl,
    hw, hf]
  simp

end

end Verif.Interference
