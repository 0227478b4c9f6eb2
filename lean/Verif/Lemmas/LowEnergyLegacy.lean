import Verif.Spec.LowEnergyLegacy
import Verif.Lemmas.LowEnergy
import Verif.Lemmas.ContinuityLegacy
import Verif.Props.LegacyFormula

/-!
# The Breit-Wigner formulas at very low energies
-/

namespace Verif

open Filter Topology Complex

/-- How the functions of a partial wave behave as the energy approaches zero. -/
structure SlowWave (P Q S φ : ℝ → ℝ) (α β q s : ℝ) : Prop where
  penetrability : Tendsto (fun E => P E / Real.sqrt E) (𝓝[>] 0) (𝓝 α)
  competition : Tendsto Q (𝓝[>] 0) (𝓝 q)
  shiftFactor : Tendsto S (𝓝[>] 0) (𝓝 s)
  phase : Tendsto (fun E => (exp (2 * I * φ E) - 1) / Real.sqrt E) (𝓝[>] 0) (𝓝 (2 * I * β))

theorem root_vanishes : Tendsto Real.sqrt (𝓝[>] 0) (𝓝 0) := by
  have := (Real.continuous_sqrt.tendsto 0).mono_left (nhdsWithin_le_nhds (s := Set.Ioi 0))
  rwa [Real.sqrt_zero] at this

namespace SlowWave

variable {P Q S φ : ℝ → ℝ} {α β q s : ℝ}

theorem vanishes (h : SlowWave P Q S φ α β q s) : Tendsto P (𝓝[>] 0) (𝓝 0) := by
  have h2 := h.penetrability.mul root_vanishes
  rw [mul_zero] at h2
  refine h2.congr' ?_
  filter_upwards [self_mem_nhdsWithin] with E h0
  have := (Real.sqrt_pos.mpr (Set.mem_Ioi.mp h0)).ne'
  field_simp

theorem width (h : SlowWave P Q S φ α β q s) (x : Spec.Parameters) :
    Tendsto (fun E => x.neutronWidth (P E) / Real.sqrt E) (𝓝[>] 0)
      (𝓝 (α * (x.elastic / x.penetrability))) := by
  refine (h.penetrability.mul_const (x.elastic / x.penetrability)).congr fun E => ?_
  unfold Spec.Parameters.neutronWidth
  ring

theorem total (h : SlowWave P Q S φ α β q s) (x : Spec.Parameters) :
    Tendsto (fun E => x.totalWidth (P E) (Q E)) (𝓝[>] 0) (𝓝 (x.totalWidth 0 q)) := by
  unfold Spec.Parameters.totalWidth Spec.Parameters.neutronWidth
  exact ((((h.vanishes.const_mul _).div_const _).add_const _).add_const _).add
    ((h.competition.const_mul _).div_const _)

theorem position (h : SlowWave P Q S φ α β q s) (x : Spec.Parameters) :
    Tendsto (fun E => x.position (S E)) (𝓝[>] 0) (𝓝 (x.position s)) := by
  unfold Spec.Parameters.position
  exact (((h.shiftFactor.const_sub _).div_const _).mul_const _).const_add _

theorem denominator (h : SlowWave P Q S φ α β q s) (x : Spec.Parameters) :
    Tendsto (fun E => x.denominator E (P E) (Q E) (S E)) (𝓝[>] 0) (𝓝 (x.denominator 0 0 q s)) := by
  unfold Spec.Parameters.denominator
  have hE : Tendsto (fun E : ℝ => E) (𝓝[>] 0) (𝓝 0) := nhdsWithin_le_nhds
  exact ((hE.sub (h.position x)).pow 2).add (((h.total x).pow 2).div_const 4)

theorem reaction (h : SlowWave P Q S φ α β q s) {x : Spec.Parameters} (hx : x.denominator 0 0 q s ≠ 0) (w : ℝ) :
    Tendsto (fun E => x.neutronWidth (P E) * w / x.denominator E (P E) (Q E) (S E) / Real.sqrt E) (𝓝[>] 0)
      (𝓝 (α * (x.elastic / x.penetrability * w / x.denominator 0 0 q s))) := by
  have := ((h.width x).mul_const w).div (h.denominator x) hx
  rw [mul_assoc, mul_div_assoc] at this
  refine this.congr fun E => ?_
  rw [Pi.div_apply]
  simp only [div_eq_mul_inv]
  ring

theorem sum_map_tendsto {γ : Type*} {l : Filter ℝ} (xs : List γ) {f : γ → ℝ → ℝ} {y : γ → ℝ}
    (h : ∀ x ∈ xs, Tendsto (f x) l (𝓝 (y x))) :
    Tendsto (fun E => (xs.map fun x => f x E).sum) l (𝓝 (xs.map y).sum) := by
  induction xs with
  | nil => simpa using tendsto_const_nhds
  | cons x xs ih =>
    simp only [List.map_cons, List.sum_cons]
    exact (h x List.mem_cons_self).add (ih fun y hy => h y (List.mem_cons_of_mem _ hy))

theorem sum_map_div {γ : Type*} (xs : List γ) (f : γ → ℝ) (c : ℝ) :
    (xs.map f).sum / c = (xs.map fun x => f x / c).sum := by
  induction xs with
  | nil => simp
  | cons x xs ih => rw [List.map_cons, List.map_cons, List.sum_cons, List.sum_cons, add_div, ih]

theorem capture (h : SlowWave P Q S φ α β q s) {xs : List Spec.Parameters}
    (hx : ∀ x ∈ xs, x.denominator 0 0 q s ≠ 0) :
    Tendsto (fun E => (xs.map fun x => x.captureTerm E (P E) (Q E) (S E)).sum / Real.sqrt E) (𝓝[>] 0)
      (𝓝 (α * Spec.slowCapture q s xs)) := by
  unfold Spec.slowCapture
  rw [← List.sum_map_mul_left]
  simp only [sum_map_div]
  exact sum_map_tendsto xs fun x h' => h.reaction (hx x h') x.capture

theorem fission (h : SlowWave P Q S φ α β q s) {xs : List Spec.Parameters}
    (hx : ∀ x ∈ xs, x.denominator 0 0 q s ≠ 0) :
    Tendsto (fun E => (xs.map fun x => x.fissionTerm E (P E) (Q E) (S E)).sum / Real.sqrt E) (𝓝[>] 0)
      (𝓝 (α * Spec.slowFission q s xs)) := by
  unfold Spec.slowFission
  rw [← List.sum_map_mul_left]
  simp only [sum_map_div]
  exact sum_map_tendsto xs fun x h' => h.reaction (hx x h') x.fission

theorem level_ne {x : Spec.Parameters} {E p q s : ℝ} (h : x.denominator E p q s ≠ 0) :
    (x.position s : ℂ) - E - I * x.totalWidth p q / 2 ≠ 0 := by
  intro h0
  apply h
  unfold Spec.Parameters.denominator
  have h1 := congrArg Complex.re h0
  have h2 := congrArg Complex.im h0
  simp at h1 h2
  rw [h2, show E - x.position s = -(x.position s - E) by ring, h1]
  norm_num

/-- The amplitude to first order. -/
theorem amplitude (h : SlowWave P Q S φ α β q s) (xs : List Spec.Parameters)
    (hx : ∀ x ∈ xs, x.denominator 0 0 q s ≠ 0) :
    Tendsto (fun E => Spec.levelSum E (xs.map fun x =>
        (⟨x.neutronWidth (P E), x.totalWidth (P E) (Q E), x.position (S E)⟩ : Spec.Level)) / Real.sqrt E) (𝓝[>] 0)
      (𝓝 (α * Spec.levelSum 0 (xs.map (Spec.slowLevel q s)))) := by
  unfold Spec.levelSum
  simp only [List.map_map, Function.comp_def]
  induction xs with
  | nil => simp
  | cons x xs ih =>
    simp only [List.map_cons, List.sum_cons, mul_add, add_div]
    refine Tendsto.add ?_ (ih fun y hy => hx y (List.mem_cons_of_mem _ hy))
    have hE : Tendsto (fun E : ℝ => (E : ℂ)) (𝓝[>] 0) (𝓝 ((0 : ℝ) : ℂ)) :=
      (continuous_ofReal.tendsto _).mono_left nhdsWithin_le_nhds
    have h1 := (continuous_ofReal.tendsto _).comp (h.width x)
    have h2 := (continuous_ofReal.tendsto _).comp (h.position x)
    have h3 := ((continuous_ofReal.tendsto _).comp (h.total x)).const_mul I
    have h4 := h1.div ((h2.sub hE).sub (h3.div_const 2)) (level_ne (hx x List.mem_cons_self))
    unfold Spec.slowLevel
    dsimp only
    rw [ofReal_mul, mul_div_assoc] at h4
    refine h4.congr fun E => ?_
    rw [Pi.div_apply]
    simp only [Function.comp_apply, ofReal_div]
    exact div_right_comm _ _ _

theorem inverse_phase (h : SlowWave P Q S φ α β q s) :
    Tendsto (fun E => exp (-(2 * I * φ E))) (𝓝[>] 0) (𝓝 1) ∧
    Tendsto (fun E => (1 - exp (-(2 * I * φ E))) / Real.sqrt E) (𝓝[>] 0) (𝓝 (2 * I * β)) := by
  have hr := (continuous_ofReal.tendsto _).comp root_vanishes
  have h1 := (h.phase.mul hr).add_const 1
  rw [ofReal_zero, mul_zero, zero_add] at h1
  have h2 : Tendsto (fun E => exp (2 * I * φ E)) (𝓝[>] 0) (𝓝 1) := by
    refine h1.congr' ?_
    filter_upwards [self_mem_nhdsWithin] with E h0
    have : (Real.sqrt E : ℂ) ≠ 0 := ofReal_ne_zero.mpr (Real.sqrt_pos.mpr (Set.mem_Ioi.mp h0)).ne'
    simp only [Function.comp_apply]
    field_simp
    ring
  have h3 : Tendsto (fun E => exp (-(2 * I * φ E))) (𝓝[>] 0) (𝓝 1) := by
    have := h2.inv₀ one_ne_zero
    rw [inv_one] at this
    exact this.congr fun E => (Complex.exp_neg _).symm
  refine ⟨h3, ?_⟩
  have h4 := h.phase.mul h3
  rw [mul_one] at h4
  refine h4.congr fun E => ?_
  have : exp (2 * I * φ E) * exp (-(2 * I * φ E)) = 1 := by rw [← Complex.exp_add, add_neg_cancel, exp_zero]
  rw [div_mul_eq_mul_div, sub_mul, this, one_mul]

/-- Potential scattering. -/
theorem sin_sq (h : SlowWave P Q S φ α β q s) :
    Tendsto (fun E => Real.sin (φ E) ^ 2 / E) (𝓝[>] 0) (𝓝 (β ^ 2)) := by
  have h1 := ((continuous_normSq.tendsto _).comp h.phase).div_const 4
  have e : normSq (2 * I * (β : ℂ)) / 4 = β ^ 2 := by
    rw [normSq_mul, normSq_mul, normSq_I, show (2 : ℂ) = ((2 : ℝ) : ℂ) by norm_num, normSq_ofReal, normSq_ofReal]
    ring
  rw [e] at h1
  refine h1.congr' ?_
  filter_upwards [self_mem_nhdsWithin] with E h0
  simp only [Function.comp_apply]
  rw [normSq_div, normSq_ofReal, Real.mul_self_sqrt (Set.mem_Ioi.mp h0).le]
  have e2 : normSq (exp (2 * I * φ E) - 1) = 4 * Real.sin (φ E) ^ 2 := by
    rw [show (2 * I * (φ E : ℂ)) = ((2 * φ E : ℝ) : ℂ) * I by push_cast; ring, normSq_apply]
    simp only [sub_re, sub_im, one_re, one_im, sub_zero, exp_ofReal_mul_I_re, exp_ofReal_mul_I_im]
    have h2 := Real.sin_sq_add_cos_sq (2 * φ E)
    have h3 : Real.cos (2 * φ E) = 1 - 2 * Real.sin (φ E) ^ 2 := by
      rw [Real.cos_two_mul, Real.cos_sq']; ring
    nlinarith
  rw [e2]
  ring

/-- Elastic scattering of any number of levels. -/
theorem elastic (h : SlowWave P Q S φ α β q s) {xs : List Spec.Parameters}
    (hx : ∀ x ∈ xs, x.denominator 0 0 q s ≠ 0) :
    Tendsto (fun E => (normSq (1 - Spec.levelCollision (φ E) E (xs.map fun x =>
        ⟨x.neutronWidth (P E), x.totalWidth (P E) (Q E), x.position (S E)⟩)) - 4 * Real.sin (φ E) ^ 2) / E)
      (𝓝[>] 0) (𝓝 (4 * (normSq ((β : ℂ) - α / 2 * Spec.levelSum 0 (xs.map (Spec.slowLevel q s))) - β ^ 2))) := by
  obtain ⟨h1, h2⟩ := h.inverse_phase
  have h3 := h2.sub ((h1.mul_const I).mul (h.amplitude xs hx))
  have h4 := ((continuous_normSq.tendsto _).comp h3).sub (h.sin_sq.const_mul 4)
  generalize Spec.levelSum 0 (xs.map (Spec.slowLevel q s)) = Λ at h4 ⊢
  have e : normSq (2 * I * (β : ℂ) - 1 * I * (α * Λ)) - 4 * β ^ 2
      = 4 * (normSq ((β : ℂ) - α / 2 * Λ) - β ^ 2) := by
    rw [show 2 * I * (β : ℂ) - 1 * I * (α * Λ) = ((2 : ℝ) : ℂ) * I * ((β : ℂ) - α / 2 * Λ) by push_cast; ring,
      normSq_mul, normSq_mul, normSq_I, normSq_ofReal]
    ring
  rw [e] at h4
  refine h4.congr' ?_
  filter_upwards [self_mem_nhdsWithin] with E h0
  simp only [Function.comp_apply]
  have hs0 : (Real.sqrt E : ℂ) ≠ 0 := ofReal_ne_zero.mpr (Real.sqrt_pos.mpr h0).ne'
  unfold Spec.levelCollision
  generalize Spec.levelSum E _ = X
  rw [show (1 - exp (-(2 * I * (φ E : ℂ)))) / (Real.sqrt E : ℂ) - exp (-(2 * I * (φ E : ℂ))) * I
      * (X / (Real.sqrt E : ℂ)) = (1 - exp (-(2 * I * (φ E : ℂ))) * (1 + I * X)) / (Real.sqrt E : ℂ) by
    field_simp; ring, normSq_div, normSq_ofReal, Real.mul_self_sqrt (Set.mem_Ioi.mp h0).le]
  ring

end SlowWave

/-- The single-level term of elastic scattering. -/
theorem elasticTerm_eq {x : Spec.Parameters} {E p q s φ : ℝ} (h : x.denominator E p q s ≠ 0) :
    x.elasticTerm E p q s φ = normSq (1 - Spec.levelCollision φ E
      [⟨x.neutronWidth p, x.totalWidth p q, x.position s⟩]) - 4 * Real.sin φ ^ 2 := by
  rw [Spec.levelCollision, BreitWigner.amplitude_eq]
  swap
  · intro r hr
    obtain rfl := List.mem_singleton.mp hr
    exact h
  rw [BreitWigner.normSq_one_sub]
  simp only [List.map_cons, List.map_nil, List.sum_cons, List.sum_nil, add_zero]
  unfold Spec.Parameters.elasticTerm
  unfold Spec.Parameters.denominator at h ⊢
  have h2 := mul_inv_cancel₀ h
  simp only [div_eq_mul_inv (b := (E - x.position s) ^ 2 + x.totalWidth p q ^ 2 / 4)]
  generalize ((E - x.position s) ^ 2 + x.totalWidth p q ^ 2 / 4)⁻¹ = N at *
  linear_combination -(x.neutronWidth p ^ 2 * N) * h2

end Verif
