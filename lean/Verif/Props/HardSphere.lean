import Verif.Lemmas.HardSphereWave
import Mathlib.Analysis.Real.Pi.Bounds

/-!
# Properties C09-C13 and C51: penetrability, shift factor, phase shifts
-/

namespace Verif

open Spec Filter Topology

/-- C09: for `l = 0..4` penetrability and shift factor are those of the hard-sphere recursion. -/
theorem C09_recursion (lib : CoulombLibrary) (l : ℕ) (hl : l ≤ 4) (ρ η : ℝ) :
    calculatePenetrability lib .neutron l ρ η = .ok (hardSphere ρ l).1 ∧
    calculateShiftFactor lib .neutron l ρ η = .ok (hardSphere ρ l).2 := by
  rw [hardSphere_eq hl]
  exact ⟨calculatePenetrability_eq lib hl ρ η, calculateShiftFactor_eq lib hl ρ η⟩

/-- A concrete d-wave value: `rho = 1`. -/
example (lib : CoulombLibrary) : calculatePenetrability lib .neutron 2 1 0 = .ok (1 / 13) := by
  rw [calculatePenetrability_eq lib (by norm_num)]
  norm_num [hsP]

/-- C09: the penetrability is positive and at most `rho`; the shift factor lies between `-l` and 0. -/
theorem C09_bounds (lib : CoulombLibrary) (l : ℕ) (hl : l ≤ 4) (ρ η p s : ℝ) (hρ : 0 < ρ)
    (hp : calculatePenetrability lib .neutron l ρ η = .ok p)
    (hs : calculateShiftFactor lib .neutron l ρ η = .ok s) :
    0 < p ∧ p ≤ ρ ∧ -(l : ℝ) ≤ s ∧ s ≤ 0 := by
  rw [calculatePenetrability_eq lib hl] at hp
  rw [calculateShiftFactor_eq lib hl] at hs
  obtain rfl : hsP l ρ = p := by injection hp
  obtain rfl : hsS l ρ = s := by injection hs
  have h2 : 0 < ρ ^ 2 := by positivity
  have h4 : 0 < ρ ^ 4 := by positivity
  have h6 : 0 < ρ ^ 6 := by positivity
  have h8 : 0 < ρ ^ 8 := by positivity
  obtain h | h | h | h | h : l = 0 ∨ l = 1 ∨ l = 2 ∨ l = 3 ∨ l = 4 := by omega
  all_goals subst h; simp only [hsP, hsS, Nat.cast_zero, Nat.cast_one, Nat.cast_ofNat]
  · exact ⟨hρ, le_refl _, by norm_num, le_refl _⟩
  · have d := d1_pos ρ
    refine ⟨by positivity, ?_, ?_, ?_⟩
    · rw [div_le_iff₀ d]; nlinarith [pow_pos hρ 3]
    · rw [le_div_iff₀ d]; nlinarith
    · exact div_nonpos_of_nonpos_of_nonneg (by norm_num) d.le
  · have d := d2_pos ρ
    refine ⟨by positivity, ?_, ?_, ?_⟩
    · rw [div_le_iff₀ d]; nlinarith [pow_pos hρ 3]
    · rw [le_div_iff₀ d]; nlinarith
    · exact div_nonpos_of_nonpos_of_nonneg (neg_nonpos.mpr (by positivity)) d.le
  · have d := d3_pos ρ
    refine ⟨by positivity, ?_, ?_, ?_⟩
    · rw [div_le_iff₀ d]; nlinarith [pow_pos hρ 3, pow_pos hρ 5]
    · rw [le_div_iff₀ d]; nlinarith
    · exact div_nonpos_of_nonpos_of_nonneg (neg_nonpos.mpr (by positivity)) d.le
  · have d := d4_pos ρ
    refine ⟨by positivity, ?_, ?_, ?_⟩
    · rw [div_le_iff₀ d]; nlinarith [pow_pos hρ 3, pow_pos hρ 5, pow_pos hρ 7]
    · rw [le_div_iff₀ d]; nlinarith
    · exact div_nonpos_of_nonpos_of_nonneg (neg_nonpos.mpr (by positivity)) d.le

/-- C09: at a vanishing channel ratio the penetrability is 0 for every `l` and the shift factor
is `-l`. -/
theorem C09_at_zero (lib : CoulombLibrary) (l : ℕ) (hl : l ≤ 4) (η : ℝ) :
    calculatePenetrability lib .neutron l 0 η = .ok 0 ∧
    calculateShiftFactor lib .neutron l 0 η = .ok (-(l : ℝ)) := by
  rw [calculatePenetrability_eq lib hl, calculateShiftFactor_eq lib hl]
  obtain h | h | h | h | h : l = 0 ∨ l = 1 ∨ l = 2 ∨ l = 3 ∨ l = 4 := by omega
  all_goals subst h; constructor <;> norm_num [hsP, hsS]

/-- C09: the penetrability increases strictly with the channel ratio. -/
theorem C09_monotone (lib : CoulombLibrary) (l : ℕ) (hl : l ≤ 4) (ρ ρ' η p p' : ℝ) (hρ : 0 < ρ)
    (h : ρ < ρ')
    (hp : calculatePenetrability lib .neutron l ρ η = .ok p)
    (hp' : calculatePenetrability lib .neutron l ρ' η = .ok p') : p < p' := by
  rw [calculatePenetrability_eq lib hl] at hp hp'
  obtain rfl : hsP l ρ = p := by injection hp
  obtain rfl : hsP l ρ' = p' := by injection hp'
  have hρ' : 0 < ρ' := hρ.trans h
  have ht : ρ'⁻¹ < ρ⁻¹ := inv_strictAnti₀ hρ h
  have ht0 : 0 < ρ'⁻¹ := inv_pos.mpr hρ'
  obtain h | h | h | h | h : l = 0 ∨ l = 1 ∨ l = 2 ∨ l = 3 ∨ l = 4 := by omega
  · subst h; simpa [hsP]
  · subst h
    have e : ∀ r : ℝ, 0 < r → hsP 1 r = (r⁻¹ * (1 + r⁻¹ ^ 2))⁻¹ := by
      intro r hr; simp only [hsP]; have := d1_pos r; field_simp; ring
    rw [e _ hρ, e _ hρ']
    gcongr
  · subst h
    have e : ∀ r : ℝ, 0 < r → hsP 2 r = (r⁻¹ * (1 + 3 * r⁻¹ ^ 2 + 9 * r⁻¹ ^ 4))⁻¹ := by
      intro r hr; simp only [hsP]; have := d2_pos r; field_simp; ring
    rw [e _ hρ, e _ hρ']
    gcongr
  · subst h
    have e : ∀ r : ℝ, 0 < r →
        hsP 3 r = (r⁻¹ * (1 + 6 * r⁻¹ ^ 2 + 45 * r⁻¹ ^ 4 + 225 * r⁻¹ ^ 6))⁻¹ := by
      intro r hr; simp only [hsP]; have := d3_pos r; field_simp; ring
    rw [e _ hρ, e _ hρ']
    gcongr
  · subst h
    have e : ∀ r : ℝ, 0 < r →
        hsP 4 r
          = (r⁻¹ * (1 + 10 * r⁻¹ ^ 2 + 135 * r⁻¹ ^ 4 + 1575 * r⁻¹ ^ 6 + 11025 * r⁻¹ ^ 8))⁻¹ := by
      intro r hr; simp only [hsP]; have := d4_pos r; field_simp; ring
    rw [e _ hρ, e _ hρ']
    gcongr

/-- The bounds and the strict increase on a concrete p-wave pair. -/
example (lib : CoulombLibrary) : calculatePenetrability lib .neutron 1 1 0 = .ok (1 / 2) ∧
    calculatePenetrability lib .neutron 1 2 0 = .ok (8 / 5) := by
  rw [calculatePenetrability_eq lib (by norm_num), calculatePenetrability_eq lib (by norm_num)]
  norm_num [hsP]

open Complex in
/-- C09/C11, from first principles: for `l = 0..4` there is a solution `u` (with derivative `v`) of
the free radial wave equation `u'' = (l(l+1)/r² - 1) u` on `r > 0` that is an outgoing wave
(`u(r) exp(-ir)` tends to a non-zero constant), such that at every `r > 0` the computed shift factor
and penetrability are the real and imaginary parts of `r u'/u`, and the computed phase shift is the
phase of `u`, up to multiples of pi. -/
theorem C09_outgoing_wave (lib : CoulombLibrary) (l : ℕ) (hl : l ≤ 4) :
    ∃ u v : ℝ → ℂ, ∃ c : ℂ, c ≠ 0 ∧ Tendsto (fun r : ℝ => u r * exp (-(I * r))) atTop (𝓝 c) ∧
      ∀ r : ℝ, 0 < r → u r ≠ 0 ∧ HasDerivAt u (v r) r ∧
        HasDerivAt v ((l * (l + 1) / (r : ℂ) ^ 2 - 1) * u r) r ∧
        ∀ η P S φ : ℝ, calculatePenetrability lib .neutron l r η = .ok P →
          calculateShiftFactor lib .neutron l r η = .ok S →
          calculatePhaseShift lib .neutron l r η = .ok φ →
          (S : ℂ) + I * P = r * v r / u r ∧
          exp (2 * I * φ) = u r / (starRingEnd ℂ) (u r) := by
  refine ⟨hsU l, hsU' l, (-I) ^ l, pow_ne_zero _ (neg_ne_zero.mpr I_ne_zero),
    hsU_tendsto hl, ?_⟩
  · intro r hr
    have hr' : (r : ℂ) ≠ 0 := by exact_mod_cast hr.ne'
    have hq : (hsQ l).eval (r : ℂ) ≠ 0 := by rw [hsQ_eval hl]; exact (hsXY_ne hl r).2
    have hu : hsU l r ≠ 0 :=
      mul_ne_zero (exp_ne_zero _) (div_ne_zero hq (pow_ne_zero _ hr'))
    refine ⟨hu, hasDerivAt_wave (hsQ l) l hr, ?_, ?_⟩
    · refine HasDerivAt.congr_deriv (hasDerivAt_wave (hsW l) (l + 1) hr) ?_
      have := congrArg (Polynomial.eval (r : ℂ)) (hsW_step hl)
      push_cast
      rw [this]
      simp only [Polynomial.eval_mul, Polynomial.eval_sub, Polynomial.eval_C, Polynomial.eval_pow,
        Polynomial.eval_X, hsU]
      field_simp
      ring
    · intro η P S φ hP hS hφ
      rw [calculatePenetrability_eq lib hl] at hP
      rw [calculateShiftFactor_eq lib hl] at hS
      obtain rfl : hsP l r = P := by injection hP
      obtain rfl : hsS l r = S := by injection hS
      constructor
      · rw [eq_div_iff hu]
        simp only [hsU, hsU', hsW_eval hl]
        field_simp
        ring
      · rw [exp_phase lib hl r η φ hφ]
        have hc : (starRingEnd ℂ) (hsU l r)
            = exp (-(I * r)) * ((hsY l r + I * hsX l r) / (r : ℂ) ^ l) := by
          simp only [hsU, map_mul, map_div₀, map_pow, conj_ofReal, hsQ_eval hl, map_sub, conj_I,
            ← exp_conj]
          congr 2
          · ring
          · ring
        rw [hc]
        simp only [hsU, hsQ_eval hl]
        have h1 := (hsXY_ne hl r).1
        have h2 := (hsXY_ne hl r).2
        rw [show (2 : ℂ) * I * r = I * r + I * r by ring, exp_add, exp_neg]
        have := exp_ne_zero (I * r)
        field_simp

/-- C10: penetrability, shift factor and phase shift of a neutron channel throw exactly when
`l > 4`, and otherwise return a value; the other channel types never throw. -/
theorem C10_rejection (lib : CoulombLibrary) (l : ℕ) (ρ η : ℝ) :
    (calculatePenetrability lib .neutron l ρ η = .error .throws ↔ 4 < l) ∧
    (calculateShiftFactor lib .neutron l ρ η = .error .throws ↔ 4 < l) ∧
    (calculatePhaseShift lib .neutron l ρ η = .error .throws ↔ 4 < l) ∧
    (∀ e, calculatePenetrability lib .neutron l ρ η = .error e → e = .throws) ∧
    (∀ e, calculateShiftFactor lib .neutron l ρ η = .error e → e = .throws) ∧
    (∀ e, calculatePhaseShift lib .neutron l ρ η = .error e → e = .throws) := by
  by_cases hl : l ≤ 4
  · rw [calculatePenetrability_eq lib hl, calculateShiftFactor_eq lib hl,
      calculatePhaseShift_eq lib hl]
    simp [hl]
  · obtain ⟨m, rfl⟩ : ∃ m, l = m + 5 := ⟨l - 5, by omega⟩
    simp [calculatePenetrability, calculateShiftFactor, calculatePhaseShift]

/-- C10, older code: both functions throw exactly when `L` is not one of 0..4. -/
theorem C10_rejection_old (L : ℤ) (ρ : ℝ) :
    (oldPenetrationShift L ρ = .error .throws ↔ (L < 0 ∨ 4 < L)) ∧
    (oldPhaseShift L ρ = .error .throws ↔ (L < 0 ∨ 4 < L)) ∧
    (∀ e, oldPenetrationShift L ρ = .error e → e = .throws) ∧
    (∀ e, oldPhaseShift L ρ = .error e → e = .throws) := by
  by_cases h : L < 0 ∨ 4 < L
  · have h0 : L ≠ 0 := by omega
    have h1 : L ≠ 1 := by omega
    have h2 : L ≠ 2 := by omega
    have h3 : L ≠ 3 := by omega
    have h4 : L ≠ 4 := by omega
    simp [oldPenetrationShift, oldPhaseShift, h0, h1, h2, h3, h4, h]
  · obtain h | h | h | h | h : L = 0 ∨ L = 1 ∨ L = 2 ∨ L = 3 ∨ L = 4 := by omega
    all_goals subst h; simp [oldPenetrationShift, oldPhaseShift]

example (lib : CoulombLibrary) : calculatePenetrability lib .neutron 5 1 0 = .error .throws := rfl

open Complex in
/-- C11: the phase factor `exp(2i phi_l)` built from the computed phase shift obeys the hard-sphere
recursion, at every channel ratio including those where the code divides by zero. -/
theorem C11_phase_recursion (lib : CoulombLibrary) (l : ℕ) (hl : l ≤ 4) (ρ η φ : ℝ)
    (h : calculatePhaseShift lib .neutron l ρ η = .ok φ) :
    exp (2 * I * φ) = hardSpherePhase ρ l := by
  rw [hardSpherePhase_eq hl, exp_phase lib hl ρ η φ h]

/-- The computed phase shift exists for all `l ≤ 4`; at `rho = sqrt 3` the d-wave one is
`sqrt 3 - pi/2`. -/
example (lib : CoulombLibrary) (η : ℝ) :
    calculatePhaseShift lib .neutron 2 (Real.sqrt 3) η = .ok (Real.sqrt 3 - Real.pi / 2) := by
  rw [calculatePhaseShift_eq lib (by norm_num)]
  simp [hsX, hsY, atanQuotient]

/-- C12, as documented: the Coulomb phase shift is a sum of arctangents. -/
def C12_claim : Prop := ∀ (l : ℕ) (η : ℝ),
  calculateCoulombPhaseShift .charged l η
    = .ok ((List.range l).map fun n => Real.arctan (η / (n + 1 : ℕ))).sum

/-- C12 is false: the code sums reciprocal tangents. At `l = 1`, `eta = pi/4` the documented value is
`arctan(pi/4) < pi/4 < 1` whereas the code returns 1. -/
theorem C12_disproved : ¬ C12_claim := by
  intro h
  have h1 := h 1 (Real.pi / 4)
  simp only [calculateCoulombPhaseShift, List.range_one, List.map_cons, List.map_nil,
    List.sum_cons, List.sum_nil, List.mem_singleton, exists_eq_left,
    Nat.cast_one, div_one, Real.tan_pi_div_four, add_zero, one_ne_zero, if_false, zero_add] at h1
  have h2 : (1 : ℝ) = Real.arctan (Real.pi / 4) := by injection h1
  have h3 : Real.arctan (Real.pi / 4) < Real.arctan 1 :=
    Real.arctan_strictMono (by nlinarith [Real.pi_lt_d2])
  rw [Real.arctan_one] at h3
  nlinarith [Real.pi_lt_d2]

/-- C12, the part that holds: the Coulomb phase shift is 0 for channels that are not charged-particle
channels and for `l = 0`. Missing: the values for `l > 0`. -/
theorem C12_partial (t : ChannelType) (l : ℕ) (η : ℝ) (h : t ≠ .charged ∨ l = 0) :
    calculateCoulombPhaseShift t l η = .ok 0 := by
  rcases h with h | h
  · cases t <;> first | rfl | exact absurd rfl h
  · subst h; cases t <;> simp [calculateCoulombPhaseShift]

/-- C12: moreover the code's value is not even finite in the neutral limit, where the documented one
is 0: a charged-particle channel with `l > 0` and a Sommerfeld parameter of zero. -/
theorem C12_neutral_limit (l : ℕ) (hl : 0 < l) :
    calculateCoulombPhaseShift .charged l 0 = .error .notFinite := by
  simp only [calculateCoulombPhaseShift]
  rw [if_pos]
  exact ⟨0, by simpa using hl, by simp⟩

/-- C13: for `L = 0..4` the older functions give the same shift factor and phase shift as the newer
ones at every channel ratio, and the same penetrability at positive ones; the older penetrability is
zero at the others. -/
theorem C13_old_equals_new (lib : CoulombLibrary) (l : ℕ) (hl : l ≤ 4) (ρ η : ℝ) :
    ∃ p s φ : ℝ,
      calculatePenetrability lib .neutron l ρ η = .ok p ∧
      calculateShiftFactor lib .neutron l ρ η = .ok s ∧
      calculatePhaseShift lib .neutron l ρ η = .ok φ ∧
      oldPenetrationShift l ρ = .ok (if 0 < ρ then p else 0, s) ∧
      oldPhaseShift l ρ = .ok φ := by
  refine ⟨_, _, _, calculatePenetrability_eq lib hl ρ η, calculateShiftFactor_eq lib hl ρ η,
    calculatePhaseShift_eq lib hl ρ η, ?_, ?_⟩
  · obtain h | h | h | h | h : l = 0 ∨ l = 1 ∨ l = 2 ∨ l = 3 ∨ l = 4 := by omega
    all_goals
      subst h
      simp only [oldPenetrationShift, hsP, hsS, Nat.cast_zero, Nat.cast_one, Nat.cast_ofNat,
        if_true, gt_iff_lt]
      norm_num
      try constructor
    all_goals (try split_ifs) <;> ring_nf
  · obtain h | h | h | h | h : l = 0 ∨ l = 1 ∨ l = 2 ∨ l = 3 ∨ l = 4 := by omega
    all_goals
      subst h
      simp only [oldPhaseShift, atanProductQuotient, atanQuotient, hsX, hsY, Nat.cast_zero,
        Nat.cast_one, Nat.cast_ofNat, if_true]
      norm_num
    all_goals ring_nf

/-- C51, as one would expect it: the phase shift of a charged-particle channel is the phase of
`G + iF`, up to multiples of pi. -/
def C51_claim : Prop := ∀ (lib : CoulombLibrary) (l : ℕ) (ρ η φ : ℝ) (w : WaveFunctions),
  lib l ρ η = .ok w → (w.G ≠ 0 ∨ w.F ≠ 0) →
  calculatePhaseShift lib .charged l ρ η = .ok φ →
  Complex.exp (2 * Complex.I * φ)
    = (w.G + Complex.I * w.F) / (w.G - Complex.I * w.F)


/-- C51, exact extent: the phase factor is right exactly when `F ≥ 0` or `G = 0`. -/
theorem C51_exact_extent (lib : CoulombLibrary) (l : ℕ) (ρ η φ : ℝ) (w : WaveFunctions)
    (hw : lib l ρ η = .ok w) (hne : w.G ≠ 0 ∨ w.F ≠ 0)
    (h : calculatePhaseShift lib .charged l ρ η = .ok φ) :
    Complex.exp (2 * Complex.I * φ)
      = (w.G + Complex.I * w.F) / (w.G - Complex.I * w.F)
    ↔ (0 ≤ w.F ∨ w.G = 0) := by
  obtain ⟨G, F, dG, dF⟩ := w
  simp only at hne ⊢
  have hnot : ¬ (F = 0 ∧ G = 0) := by tauto
  have hpos : 0 < F * F + G * G := by
    rcases hne with h | h
    · have := mul_self_pos.mpr h; nlinarith [mul_self_nonneg F]
    · have := mul_self_pos.mpr h; nlinarith [mul_self_nonneg G]
  simp only [calculatePhaseShift, hw, Bind.bind, Except.bind, if_neg hnot] at h
  obtain rfl : _ = φ := by injection h
  have hN : 0 < Real.sqrt (F * F + G * G) := Real.sqrt_pos.mpr hpos
  have hsq : Real.sqrt (F * F + G * G) ^ 2 = F * F + G * G := Real.sq_sqrt hpos.le
  rw [exp_two_I_arccos G F _ hN hsq]
  have hNc : ((Real.sqrt (F * F + G * G) : ℝ) : ℂ) ^ 2 = (F : ℂ) * F + G * G := by
    rw [← Complex.ofReal_pow, hsq]; push_cast; rfl
  have hpc : (F : ℂ) * F + G * G ≠ 0 := by
    rw [show (F : ℂ) * F + G * G = ((F * F + G * G : ℝ) : ℂ) by push_cast; rfl]
    exact_mod_cast hpos.ne'
  have hfac : ((G : ℂ) + Complex.I * F) * (G - Complex.I * F) = F * F + G * G := by
    linear_combination (-(F : ℂ) ^ 2) * Complex.I_sq
  have hd : (G : ℂ) - Complex.I * F ≠ 0 := fun h0 => hpc (by rw [← hfac, h0, mul_zero])
  have hn : (G : ℂ) + Complex.I * F ≠ 0 := fun h0 => hpc (by rw [← hfac, h0, zero_mul])
  rw [hNc, ← hfac, div_eq_div_iff (mul_ne_zero hn hd) hd]
  rw [show ((G : ℂ) + Complex.I * F) * ((G + Complex.I * F) * (G - Complex.I * F))
    = (G + Complex.I * F) ^ 2 * (G - Complex.I * F) by ring, mul_left_inj' hd]
  constructor
  · intro h
    have him := congrArg Complex.im h
    simp only [sq, Complex.mul_im, Complex.add_im, Complex.add_re, Complex.mul_re,
      Complex.ofReal_re, Complex.ofReal_im, Complex.I_re, Complex.I_im] at him
    by_contra hcon
    push Not at hcon
    rw [abs_of_neg hcon.1] at him
    have : G * F = 0 := by nlinarith
    rcases mul_eq_zero.mp this with h | h
    · exact hcon.2 h
    · rw [h] at hcon; exact lt_irrefl _ hcon.1
  · rintro (h | h)
    · rw [abs_of_nonneg h]
    · rw [h]
      have : ((|F| : ℝ) : ℂ) ^ 2 = (F : ℂ) ^ 2 := by
        rw [← Complex.ofReal_pow, sq_abs, Complex.ofReal_pow]
      simp only [Complex.ofReal_zero, zero_add, mul_pow, this]

/-- C51 is false: `std::acos` loses the sign of `F`. The witness uses the exact wave functions for
`l = 0` and no charge, `F = sin rho` and `G = cos rho`, at `rho = 5 pi/4`; the same happens wherever
`F < 0` and `G ≠ 0`. -/
theorem C51_disproved : ¬ C51_claim := by
  intro h
  let lib : CoulombLibrary := fun _ r _ => .ok ⟨Real.cos r, Real.sin r, -Real.sin r, Real.cos r⟩
  have hs : Real.sin (5 * Real.pi / 4) = -(Real.sqrt 2 / 2) := by
    rw [show 5 * Real.pi / 4 = Real.pi / 4 + Real.pi by ring, Real.sin_add_pi, Real.sin_pi_div_four]
  have hc : Real.cos (5 * Real.pi / 4) = -(Real.sqrt 2 / 2) := by
    rw [show 5 * Real.pi / 4 = Real.pi / 4 + Real.pi by ring, Real.cos_add_pi, Real.cos_pi_div_four]
  have hpos : 0 < Real.sqrt 2 / 2 := by positivity
  have hG : Real.cos (5 * Real.pi / 4) ≠ 0 := by
    rw [hc]; linarith
  have hF : ¬ (0 ≤ Real.sin (5 * Real.pi / 4) ∨ Real.cos (5 * Real.pi / 4) = 0) := by
    rintro (h | h)
    · rw [hs] at h; linarith
    · exact hG h
  exact hF ((C51_exact_extent lib 0 (5 * Real.pi / 4) 0 _ _ rfl (Or.inl hG) rfl).mp
    (h lib 0 (5 * Real.pi / 4) 0 _ _ rfl (Or.inl hG) rfl))

/-- C51, the part that holds. Missing: wave functions with `F < 0`. -/
theorem C51_partial (lib : CoulombLibrary) (l : ℕ) (ρ η φ : ℝ) (w : WaveFunctions)
    (hw : lib l ρ η = .ok w) (hne : w.G ≠ 0 ∨ w.F ≠ 0) (hF : 0 ≤ w.F)
    (h : calculatePhaseShift lib .charged l ρ η = .ok φ) :
    Complex.exp (2 * Complex.I * φ)
      = (w.G + Complex.I * w.F) / (w.G - Complex.I * w.F) :=
  (C51_exact_extent lib l ρ η φ w hw hne h).mpr (Or.inl hF)

end Verif
