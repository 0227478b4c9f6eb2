import Verif.Lemmas.CoulombStart
import Mathlib.Tactic.IntervalCases

/-!
# Properties C61, C62 and C64: the Coulomb wave functions

`coulombWaveFunctions` is the algorithm of the code, in exact real arithmetic.
-/

namespace Verif

open Spec

/-- What a successful call returns. -/
theorem coulomb_ok_cases {l : ℕ} {ρ η : ℝ} {w : WaveFunctions}
    (h : coulombWaveFunctions l ρ η = .ok w) :
    (w = ⟨0, 0, 0, 0⟩ ∧ startValues ρ η = .ok (0, 0) ∧ η ≠ 0 ∧ l < 60) ∨
    (ρ ≠ 0 ∧ ∃ p p', startValues ρ η = .ok (p, p') ∧ (η = 0 ∨ ¬ (p = 0 ∧ p' = 0)) ∧
      ∃ L, 1 ≤ L ∧ L ≤ 58 ∧ min l 58 ≤ L ∧
        ∃ F : ℕ → ℝ, irregular ρ η p p' (L + 11) ≠ 0 ∧
          (∀ l, 1 ≤ l → l ≤ L + 10 → CoulombRecurrence η ρ F l) ∧ F (L + 11) = 0 ∧
          (F 0 * irregular ρ η p p' 1 - p * F 1) * cs η 1 = 1 ∧
          ((l ≤ 58 ∧ w = ⟨irregular ρ η p p' l, F l,
              coulombDerivative η ρ (irregular ρ η p p') l, coulombDerivative η ρ F l⟩) ∨
            (l = 59 ∧ w = ⟨irregular ρ η p p' 59, F 59, 0, 0⟩))) := by
  cases hs : startValues ρ η with
  | error e => rw [coulomb_error hs] at h; cases h
  | ok q =>
    obtain ⟨p, p'⟩ := q
    by_cases hz : η = 0 ∨ ¬ (p = 0 ∧ p' = 0)
    · right
      have hρ : ρ ≠ 0 := by
        rintro rfl
        rw [coulomb_zero_ratio hs hz] at h; cases h
      refine ⟨hρ, p, p', rfl, hz, ?_⟩
      obtain ⟨L, h1, h2, h3, ⟨-, e⟩ | ⟨F, hG, hF, hF0, hN, e⟩⟩ := coulomb_cases l hρ hs hz
      · rw [e] at h; cases h
      · refine ⟨L, h1, h2, h3, F, hG, hF, hF0, hN, ?_⟩
        rw [e] at h
        split_ifs at h with h58 h59
        · left; exact ⟨h58, by injection h with h; exact h.symm⟩
        · right; exact ⟨h59, by injection h with h; exact h.symm⟩
    · left
      push Not at hz
      obtain ⟨hη, rfl, rfl⟩ := hz
      rw [coulomb_zero hs hη] at h
      split_ifs at h with hl
      exact ⟨by injection h with h; exact h.symm, rfl, hη, hl⟩

/-- C61: for every `l ≤ 58`, channel ratio and Sommerfeld parameter, a successful call returns either
all zeros or functions with the Wronskian `G F' - G' F = 1`, however inaccurate the starting values
are. -/
theorem C61_wronskian (l : ℕ) (hl : l ≤ 58) (ρ η : ℝ) (w : WaveFunctions)
    (h : coulombWaveFunctions l ρ η = .ok w) :
    w = ⟨0, 0, 0, 0⟩ ∨ w.G * w.dF - w.dG * w.F = 1 := by
  rcases coulomb_ok_cases h with ⟨h, -⟩ | ⟨-, p, p', -, -, L, h1, h2, h3, F, -, hF, -, hN, ⟨-, rfl⟩ | ⟨h59, -⟩⟩
  · exact Or.inl h
  · right
    simp only
    rw [wronskian_eq, casoratian hF (fun i hi _ => irregular_recurrence ρ η p p' hi) l (by omega),
      irregular_zero, hN]
    have : (0 : ℝ) < l + 1 := by positivity
    field_simp
  · omega

/-- C61: consequently, for `l ≤ 58` and a positive channel ratio, penetrability, shift factor and phase
shift are either all zero or the penetrability is positive and `S + iP` is the logarithmic derivative
`ρ (G' + iF') / (G + iF)` of the outgoing wave. -/
theorem C61_logarithmic_derivative (l : ℕ) (hl : l ≤ 58) (ρ η P S φ : ℝ) (hρ : 0 < ρ)
    (hP : calculatePenetrability coulombWaveFunctions .charged l ρ η = .ok P)
    (hS : calculateShiftFactor coulombWaveFunctions .charged l ρ η = .ok S)
    (hφ : calculatePhaseShift coulombWaveFunctions .charged l ρ η = .ok φ) :
    (P = 0 ∧ S = 0 ∧ φ = 0) ∨
    (0 < P ∧ ∃ w, coulombWaveFunctions l ρ η = .ok w ∧
      (S : ℂ) + Complex.I * P
        = ρ * (w.dG + Complex.I * w.dF) / (w.G + Complex.I * w.F)) := by
  cases hw : coulombWaveFunctions l ρ η with
  | error e => simp [calculatePenetrability, hw, bind, Except.bind] at hP
  | ok w =>
    simp only [calculatePenetrability, calculateShiftFactor, calculatePhaseShift, hw, bind,
      Except.bind, pure, Except.pure] at hP hS hφ
    injection hP with hP
    injection hS with hS
    injection hφ with hφ
    rcases C61_wronskian l hl ρ η w hw with rfl | hW
    · left
      simp at hP hS hφ
      exact ⟨hP.symm, hS.symm, hφ.symm⟩
    · right
      have hne : ¬ (w.F = 0 ∧ w.G = 0) := by
        rintro ⟨h1, h2⟩
        rw [h1, h2] at hW
        norm_num at hW
      rw [if_neg hne] at hP hS
      have hpos : 0 < w.F * w.F + w.G * w.G := by
        rcases not_and_or.mp hne with h | h
        · have := mul_self_pos.mpr h; nlinarith [mul_self_nonneg w.G]
        · have := mul_self_pos.mpr h; nlinarith [mul_self_nonneg w.F]
      refine ⟨by rw [← hP]; positivity, w, rfl, ?_⟩
      have hc : (w.G : ℂ) + Complex.I * w.F ≠ 0 := by
        intro h0
        have hre := congrArg Complex.re h0
        have him := congrArg Complex.im h0
        simp at hre him
        exact hne ⟨him, hre⟩
      rw [eq_div_iff hc, ← hP, ← hS]
      have hpc : (w.F : ℂ) * w.F + w.G * w.G ≠ 0 := by
        rw [show (w.F : ℂ) * w.F + w.G * w.G = ((w.F * w.F + w.G * w.G : ℝ) : ℂ) by push_cast; rfl]
        exact_mod_cast hpos.ne'
      have hWc : (w.G : ℂ) * w.dF - w.dG * w.F = 1 := by exact_mod_cast hW
      push_cast
      have hD := mul_inv_cancel₀ hpc
      simp only [div_eq_mul_inv]
      linear_combination (ρ * ((w.F : ℂ) * w.F + w.G * w.G)⁻¹ * (w.F - Complex.I * w.G)) * hWc
        + ρ * ((w.F : ℂ) * w.F + w.G * w.G)⁻¹ * w.F * Complex.I_sq
        + (ρ * w.dG + ρ * Complex.I * w.dF) * hD

/-- C61: in exact arithmetic the test of the Wronskian never fails, so that no exception is thrown, for
any `l`, channel ratio and Sommerfeld parameter. -/
theorem C61_never_throws (l : ℕ) (ρ η : ℝ) : coulombWaveFunctions l ρ η ≠ .error .throws := by
  intro h
  cases hs : startValues ρ η with
  | error e =>
    rw [coulomb_error hs] at h
    injection h with h
    subst h
    rw [startValues] at hs
    split_ifs at hs
    exact omAsymptotic_not_throws _ _ _ hs
  | ok q =>
    obtain ⟨p, p'⟩ := q
    by_cases hz : η = 0 ∨ ¬ (p = 0 ∧ p' = 0)
    · rcases eq_or_ne ρ 0 with rfl | hρ
      · rw [coulomb_zero_ratio hs hz] at h; cases h
      · obtain ⟨L, h1, h2, h3, ⟨-, e⟩ | ⟨F, hG, hF, hF0, hN, e⟩⟩ := coulomb_cases l hρ hs hz
        · rw [e] at h; cases h
        · rw [e] at h
          split_ifs at h <;> cases h
    · push Not at hz
      obtain ⟨hη, rfl, rfl⟩ := hz
      rw [coulomb_zero hs hη] at h
      split_ifs at h <;> cases h

/-- The exponent of the Riccati expansion at `η = 5000/49` and `t = 49/625`. -/
theorem exponent_large : riccati1Exponent (5000 / 49) (49 / 625) > 100 := by
  have s1 : Real.sqrt (49 / 625 * (1 - 49 / 625)) = 168 / 625 := by
    rw [Real.sqrt_eq_iff_mul_self_eq (by norm_num) (by norm_num)]; norm_num
  have s2 : Real.sqrt (49 / 625) = 7 / 25 := by
    rw [Real.sqrt_eq_iff_mul_self_eq (by norm_num) (by norm_num)]; norm_num
  have s3 : Real.sqrt (49 / 625 * (1 - 49 / 625) * (1 - 49 / 625) * (1 - 49 / 625))
      = 96768 / 390625 := by
    rw [Real.sqrt_eq_iff_mul_self_eq (by norm_num) (by norm_num)]; norm_num
  have ha : Real.arcsin (7 / 25) ≤ Real.pi / 6 := by
    have : Real.arcsin (1 / 2) = Real.pi / 6 := by
      rw [← Real.sin_pi_div_six]
      exact Real.arcsin_sin (by linarith [Real.pi_pos]) (by linarith [Real.pi_pos])
    rw [← this]
    exact Real.monotone_arcsin (by norm_num)
  have hpi := Real.pi_lt_d2
  have hlog : 1 - (576 / 49 : ℝ) ≤ Real.log (49 / 576) := by
    have := Real.one_sub_inv_le_log_of_pos (show (0 : ℝ) < 49 / 576 by norm_num)
    rwa [inv_div] at this
  rw [riccati1Exponent]
  simp only [s1, s2, s3, PI_2]
  norm_num at *
  nlinarith

theorem startValues_underflow (ρ : ℝ) (hρ : ρ ≤ 16) :
    startValues ρ (5000 / 49) = .ok (0, 0) := by
  have h1 : omGcase1 16 (5000 / 49) = .ok (0, 0) := by
    have e : (16 : ℝ) * (1 / (2 * (5000 / 49))) = 49 / 625 := by norm_num
    rw [omGcase1_cases (by rw [e]; norm_num) (by rw [e]; norm_num), e, if_pos exponent_large]
  rw [startValues, if_neg (by norm_num), omAsymptotic, asymptoticStart, if_pos (by norm_num),
    if_neg (by linarith), h1]
  simp [bind, Except.bind, pure, Except.pure]

/-- C61, as one would expect it: the penetrability of an open charged-particle channel is positive. -/
def C61_claim : Prop := ∀ (l : ℕ) (ρ η P : ℝ), 0 < ρ → 0 ≤ η → l ≤ 58 →
  calculatePenetrability coulombWaveFunctions .charged l ρ η = .ok P → 0 < P

/-- C61 is false: `omGcase1` returns zeros when `G` would exceed `exp(100)`, and penetrability, shift
factor and phase shift are then reported as zero. At `η = 5000/49` this happens for every channel ratio
up to 16 and every `l < 60`. -/
theorem C61_underflow (l : ℕ) (hl : l < 60) (ρ : ℝ) (hρ : ρ ≤ 16) :
    calculatePenetrability coulombWaveFunctions .charged l ρ (5000 / 49) = .ok 0 ∧
    calculateShiftFactor coulombWaveFunctions .charged l ρ (5000 / 49) = .ok 0 ∧
    calculatePhaseShift coulombWaveFunctions .charged l ρ (5000 / 49) = .ok 0 := by
  have h := coulomb_zero (l := l) (startValues_underflow ρ hρ) (by norm_num)
  rw [if_pos hl] at h
  simp [calculatePenetrability, calculateShiftFactor, calculatePhaseShift, h, bind, Except.bind,
    pure, Except.pure]

theorem C61_disproved : ¬ C61_claim := by
  intro h
  exact lt_irrefl _ (h 0 1 (5000 / 49) 0 (by norm_num) (by norm_num) (by omega)
    (C61_underflow 0 (by omega) 1 (by norm_num)).1)

/-- C61, the part that holds: wherever the call for the wave functions does not report `G = F = 0`.
Missing: the channel ratios and Sommerfeld parameters of `C61_underflow`. -/
theorem C61_partial (l : ℕ) (hl : l ≤ 58) (ρ η P : ℝ) (w : WaveFunctions) (hρ : 0 < ρ)
    (hw : coulombWaveFunctions l ρ η = .ok w) (hne : ¬ (w.G = 0 ∧ w.F = 0))
    (hP : calculatePenetrability coulombWaveFunctions .charged l ρ η = .ok P) :
    0 < P ∧ P = ρ / (w.F ^ 2 + w.G ^ 2) := by
  have hne' : ¬ (w.F = 0 ∧ w.G = 0) := by tauto
  simp only [calculatePenetrability, hw, bind, Except.bind, pure, Except.pure, if_neg hne'] at hP
  injection hP with hP
  have hpos : 0 < w.F * w.F + w.G * w.G := by
    rcases not_and_or.mp hne' with h | h
    · have := mul_self_pos.mpr h; nlinarith [mul_self_nonneg w.G]
    · have := mul_self_pos.mpr h; nlinarith [mul_self_nonneg w.F]
  exact ⟨by rw [← hP]; positivity, by rw [← hP, pow_two, pow_two]⟩

/-- C62, as one would expect it: no orbital angular momentum leads to undefined behaviour. -/
def C62_claim : Prop := ∀ (l : ℕ) (ρ η : ℝ), 0 < ρ → ρ ≤ 1000000 → |η| ≤ 1000000 →
  calculatePenetrability coulombWaveFunctions .charged l ρ η ≠ .error .undefined

/-- C62 is false: the arrays have 60 elements, and for `l ≥ 60` the element `l` is read. -/
theorem C62_disproved : ¬ C62_claim := by
  intro h
  apply h 60 1 (5000 / 49) (by norm_num) (by norm_num) (by rw [abs_of_pos] <;> norm_num)
  have := coulomb_zero (l := 60) (startValues_underflow 1 (by norm_num)) (by norm_num)
  rw [if_neg (by omega)] at this
  simp [calculatePenetrability, this, bind, Except.bind]

/-- C62, exact extent: for `l ≥ 60` no call ever succeeds, and for `l = 59` the derivatives are left at
zero, so that the shift factor is zero whatever the arguments. -/
theorem C62_beyond (l : ℕ) (ρ η : ℝ) :
    (60 ≤ l → ∀ w, coulombWaveFunctions l ρ η ≠ .ok w) ∧
    (l = 59 → ∀ w, coulombWaveFunctions l ρ η = .ok w → w.dG = 0 ∧ w.dF = 0) ∧
    (l = 59 → ∀ S, calculateShiftFactor coulombWaveFunctions .charged l ρ η = .ok S → S = 0) := by
  have h59 : l = 59 → ∀ w, coulombWaveFunctions l ρ η = .ok w → w.dG = 0 ∧ w.dF = 0 := by
    intro hl w h
    rcases coulomb_ok_cases h with ⟨rfl, -⟩ | ⟨-, p, p', -, -, L, h1, h2, h3, F, -, hF, -, hN, ⟨h58, rfl⟩ | ⟨h59, rfl⟩⟩
    · exact ⟨rfl, rfl⟩
    · omega
    · exact ⟨rfl, rfl⟩
  refine ⟨?_, h59, ?_⟩
  · intro hl w h
    rcases coulomb_ok_cases h with ⟨-, -, -, h⟩ | ⟨-, p, p', -, -, L, h1, h2, h3, F, -, hF, -, hN, ⟨h58, -⟩ | ⟨h59, -⟩⟩ <;>
      omega
  · intro hl S hS
    cases hw : coulombWaveFunctions l ρ η with
    | error e => simp [calculateShiftFactor, hw, bind, Except.bind] at hS
    | ok w =>
      obtain ⟨h1, h2⟩ := h59 hl w hw
      simp only [calculateShiftFactor, hw, bind, Except.bind, pure, Except.pure, h1, h2] at hS
      injection hS with hS
      rw [← hS]
      split_ifs <;> ring

/-- C62, the part that holds: for `l ≤ 58`, positive channel ratios and Sommerfeld parameters up to a
million never lead to an access outside the arrays or an integer overflow; the only possible failure is a
division by zero in the normalisation of `F`. Missing: `l ≥ 59`. -/
theorem C62_partial (l : ℕ) (hl : l ≤ 58) (ρ η : ℝ) (hρ : 0 < ρ) (hρ' : ρ ≤ 1000000)
    (hη : |η| ≤ 1000000) :
    (∃ w, coulombWaveFunctions l ρ η = .ok w) ∨
      coulombWaveFunctions l ρ η = .error .notFinite := by
  obtain ⟨⟨p, p'⟩, hs⟩ := startValues_ok hρ hρ' hη
  by_cases hz : η = 0 ∨ ¬ (p = 0 ∧ p' = 0)
  · obtain ⟨L, h1, h2, h3, ⟨-, e⟩ | ⟨F, hG, hF, hF0, hN, e⟩⟩ := coulomb_cases l hρ.ne' hs hz
    · exact Or.inr e
    · rw [if_pos hl] at e; exact Or.inl ⟨_, e⟩
  · push Not at hz
    obtain ⟨hη, rfl, rfl⟩ := hz
    have := coulomb_zero (l := l) hs hη
    rw [if_pos (by omega)] at this
    exact Or.inl ⟨_, this⟩

/-- C64: the functions returned for `l ≤ 58` are members of sequences over all angular momenta that
satisfy the recurrence and derivative relations of Coulomb wave functions; the irregular sequence `G` is
the same for every `l`. -/
theorem C64_relations (ρ η : ℝ) :
    ∃ G : ℕ → ℝ, (∀ i, 1 ≤ i → CoulombRecurrence η ρ G i) ∧
      ∀ (l : ℕ) (w : WaveFunctions), l ≤ 58 → coulombWaveFunctions l ρ η = .ok w →
        w = ⟨0, 0, 0, 0⟩ ∨
        (w.G = G l ∧ w.dG = coulombDerivative η ρ G l ∧
          ∃ F : ℕ → ℝ, (∀ i, 1 ≤ i → i ≤ l + 10 → CoulombRecurrence η ρ F i) ∧
            w.F = F l ∧ w.dF = coulombDerivative η ρ F l) := by
  cases hs : startValues ρ η with
  | error e =>
    refine ⟨fun _ => 0, fun i _ => by simp [CoulombRecurrence], ?_⟩
    intro l w _ h
    rw [coulomb_error hs] at h; cases h
  | ok q =>
    obtain ⟨p, p'⟩ := q
    refine ⟨irregular ρ η p p', fun i hi => irregular_recurrence ρ η p p' hi, ?_⟩
    intro l w hl h
    rcases coulomb_ok_cases h with ⟨h, -⟩ | ⟨-, q, q', hs', -, L, h1, h2, h3, F, -, hF, -, hN, ⟨-, rfl⟩ | ⟨h59, -⟩⟩
    · exact Or.inl h
    · rw [hs] at hs'
      injection hs' with hs'
      obtain ⟨rfl, rfl⟩ := Prod.mk.inj hs'
      exact Or.inr ⟨rfl, rfl, F, fun i hi hi' => hF i hi (by omega), rfl, rfl⟩
    · omega

/-- A regular sequence that vanishes at `L + 11` differs from any other one of the same Wronskian by a multiple
of the irregular one. -/
theorem regular_error {ρ η p p' : ℝ} {L : ℕ} {F : ℕ → ℝ} (hGN : irregular ρ η p p' (L + 11) ≠ 0)
    (hF : ∀ l, 1 ≤ l → l ≤ L + 10 → CoulombRecurrence η ρ F l) (hF0 : F (L + 11) = 0)
    (hN : (F 0 * irregular ρ η p p' 1 - p * F 1) * cs η 1 = 1) {Fs : ℕ → ℝ}
    (hFs : ∀ i, 1 ≤ i → CoulombRecurrence η ρ Fs i)
    (hW : irregular ρ η p p' 0 * coulombDerivative η ρ Fs 0
      - coulombDerivative η ρ (irregular ρ η p p') 0 * Fs 0 = 1) :
    ∀ i ≤ L + 11, F i = Fs i - Fs (L + 11) / irregular ρ η p p' (L + 11) * irregular ρ η p p' i := by
  set G := irregular ρ η p p' with hG
  have hGr : ∀ i, 1 ≤ i → CoulombRecurrence η ρ G i :=
    fun i hi => irregular_recurrence ρ η p p' hi
  have hG0 : G 0 = p := rfl
  -- the difference of two sequences with the same Wronskian is a multiple of `G`
  have hW' : (Fs 0 * G 1 - G 0 * Fs 1) * cs η 1 = 1 := by
    rw [wronskian_eq] at hW
    simpa using hW
  have hN' : (F 0 * G 1 - G 0 * F 1) * cs η 1 = 1 := by rw [hG0]; exact hN
  have hs1 := (cs_pos η (l := 1) le_rfl).ne'
  -- Casoratian of the difference with `G` vanishes
  have hDr : ∀ i, 1 ≤ i → i ≤ L + 10 → CoulombRecurrence η ρ (fun j => F j - Fs j) i := by
    intro i hi hi'
    have a := recurrence_iff.mp (hF i hi hi')
    have b := recurrence_iff.mp (hFs i hi)
    rw [recurrence_iff]
    linear_combination a - b
  have hcas := casoratian hDr (fun i hi _ => hGr i hi)
  have hzero : ∀ i ≤ L + 10, (F i - Fs i) * G (i + 1) = G i * (F (i + 1) - Fs (i + 1)) := by
    intro i hi
    have c := hcas i hi
    have hs := (cs_pos η (l := i + 1) (by omega)).ne'
    have z : ((F 0 - Fs 0) * G 1 - G 0 * (F 1 - Fs 1)) * cs η 1 = 0 := by
      linear_combination hN' - hW'
    rw [z, mul_zero] at c
    have := (mul_eq_zero.mp c).resolve_right hs
    linarith
  -- hence the difference is a fixed multiple of `G`, fixed by its value at `N = L + 11`
  have hprop : ∀ k ≤ L + 11, (F (L + 11 - k) - Fs (L + 11 - k)) * G (L + 11)
      = (F (L + 11) - Fs (L + 11)) * G (L + 11 - k) := by
    -- two solutions with vanishing Casoratian: downward recurrence
    have base : (F (L + 10) - Fs (L + 10)) * G (L + 11)
        = (F (L + 11) - Fs (L + 11)) * G (L + 10) := by
      have := hzero (L + 10) le_rfl
      rw [show L + 10 + 1 = L + 11 by omega] at this
      linarith
    have step : ∀ k, k + 2 ≤ L + 11 →
        ((F (L + 11 - k) - Fs (L + 11 - k)) * G (L + 11)
          = (F (L + 11) - Fs (L + 11)) * G (L + 11 - k)) →
        ((F (L + 11 - (k + 1)) - Fs (L + 11 - (k + 1))) * G (L + 11)
          = (F (L + 11) - Fs (L + 11)) * G (L + 11 - (k + 1))) →
        ((F (L + 11 - (k + 2)) - Fs (L + 11 - (k + 2))) * G (L + 11)
          = (F (L + 11) - Fs (L + 11)) * G (L + 11 - (k + 2))) := by
      intro k hk e0 e1
      have hi : 1 ≤ L + 11 - (k + 1) := by omega
      have rD := recurrence_iff.mp (hDr (L + 11 - (k + 1)) hi (by omega))
      have rG := recurrence_iff.mp (hGr (L + 11 - (k + 1)) hi)
      have i1 : L + 11 - (k + 1) + 1 = L + 11 - k := by omega
      have i2 : L + 11 - (k + 1) - 1 = L + 11 - (k + 2) := by omega
      rw [i1, i2] at rD rG
      have hs := (cs_pos η hi).ne'
      have hj : ((L + 11 - (k + 1) : ℕ) : ℝ) + 1 ≠ 0 := by positivity
      apply mul_left_cancel₀ (mul_ne_zero hj hs)
      linear_combination G (L + 11) * rD - (F (L + 11) - Fs (L + 11)) * rG
        + (2 * ((L + 11 - (k + 1) : ℕ) : ℝ) + 1)
            * (η + ((L + 11 - (k + 1) : ℕ) : ℝ) * (((L + 11 - (k + 1) : ℕ) : ℝ) + 1) / ρ) * e1
        - ((L + 11 - (k + 1) : ℕ) : ℝ) * cs η (L + 11 - k) * e0
    have both : ∀ k, k + 1 ≤ L + 11 →
        ((F (L + 11 - k) - Fs (L + 11 - k)) * G (L + 11)
          = (F (L + 11) - Fs (L + 11)) * G (L + 11 - k)) ∧
        ((F (L + 11 - (k + 1)) - Fs (L + 11 - (k + 1))) * G (L + 11)
          = (F (L + 11) - Fs (L + 11)) * G (L + 11 - (k + 1))) := by
      intro k
      induction k with
      | zero =>
        intro _
        refine ⟨rfl, ?_⟩
        rw [show L + 11 - (0 + 1) = L + 10 by omega]
        exact base
      | succ k ih =>
        intro hk
        obtain ⟨e0, e1⟩ := ih (by omega)
        exact ⟨e1, step k (by omega) e0 e1⟩
    intro k hk
    rcases Nat.lt_or_ge k (L + 11) with h | h
    · exact (both k (by omega)).1
    · obtain rfl : k = L + 10 + 1 := by omega
      exact (both (L + 10) (by omega)).2
  intro i hi
  have := hprop (L + 11 - i) (by omega)
  rw [show L + 11 - (L + 11 - i) = i by omega, hF0] at this
  field_simp
  linear_combination this

/-- C64: the error of the regular function. Let `Fs` be any sequence that obeys the recurrence and has
the Wronskian 1 with the returned `G` (for instance the true regular functions, if the `G` are the true
irregular ones). Then the returned `F` differs from it by the multiple of `G` that makes it vanish at some
angular momentum `N ≥ l + 11`: nothing else goes wrong, and this error is never noticed. -/
theorem C64_error_of_F (l : ℕ) (hl : l ≤ 58) (ρ η : ℝ) (w : WaveFunctions)
    (h : coulombWaveFunctions l ρ η = .ok w) (hne : w ≠ ⟨0, 0, 0, 0⟩) :
    ∃ (G : ℕ → ℝ) (N : ℕ), l + 11 ≤ N ∧ N ≤ 69 ∧ G N ≠ 0 ∧
      (∀ i, 1 ≤ i → CoulombRecurrence η ρ G i) ∧ w.G = G l ∧
      w.dG = coulombDerivative η ρ G l ∧
      ∀ Fs : ℕ → ℝ, (∀ i, 1 ≤ i → CoulombRecurrence η ρ Fs i) →
        G 0 * coulombDerivative η ρ Fs 0 - coulombDerivative η ρ G 0 * Fs 0 = 1 →
        w.F = Fs l - Fs N / G N * G l ∧
        w.dF = coulombDerivative η ρ Fs l - Fs N / G N * coulombDerivative η ρ G l := by
  rcases coulomb_ok_cases h with ⟨h, -⟩ | ⟨-, p, p', -, -, L, h1, h2, h3, F, hGN, hF, hF0, hN, ⟨-, rfl⟩ | ⟨h59, -⟩⟩
  · exact absurd h hne
  · refine ⟨irregular ρ η p p', L + 11, by omega, by omega, hGN,
      fun i hi => irregular_recurrence ρ η p p' hi, rfl, rfl, ?_⟩
    intro Fs hFs hW
    have hF' := regular_error hGN hF hF0 hN hFs hW
    refine ⟨hF' l (by omega), ?_⟩
    simp only [coulombDerivative]
    rw [hF' l (by omega), hF' (l + 1) (by omega)]
    ring
  · omega

end Verif
