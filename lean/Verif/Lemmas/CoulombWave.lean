import Verif.Lemmas.Coulomb

/-!
# What `coulombWaveFunctions` returns
-/

namespace Verif

open Spec

/-! ## The whole algorithm -/

/-- `G_0` and its derivative, from which the algorithm starts. -/
noncomputable def startValues (ρ η : ℝ) : Outcome (ℝ × ℝ) :=
  if η = 0 then .ok (Real.cos ρ, -Real.sin ρ) else omAsymptotic ρ η (coulombSigma0 η)

/-- The sequence of the irregular functions. -/
noncomputable def irregular (ρ η p p' : ℝ) : ℕ → ℝ :=
  upSeq η ρ p (((η + 1 / ρ) * p - p') / Real.sqrt (1 + η * η))

/-- What `externalFromStart` computes. -/
theorem externalFromStart_cases (l : ℕ) (ρ η g0 g1 : ℝ) (w d : Cells)
    (h0 : w 0 = ⟨g0, 0⟩) (h1 : w 1 = ⟨g1, 0⟩) :
    ∃ L, 1 ≤ L ∧ L ≤ 58 ∧ min l 58 ≤ L ∧
      (L = 58 ∨ upSeq η ρ g0 g1 (L + 1) ≠ 0 ∧ (if η = 0 then 1 else max (g0 * g0) (g1 * g1))
        / (upSeq η ρ g0 g1 (L + 1) * upSeq η ρ g0 g1 (L + 1)) < 1e-10) ∧
      ((upSeq η ρ g0 g1 (L + 11) = 0 ∧
          externalFromStart l ρ η g0 g1 w d = .error .notFinite) ∨
        ∃ (F : ℕ → ℝ) (w' d' : Cells), upSeq η ρ g0 g1 (L + 11) ≠ 0 ∧
          externalFromStart l ρ η g0 g1 w d = .ok (w', d') ∧
          (∀ l, 1 ≤ l → l ≤ L + 10 → CoulombRecurrence η ρ F l) ∧ F (L + 11) = 0 ∧
          (F 0 * g1 - g0 * F 1) * cs η 1 = 1 ∧
          (∀ i ≤ L + 1, w' i = ⟨upSeq η ρ g0 g1 i, F i⟩) ∧
          (∀ i ≤ L, d' i
            = ⟨coulombDerivative η ρ (upSeq η ρ g0 g1) i, coulombDerivative η ρ F i⟩) ∧
          (∀ i, L < i → d' i = d i)) := by
  rw [externalFromStart]
  obtain ⟨k, hk⟩ : ∃ k, k = 58 := ⟨58, rfl⟩
  rw [← hk]
  generalize (if η = 0 then 1 else max (g0 * g0) (g1 * g1) : ℝ) = a
  obtain ⟨w', l', e, h⟩ := upwardLoop_ok η ρ a g0 g1 l k 1 w (by omega) le_rfl (by
    intro i hi
    obtain rfl | rfl : i = 0 ∨ i = 1 := by omega
    · exact h0
    · exact h1)
  have e' : upwardLoop η ρ a l k 1 g0 g1 w = .ok (w', l') := e
  clear e
  simp only [e', bind, Except.bind]
  rw [hk]
  refine ⟨if l' = 59 then l' - 1 else l', ?_, ?_, ?_, ?_, ?_⟩
  · rcases h with ⟨rfl, -⟩ | ⟨h, h2, -⟩
    · simp
    · rw [if_neg (by omega)]; exact h
  · rcases h with ⟨rfl, -⟩ | ⟨h, h2, -⟩
    · simp
    · rw [if_neg (by omega)]; exact h2
  · rcases h with ⟨rfl, -⟩ | ⟨h, h2, h3, -⟩
    · simp
    · rw [if_neg (by omega)]; omega
  · rcases h with ⟨rfl, -⟩ | ⟨h, h2, h3, -, h4⟩
    · simp
    · rw [if_neg (by omega)]; exact .inr h4
  · apply regularLoop_cases
    · rcases h with ⟨rfl, -⟩ | ⟨h, h2, -⟩
      · simp
      · rw [if_neg (by omega)]; exact h
    · rcases h with ⟨rfl, -⟩ | ⟨h, h2, -⟩
      · simp
      · rw [if_neg (by omega)]; exact h2
    · rcases h with ⟨rfl, h⟩ | ⟨h, h2, -, h4, -⟩
      · simpa using h
      · rw [if_neg (by omega)]; exact h4

theorem coulomb_error {l : ℕ} {ρ η : ℝ} {e : Failure} (h : startValues ρ η = .error e) :
    coulombWaveFunctions l ρ η = .error e := by
  rw [startValues] at h
  split_ifs at h with hη
  simp only [coulombWaveFunctions, omExternalFunction, if_neg hη, h, bind, Except.bind]

theorem ext_zero {l : ℕ} {ρ η : ℝ} (h : startValues ρ η = .ok (0, 0)) (hη : η ≠ 0) (w d : Cells) :
  omExternalFunction l ρ η (coulombSigma0 η) w d = .ok (Function.update w 0 0, d) := by
  rw [startValues, if_neg hη] at h
  rw [omExternalFunction, if_neg hη, h]
  simp only [bind, Except.bind]
  rw [if_pos ⟨trivial, trivial⟩, write_ok _ (by omega)]
  rfl

theorem coulomb_zero {l : ℕ} {ρ η : ℝ} (h : startValues ρ η = .ok (0, 0)) (hη : η ≠ 0) :
    coulombWaveFunctions l ρ η
      = if l < 60 then .ok ⟨0, 0, 0, 0⟩ else .error .undefined := by
  rw [coulombWaveFunctions, ext_zero h hη]
  have hz : Function.update (fun _ => (0 : ℂ)) 0 0 = fun _ : ℕ => (0 : ℂ) := by simp
  rw [hz]
  simp only [bind, Except.bind, Cells.read]
  split_ifs <;> rfl

theorem coulomb_zero_ratio {l : ℕ} {η p p' : ℝ} (h : startValues 0 η = .ok (p, p'))
    (hp : η = 0 ∨ ¬ (p = 0 ∧ p' = 0)) : coulombWaveFunctions l 0 η = .error .notFinite := by
  rw [startValues] at h
  by_cases hη : η = 0
  · simp [coulombWaveFunctions, omExternalFunction, hη, bind, Except.bind]
  · rw [if_neg hη] at h
    simp only [coulombWaveFunctions, omExternalFunction, if_neg hη, h, bind, Except.bind,
      if_neg (hp.resolve_left hη), if_true]

theorem ext_start (l : ℕ) {ρ η p p' : ℝ} (hρ : ρ ≠ 0) (h : startValues ρ η = .ok (p, p'))
    (hp : η = 0 ∨ ¬ (p = 0 ∧ p' = 0)) (w d : Cells) :
    omExternalFunction l ρ η (coulombSigma0 η) w d
      = externalFromStart l ρ η p (((η + 1 / ρ) * p - p') / Real.sqrt (1 + η * η))
          (Function.update (Function.update w 0 ⟨p, 0⟩) 1
            ⟨((η + 1 / ρ) * p - p') / Real.sqrt (1 + η * η), 0⟩) d := by
  rw [startValues] at h
  by_cases hη : η = 0
  · rw [if_pos hη] at h
    injection h with h
    obtain ⟨rfl, rfl⟩ := Prod.mk.inj h
    have : ((η + 1 / ρ) * Real.cos ρ - -Real.sin ρ) / Real.sqrt (1 + η * η)
        = Real.cos ρ / ρ + Real.sin ρ := by
      rw [hη]; simp; ring
    rw [this, omExternalFunction, if_pos hη, if_neg hρ]
    simp only [bind, Except.bind]
    rw [write_ok _ (by omega)]
    simp only
    rw [write_ok _ (by omega)]
  · rw [if_neg hη] at h
    rw [omExternalFunction, if_neg hη, h]
    simp only [bind, Except.bind]
    rw [if_neg (hp.resolve_left hη), if_neg hρ]
    rw [write_ok _ (by omega)]
    simp only
    rw [write_ok _ (by omega)]

/-- The result of `coulombWaveFunctions` once the starting values are known, with the condition that ends the loop upwards. -/
theorem coulomb_cases' (l : ℕ) {ρ η p p' : ℝ} (hρ : ρ ≠ 0) (h : startValues ρ η = .ok (p, p'))
    (hp : η = 0 ∨ ¬ (p = 0 ∧ p' = 0)) :
    ∃ L, 1 ≤ L ∧ L ≤ 58 ∧ min l 58 ≤ L ∧
      (L = 58 ∨ irregular ρ η p p' (L + 1) ≠ 0 ∧
        (if η = 0 then 1 else max (p * p) (irregular ρ η p p' 1 * irregular ρ η p p' 1))
          / (irregular ρ η p p' (L + 1) * irregular ρ η p p' (L + 1)) < 1e-10) ∧
      ((irregular ρ η p p' (L + 11) = 0 ∧ coulombWaveFunctions l ρ η = .error .notFinite) ∨
        ∃ F : ℕ → ℝ, irregular ρ η p p' (L + 11) ≠ 0 ∧
          (∀ l, 1 ≤ l → l ≤ L + 10 → CoulombRecurrence η ρ F l) ∧ F (L + 11) = 0 ∧
          (F 0 * irregular ρ η p p' 1 - p * F 1) * cs η 1 = 1 ∧
          coulombWaveFunctions l ρ η =
            if l ≤ 58 then .ok ⟨irregular ρ η p p' l, F l,
              coulombDerivative η ρ (irregular ρ η p p') l, coulombDerivative η ρ F l⟩
            else if l = 59 then .ok ⟨irregular ρ η p p' 59, F 59, 0, 0⟩
            else .error .undefined) := by
  set g1 := ((η + 1 / ρ) * p - p') / Real.sqrt (1 + η * η) with hg1
  set w : Cells := Function.update (Function.update (fun _ => 0) 0 ⟨p, 0⟩) 1 ⟨g1, 0⟩ with hw
  have hfin := externalFromStart_cases l ρ η p g1 w (fun _ => 0) (by simp [hw]) (by simp [hw])
  obtain ⟨L, hL1, hL2, hL3, hL4, hcases⟩ := hfin
  have hext := ext_start l hρ h hp (fun _ => 0) (fun _ => 0)
  rw [← hg1] at hext
  refine ⟨L, hL1, hL2, hL3, hL4, ?_⟩
  have hirr : irregular ρ η p p' = upSeq η ρ p g1 := by rw [irregular, hg1]
  rw [hirr, coulombWaveFunctions, hext]
  have hs1 : upSeq η ρ p g1 1 = g1 := by rw [upSeq]
  rw [hs1]
  generalize upSeq η ρ p g1 = G at *
  rcases hcases with ⟨h0, hr⟩ | ⟨F, w', d', h0, hr, hF, hF0, hN, hw', hd', hd2⟩
  · left
    refine ⟨h0, ?_⟩
    rw [hr]
    rfl
  · right
    refine ⟨F, h0, hF, hF0, hN, ?_⟩
    rw [hr]
    simp only [bind, Except.bind, Cells.read, pure, Except.pure]
    by_cases h58 : l ≤ 58
    · simp only [if_pos h58, if_pos (show l < 60 by omega)]
      rw [hw' l (by omega), hd' l (by omega)]
    · rw [if_neg h58]
      by_cases h59 : l = 59
      · subst h59
        simp only [if_true, if_pos (show (59 : ℕ) < 60 by omega)]
        rw [hw' 59 (by omega), hd2 59 (by omega)]
        simp only [Complex.zero_re, Complex.zero_im]
      · simp only [if_neg h59, if_neg (show ¬ l < 60 by omega)]

/-- The result of `coulombWaveFunctions` once the starting values are known. -/
theorem coulomb_cases (l : ℕ) {ρ η p p' : ℝ} (hρ : ρ ≠ 0) (h : startValues ρ η = .ok (p, p'))
    (hp : η = 0 ∨ ¬ (p = 0 ∧ p' = 0)) :
    ∃ L, 1 ≤ L ∧ L ≤ 58 ∧ min l 58 ≤ L ∧
      ((irregular ρ η p p' (L + 11) = 0 ∧ coulombWaveFunctions l ρ η = .error .notFinite) ∨
        ∃ F : ℕ → ℝ, irregular ρ η p p' (L + 11) ≠ 0 ∧
          (∀ l, 1 ≤ l → l ≤ L + 10 → CoulombRecurrence η ρ F l) ∧ F (L + 11) = 0 ∧
          (F 0 * irregular ρ η p p' 1 - p * F 1) * cs η 1 = 1 ∧
          coulombWaveFunctions l ρ η =
            if l ≤ 58 then .ok ⟨irregular ρ η p p' l, F l,
              coulombDerivative η ρ (irregular ρ η p p') l, coulombDerivative η ρ F l⟩
            else if l = 59 then .ok ⟨irregular ρ η p p' 59, F 59, 0, 0⟩
            else .error .undefined) := by
  obtain ⟨L, h1, h2, h3, -, h4⟩ := coulomb_cases' l hρ h hp
  exact ⟨L, h1, h2, h3, h4⟩

theorem derivative_down {η ρ : ℝ} {u : ℕ → ℝ} {l : ℕ} (hρ : ρ ≠ 0)
    (h : CoulombRecurrence η ρ u (l + 1)) :
    coulombDerivative η ρ u (l + 1)
      = cs η (l + 1) / (l + 1) * u l - ((l + 1) / ρ + η / (l + 1)) * u (l + 1) := by
  have h' := recurrence_iff.mp h
  simp only [Nat.add_sub_cancel] at h'
  rw [coulombDerivative, ← cs_succ]
  push_cast at *
  have h1 : (l : ℝ) + 1 ≠ 0 := by positivity
  have h2 : (l : ℝ) + 1 + 1 ≠ 0 := by positivity
  field_simp at *
  linear_combination -h'

theorem irregular_zero (ρ η p p' : ℝ) : irregular ρ η p p' 0 = p := rfl

theorem irregular_recurrence (ρ η p p' : ℝ) {l : ℕ} (h : 1 ≤ l) :
    CoulombRecurrence η ρ (irregular ρ η p p') l := upSeq_recurrence _ _ _ _ h

theorem irregular_derivative_zero (ρ η p p' : ℝ) :
    coulombDerivative η ρ (irregular ρ η p p') 0 = p' := by
  have h := (cs_pos η (l := 1) le_rfl).ne'
  rw [coulombDerivative, irregular]
  have h1 : upSeq η ρ p (((η + 1 / ρ) * p - p') / Real.sqrt (1 + η * η)) (0 + 1)
      = ((η + 1 / ρ) * p - p') / cs η 1 := by rw [zero_add, upSeq, cs_one]
  have h0 : upSeq η ρ p (((η + 1 / ρ) * p - p') / Real.sqrt (1 + η * η)) 0 = p := by rw [upSeq]
  rw [h1, h0, ← cs_succ]
  simp only [Nat.cast_zero, zero_add]
  rw [mul_div_cancel₀ _ h]
  ring

/-- Where the potential still exceeds the energy, positive decreasing starting values give positive
decreasing functions for all angular momenta. -/
theorem irregular_pos {ρ η p p' : ℝ} (hρ : 0 < ρ) (hη : 0 ≤ η) (hc : ρ ^ 2 ≤ 2 * η * ρ + 1)
    (hp : 0 < p) (hp' : p' < 0) :
    ∀ l, 0 < irregular ρ η p p' l ∧ coulombDerivative η ρ (irregular ρ η p p') l < 0
  | 0 => ⟨by rw [irregular_zero]; exact hp, by rw [irregular_derivative_zero]; exact hp'⟩
  | l + 1 => by
    obtain ⟨h1, h2⟩ := irregular_pos hρ hη hc hp hp' l
    set G := irregular ρ η p p' with hG
    have hs := cs_pos η (l := l + 1) (by omega)
    have hl : (0 : ℝ) < l + 1 := by positivity
    have hsq : cs η (l + 1) ^ 2 = (l + 1) ^ 2 + η ^ 2 := by
      rw [cs_succ, Real.sq_sqrt (by positivity)]
    have hup : cs η (l + 1) * G (l + 1)
        = (η + (l + 1) ^ 2 / ρ) * G l - (l + 1) * coulombDerivative η ρ G l := by
      rw [coulombDerivative, ← cs_succ]
      field_simp
      ring
    have hbig : (η + (l + 1) ^ 2 / ρ) * G l < cs η (l + 1) * G (l + 1) := by
      rw [hup]
      have : 0 < -((l + 1) * coulombDerivative η ρ G l) := by
        have := mul_pos hl (neg_pos.mpr h2)
        linarith
      linarith
    have hA : 0 < η + (l + 1) ^ 2 / ρ := by positivity
    have hpos : 0 < G (l + 1) := by
      have : 0 < cs η (l + 1) * G (l + 1) := lt_trans (mul_pos hA h1) hbig
      exact (mul_pos_iff_of_pos_left hs).mp this
    refine ⟨hpos, ?_⟩
    rw [derivative_down hρ.ne' (irregular_recurrence ρ η p p' (by omega))]
    rw [← hG]
    have key : cs η (l + 1) ^ 2 ≤ (η + (l + 1) ^ 2 / ρ) ^ 2 := by
      rw [hsq]
      have e : (η + (l + 1) ^ 2 / ρ) ^ 2 - ((l + 1) ^ 2 + η ^ 2)
          = (l + 1 : ℝ) ^ 2 * ((2 * η * ρ + (l + 1) ^ 2 - ρ ^ 2) / ρ ^ 2) := by
        field_simp; ring
      have : 0 ≤ (2 * η * ρ + (l + 1) ^ 2 - ρ ^ 2) / ρ ^ 2 := by
        apply div_nonneg _ (by positivity)
        have : (1 : ℝ) ≤ (l + 1) ^ 2 := by
          have : (0 : ℝ) ≤ l := by positivity
          nlinarith
        linarith
      have := mul_nonneg (show (0 : ℝ) ≤ (l + 1) ^ 2 by positivity) this
      linarith
    have h3 : cs η (l + 1) * G l < (η + (l + 1) ^ 2 / ρ) * G (l + 1) := by
      have e1 : cs η (l + 1) * (cs η (l + 1) * G l) ≤ (η + (l + 1) ^ 2 / ρ) ^ 2 * G l := by
        nlinarith
      have e2 : (η + (l + 1) ^ 2 / ρ) ^ 2 * G l
          < (η + (l + 1) ^ 2 / ρ) * (cs η (l + 1) * G (l + 1)) := by
        nlinarith
      have e3 : cs η (l + 1) * (cs η (l + 1) * G l)
          < cs η (l + 1) * ((η + (l + 1) ^ 2 / ρ) * G (l + 1)) := by
        calc _ ≤ _ := e1
          _ < _ := e2
          _ = _ := by ring
      exact lt_of_mul_lt_mul_left e3 hs.le
    have e : cs η (l + 1) / (l + 1) * G l - ((l + 1) / ρ + η / (l + 1)) * G (l + 1)
        = (cs η (l + 1) * G l - (η + (l + 1) ^ 2 / ρ) * G (l + 1)) / (l + 1) := by
      field_simp; ring
    rw [e]
    exact div_neg_of_neg_of_pos (by linarith) hl

/-- With such starting values the algorithm succeeds for every `l ≤ 58`. -/
theorem coulomb_ok_of_pos {ρ η p p' : ℝ} (hρ : 0 < ρ) (hη : 0 ≤ η) (hc : ρ ^ 2 ≤ 2 * η * ρ + 1)
    (h : startValues ρ η = .ok (p, p')) (hp : 0 < p) (hp' : p' < 0) (l : ℕ) (hl : l ≤ 58) :
    ∃ w, coulombWaveFunctions l ρ η = .ok w ∧ 0 < w.G ∧ w.dG < 0 := by
  obtain ⟨L, -, -, -, ⟨h0, -⟩ | ⟨F, -, -, -, -, e⟩⟩ :=
    coulomb_cases l hρ.ne' h (Or.inr fun hz => hp.ne' hz.1)
  · exact absurd h0 (irregular_pos hρ hη hc hp hp' _).1.ne'
  · rw [if_pos hl] at e
    exact ⟨_, e, irregular_pos hρ hη hc hp hp' l⟩

end Verif
