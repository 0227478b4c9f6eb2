import Verif.Lemmas.CoulombWave
import Mathlib.Analysis.Real.Pi.Bounds
import Mathlib.Tactic.NormNum

/-!
# Lemmas about the starting values of the Coulomb wave functions
-/

namespace Verif

open Spec

theorem omGcase1_cases {ra y : ℝ} (h0 : 0 < ra * (1 / (2 * y))) (h1 : ra * (1 / (2 * y)) < 1) :
    omGcase1 ra y = if riccati1Exponent y (ra * (1 / (2 * y))) > 100 then .ok (0, 0)
      else .ok (Real.exp (riccati1Exponent y (ra * (1 / (2 * y)))),
        Real.exp (riccati1Exponent y (ra * (1 / (2 * y)))) * (1 / (2 * y))
          * riccati1Slope y (ra * (1 / (2 * y)))) := by
  rw [omGcase1]
  simp only
  rw [if_pos ⟨h0, h1⟩]

theorem omGcase1_ok {ra y : ℝ} (hra : 0 < ra) (h : ra < 2 * y) : ∃ p, omGcase1 ra y = .ok p := by
  have hy : 0 < 2 * y := hra.trans h
  rw [omGcase1_cases (by positivity) (by rw [mul_one_div, div_lt_one hy]; exact h)]
  split_ifs <;> exact ⟨_, rfl⟩

theorem omGcase3_ok {ra y σ : ℝ} (hra : 0 < ra) : ∃ p, omGcase3 ra y σ = .ok p := by
  rw [omGcase3, if_neg (by linarith)]
  simp only
  split <;> exact ⟨_, rfl⟩

theorem omGcase4_ok {ra y : ℝ} (hy : 0 < y) (h : 2 * y < ra) : ∃ p, omGcase4 ra y = .ok p := by
  have hra : 0 < ra := by linarith
  rw [omGcase4]
  simp only
  rw [if_pos ⟨by positivity, by rw [div_lt_one hra]; exact h⟩]
  exact ⟨_, rfl⟩

/-- For a positive channel ratio the first stage of `omAsymptotic` always gives values, at a
positive radius that is bounded by the channel ratio and the Sommerfeld parameter. -/
theorem asymptoticStart_ok {ρ η σ : ℝ} (hρ : 0 < ρ) :
    ∃ ra p p', asymptoticStart ρ η σ = .ok (ra, p, p') ∧ 0 < ra ∧ ra ≤ max ρ (3 * |η| + 16) := by
  have ha : η ≤ |η| := le_abs_self η
  have h0 : 0 ≤ |η| := abs_nonneg η
  rw [asymptoticStart]
  split_ifs with h1 h2 h3 h4 h5 h6
  · obtain ⟨p, hp⟩ := omGcase1_ok (ra := ρ) (y := η) hρ (by linarith)
    exact ⟨ρ, p.1, p.2, by rw [hp]; rfl, hρ, le_max_left _ _⟩
  · exact ⟨2 * η, _, _, rfl, by linarith, le_max_of_le_right (by linarith)⟩
  · obtain ⟨p, hp⟩ := omGcase1_ok (ra := 16) (y := η) (by norm_num) (by linarith)
    exact ⟨16, p.1, p.2, by rw [hp]; rfl, by norm_num, le_max_of_le_right (by linarith)⟩
  · obtain ⟨p, hp⟩ := omGcase4_ok (ra := ρ) (y := η) (by linarith) h5
    exact ⟨ρ, p.1, p.2, by dsimp only; rw [hp]; rfl, hρ, le_max_left _ _⟩
  · obtain ⟨p, hp⟩ := omGcase4_ok (ra := 2.5 * η + 7.5) (y := η) (by linarith) (by linarith)
    exact ⟨2.5 * η + 7.5, p.1, p.2, by dsimp only; rw [hp]; rfl, by linarith,
      le_max_of_le_right (by linarith)⟩
  · exact ⟨2 * η, _, _, rfl, by linarith, le_max_of_le_right (by linarith)⟩
  · obtain ⟨p, hp⟩ := omGcase3_ok (ra := ρ) (y := η) (σ := σ) hρ
    exact ⟨ρ, p.1, p.2, by dsimp only; rw [hp]; rfl, hρ, le_max_left _ _⟩
  · obtain ⟨p, hp⟩ := omGcase3_ok (ra := 2 * η + 10) (y := η) (σ := σ) (by linarith)
    exact ⟨2 * η + 10, p.1, p.2, by dsimp only; rw [hp]; rfl, by linarith,
      le_max_of_le_right (by linarith)⟩

theorem newmarkLoop_ok (y h ra : ℝ) : ∀ (k i : ℕ) (g f r : ℝ),
    (∀ j, i ≤ j → j < i + k → ra + j * h ≠ 0) → ∃ p, newmarkLoop y h ra k i g f r = .ok p
  | 0, _, _, _, _, _ => ⟨_, rfl⟩
  | k + 1, i, g, f, r, hx => by
    rw [newmarkLoop]
    rw [if_neg (hx i le_rfl (by omega))]
    split
    · exact ⟨_, rfl⟩
    · exact newmarkLoop_ok y h ra k (i + 1) _ _ _ (fun j h1 h2 => hx j (by omega) (by omega))

theorem omNewmark_ok {n : ℕ} {y ra rm p0 p1 : ℝ} (hra : 0 < ra) (hrm : 0 < rm) :
    ∃ p, omNewmark n ((ra - rm) / n) y ra p0 p1 = .ok p := by
  rw [omNewmark, if_neg hra.ne']
  apply newmarkLoop_ok
  intro j h1 h2
  have hn : (0 : ℝ) < n := by exact_mod_cast (show 0 < n by omega)
  have hj : (j : ℝ) ≤ n := by exact_mod_cast (show j ≤ n by omega)
  have hj0 : (0 : ℝ) ≤ j := by positivity
  have : ra + j * -((ra - rm) / n) = (ra * (n - j) + rm * j) / n := by field_simp; ring
  rw [this]
  have hj1 : (1 : ℝ) ≤ j := by exact_mod_cast h1
  have : 0 < rm * j := by positivity
  have : 0 ≤ ra * (n - j) := mul_nonneg hra.le (by linarith)
  exact (div_pos (by linarith) hn).ne'

theorem toInt_ok {x : ℝ} (h : |x| < 2147483646) :
    ∃ z, toInt x = .ok z ∧ z ≠ 2147483647 := by
  obtain ⟨h1, h2⟩ := abs_lt.mp h
  rw [toInt]
  split_ifs with h3 h4 h5
  · exact ⟨_, rfl, by intro h; have := Int.floor_le x; rw [h] at this; push_cast at this; linarith⟩
  · exfalso
    apply h4
    refine ⟨Int.le_floor.mpr (by push_cast; linarith), ?_⟩
    have := Int.floor_le x
    have : ((⌊x⌋ : ℤ) : ℝ) ≤ (2147483647 : ℤ) := by push_cast; linarith
    exact_mod_cast this
  · refine ⟨_, rfl, ?_⟩
    have : ⌈x⌉ ≤ 0 := Int.ceil_le.mpr (by push_cast; linarith)
    omega
  · exfalso
    apply h5
    have h6 : ⌈x⌉ ≤ 0 := Int.ceil_le.mpr (by push_cast; linarith)
    have := Int.le_ceil x
    have h7 : ((-2147483648 : ℤ) : ℝ) ≤ (⌈x⌉ : ℤ) := by push_cast; linarith
    exact ⟨by exact_mod_cast h7, by omega⟩

/-- For positive channel ratios of sensible size `omAsymptotic` always returns. -/
theorem omAsymptotic_ok {ρ η σ : ℝ} (hρ : 0 < ρ) (hρ' : ρ ≤ 1000000) (hη : |η| ≤ 1000000) :
    ∃ p, omAsymptotic ρ η σ = .ok p := by
  obtain ⟨ra, p, p', h, hra, hle⟩ := asymptoticStart_ok (η := η) (σ := σ) hρ
  have hle' : ra ≤ 4000000 := hle.trans (max_le (by linarith) (by linarith))
  rw [omAsymptotic, h]
  simp only [bind, Except.bind]
  split_ifs with h1 h2
  · obtain ⟨z, hz, hz'⟩ := toInt_ok (x := (ra - ρ) / 0.01) (by
      rw [abs_lt]
      constructor
      · rw [lt_div_iff₀ (by norm_num)]; linarith
      · rw [div_lt_iff₀ (by norm_num)]; linarith)
    rw [hz]
    simp only
    rw [if_neg hz']
    exact omNewmark_ok hra hρ
  · exact ⟨_, rfl⟩
  · exact ⟨_, rfl⟩

theorem startValues_ok {ρ η : ℝ} (hρ : 0 < ρ) (hρ' : ρ ≤ 1000000) (hη : |η| ≤ 1000000) :
    ∃ p, startValues ρ η = .ok p := by
  rw [startValues]
  split_ifs
  · exact ⟨_, rfl⟩
  · exact omAsymptotic_ok hρ hρ' hη

theorem omAsymptotic_not_throws (ρ η σ : ℝ) : omAsymptotic ρ η σ ≠ .error .throws := by
  have h1 : ∀ ra y, omGcase1 ra y ≠ .error .throws := by
    intro ra y h
    rw [omGcase1] at h
    simp only at h
    split_ifs at h <;> cases h
  have h3 : ∀ ra y s, omGcase3 ra y s ≠ .error .throws := by
    intro ra y s h
    rw [omGcase3] at h
    simp only at h
    split_ifs at h
    · cases h
    · split at h <;> cases h
  have h4 : ∀ ra y, omGcase4 ra y ≠ .error .throws := by
    intro ra y h
    rw [omGcase4] at h
    simp only at h
    split_ifs at h <;> cases h
  have hs : asymptoticStart ρ η σ ≠ .error .throws := by
    intro h
    rw [asymptoticStart] at h
    have key : ∀ (x : Outcome (ℝ × ℝ)) (ra : ℝ), x ≠ .error .throws →
        (do let p ← x; pure (ra, p) : Outcome (ℝ × ℝ × ℝ)) ≠ .error .throws := by
      intro x ra hx h
      cases x with
      | error e =>
        simp only [bind, Except.bind] at h
        injection h with h
        exact hx (by rw [h])
      | ok v => cases h
    split_ifs at h
    · exact key _ _ (h1 _ _) h
    · exact key _ _ (h1 _ _) h
    · exact key _ _ (h4 _ _) h
    · exact key _ _ (h4 _ _) h
    · exact key _ _ (h3 _ _ _) h
    · exact key _ _ (h3 _ _ _) h
  have hN : ∀ (y h ra : ℝ) (k i : ℕ) (g f r : ℝ),
      newmarkLoop y h ra k i g f r ≠ .error .throws := by
    intro y h ra k
    induction k with
    | zero => intro i g f r h; cases h
    | succ k ih =>
      intro i g f r h
      rw [newmarkLoop] at h
      split_ifs at h
      · cases h
      · split at h
        · cases h
        · exact ih _ _ _ _ h
  intro h
  rw [omAsymptotic] at h
  cases hr : asymptoticStart ρ η σ with
  | error e =>
    rw [hr] at h
    simp only [bind, Except.bind] at h
    injection h with h
    exact hs (by rw [hr, h])
  | ok v =>
    rw [hr] at h
    simp only [bind, Except.bind] at h
    split_ifs at h
    · cases hz : toInt ((v.1 - ρ) / 0.01) with
      | error e =>
        rw [hz] at h
        simp only at h
        injection h with h
        rw [toInt] at hz
        split_ifs at hz <;> cases hz <;> cases h
      | ok z =>
        rw [hz] at h
        simp only at h
        split_ifs at h
        · cases h
        · rw [omNewmark] at h
          split_ifs at h
          · cases h
          · exact hN _ _ _ _ _ _ _ _ h
    · cases h
    · cases h

end Verif
