import Verif.Props.Coulomb
import Mathlib.Analysis.SpecialFunctions.Trigonometric.Deriv
import Mathlib.Analysis.Calculus.Deriv.Inv
import Mathlib.Analysis.Calculus.Deriv.Add
import Mathlib.Analysis.Calculus.Deriv.Mul

/-!
# Property C63: the derivatives of the irregular Coulomb wave functions
-/

namespace Verif

open Spec Filter Topology

theorem irregular_null (ρ η : ℝ) : ∀ l, irregular ρ η 0 0 l = 0
  | 0 => rfl
  | 1 => by simp [irregular, upSeq]
  | l + 2 => by
    have h := recurrence_iff.mp (irregular_recurrence ρ η 0 0 (l := l + 1) (by omega))
    simp only [Nat.add_sub_cancel] at h
    rw [irregular_null ρ η l, irregular_null ρ η (l + 1)] at h
    have h1 : ((l + 1 : ℕ) : ℝ) ≠ 0 := by positivity
    have h2 := (cs_pos η (l := l + 1 + 1) (by omega)).ne'
    simp only [mul_zero, sub_zero, mul_eq_zero, h1, h2, false_or] at h
    exact h

/-- For `l ≤ 58` the returned irregular function and its derivative are those of the sequence started
from the starting values, also where all zeros are returned. -/
theorem coulomb_irregular {l : ℕ} (hl : l ≤ 58) {ρ η p p' : ℝ} {w : WaveFunctions}
    (hs : startValues ρ η = .ok (p, p')) (h : coulombWaveFunctions l ρ η = .ok w) :
    w.G = irregular ρ η p p' l ∧ w.dG = coulombDerivative η ρ (irregular ρ η p p') l := by
  rcases coulomb_ok_cases h with ⟨rfl, hs', -, -⟩ |
      ⟨-, q, q', hs', -, L, h1, h2, h3, F, -, hF, -, hN, ⟨-, rfl⟩ | ⟨h59, -⟩⟩
  · rw [hs] at hs'
    injection hs' with hs'
    obtain ⟨rfl, rfl⟩ := Prod.mk.inj hs'
    refine ⟨(irregular_null ρ η l).symm, ?_⟩
    rw [coulombDerivative, irregular_null, irregular_null]
    simp
  · rw [hs] at hs'
    injection hs' with hs'
    obtain ⟨rfl, rfl⟩ := Prod.mk.inj hs'
    exact ⟨rfl, rfl⟩
  · omega

theorem coulomb_zeroth {ρ η p p' : ℝ} {w : WaveFunctions}
    (hs : startValues ρ η = .ok (p, p')) (h : coulombWaveFunctions 0 ρ η = .ok w) :
    w.G = p ∧ w.dG = p' := by
  obtain ⟨h1, h2⟩ := coulomb_irregular (by omega) hs h
  exact ⟨h1, by rw [h2, irregular_derivative_zero]⟩

theorem startValues_of_ok {l : ℕ} {ρ η : ℝ} {w : WaveFunctions}
    (h : coulombWaveFunctions l ρ η = .ok w) : ∃ p p', startValues ρ η = .ok (p, p') := by
  cases hs : startValues ρ η with
  | error e => rw [coulomb_error hs] at h; cases h
  | ok q => exact ⟨q.1, q.2, rfl⟩

/-- The ladder of angular momenta preserves "is the derivative of" and the wave equation. -/
theorem ladder {η ρ : ℝ} (hρ : ρ ≠ 0) {p p' : ℝ → ℝ} (hp : HasDerivAt p (p' ρ) ρ)
    (hp' : HasDerivAt p' ((2 * η / ρ - 1) * p ρ) ρ) : ∀ l : ℕ,
    HasDerivAt (fun x => irregular x η (p x) (p' x) l)
        (coulombDerivative η ρ (irregular ρ η (p ρ) (p' ρ)) l) ρ ∧
    HasDerivAt (fun x => coulombDerivative η x (irregular x η (p x) (p' x)) l)
        ((2 * η / ρ + l * (l + 1) / ρ ^ 2 - 1) * irregular ρ η (p ρ) (p' ρ) l) ρ
  | 0 => by
    constructor
    · rw [irregular_derivative_zero]
      simpa only [irregular_zero] using hp
    · simp only [irregular_derivative_zero, irregular_zero]
      simpa using hp'
  | l + 1 => by
    obtain ⟨h1, h2⟩ := ladder hρ hp hp' l
    have hs := (cs_pos η (l := l + 1) (by omega)).ne'
    have hl : (l : ℝ) + 1 ≠ 0 := by positivity
    have hinv : HasDerivAt (fun x : ℝ => ((l : ℝ) + 1) ^ 2 / x) (-(((l : ℝ) + 1) ^ 2 / ρ ^ 2)) ρ := by
      have := (hasDerivAt_inv hρ).const_mul (((l : ℝ) + 1) ^ 2)
      simp only [div_eq_mul_inv]
      exact this.congr_deriv (by ring)
    -- the function one up in terms of the function and its derivative
    have up : ∀ x, irregular x η (p x) (p' x) (l + 1)
        = ((((l : ℝ) + 1) ^ 2 / x + η) * irregular x η (p x) (p' x) l
          - (l + 1) * coulombDerivative η x (irregular x η (p x) (p' x)) l) / cs η (l + 1) := by
      intro x
      rw [coulombDerivative, ← cs_succ]
      field_simp
      ring
    have down : ∀ x, x ≠ 0 → coulombDerivative η x (irregular x η (p x) (p' x)) (l + 1)
        = cs η (l + 1) / (l + 1) * irregular x η (p x) (p' x) l
          - ((l + 1) / x + η / (l + 1)) * irregular x η (p x) (p' x) (l + 1) := fun x hx =>
      derivative_down hx (irregular_recurrence _ _ _ _ (by omega))
    have hsq : cs η (l + 1) * cs η (l + 1) = (l + 1) ^ 2 + η ^ 2 := by
      rw [cs, Real.mul_self_sqrt (by positivity)]
      push_cast; ring
    have d1 : HasDerivAt (fun x => irregular x η (p x) (p' x) (l + 1))
        (coulombDerivative η ρ (irregular ρ η (p ρ) (p' ρ)) (l + 1)) ρ := by
      have := ((((hinv.add_const η).mul h1).sub (h2.const_mul ((l : ℝ) + 1))).div_const
        (cs η (l + 1)))
      refine (this.congr_of_eventuallyEq (Eventually.of_forall up)).congr_deriv ?_
      rw [down ρ hρ, up ρ]
      generalize irregular ρ η (p ρ) (p' ρ) l = A
      generalize coulombDerivative η ρ (irregular ρ η (p ρ) (p' ρ)) l = D
      generalize cs η (l + 1) = c at *
      obtain ⟨n, hn⟩ : ∃ n : ℝ, n = l + 1 := ⟨_, rfl⟩
      have hl' : (l : ℝ) = n - 1 := by rw [hn]; ring
      rw [← hn] at hl hsq ⊢
      rw [hl']
      field_simp
      linear_combination (-ρ * ρ * A) * hsq
    refine ⟨d1, ?_⟩
    have hinv' : HasDerivAt (fun x : ℝ => ((l : ℝ) + 1) / x) (-(((l : ℝ) + 1) / ρ ^ 2)) ρ := by
      have := (hasDerivAt_inv hρ).const_mul ((l : ℝ) + 1)
      simp only [div_eq_mul_inv]
      exact this.congr_deriv (by ring)
    have := (h1.const_mul (cs η (l + 1) / (l + 1))).sub ((hinv'.add_const (η / (l + 1))).mul d1)
    refine (this.congr_of_eventuallyEq
      ((eventually_ne_nhds hρ).mono fun x hx => down x hx)).congr_deriv ?_
    rw [down ρ hρ]
    have hup := up ρ
    generalize irregular ρ η (p ρ) (p' ρ) (l + 1) = B at *
    generalize irregular ρ η (p ρ) (p' ρ) l = A at *
    generalize coulombDerivative η ρ (irregular ρ η (p ρ) (p' ρ)) l = D at *
    generalize cs η (l + 1) = c at *
    push_cast
    obtain ⟨n, hn⟩ : ∃ n : ℝ, n = l + 1 := ⟨_, rfl⟩
    have hl' : (l : ℝ) = n - 1 := by rw [hn]; ring
    rw [← hn] at hl hsq hup ⊢
    field_simp at hup ⊢
    linear_combination ρ * c * hup - ρ ^ 2 * B * hsq

/-- C63, as one would expect it: the returned `G'` is the derivative of the returned `G` with respect to
the channel ratio, here with a tolerance of no less than half its value. -/
def C63_claim : Prop := ∀ (l : ℕ) (η ρ g' : ℝ) (w : ℝ → WaveFunctions), l ≤ 58 → 0 < ρ →
  (∀ᶠ x in 𝓝 ρ, coulombWaveFunctions l x η = .ok (w x)) →
  HasDerivAt (fun x => (w x).G) g' ρ → |(w ρ).dG - g'| ≤ |(w ρ).dG| / 2

/-- Values just beyond the turning point. -/
theorem startValues_window {ρ : ℝ} (h1 : 30.01 ≤ ρ) (h2 : ρ < 30.02) :
    startValues ρ 15 = .ok (omGcase2 15) := by
  rw [startValues, if_neg (by norm_num), omAsymptotic, asymptoticStart, if_pos (by norm_num),
    if_pos (by linarith), if_neg (by linarith)]
  simp only [Bind.bind, Except.bind]
  have hz : toInt ((2 * 15 - ρ) / 0.01) = .ok (-1) := by
    have e : ⌈(2 * 15 - ρ) / 0.01⌉ = -1 := by
      rw [Int.ceil_eq_iff]
      push_cast
      constructor
      · rw [lt_div_iff₀ (by norm_num)]; linarith
      · rw [div_le_iff₀ (by norm_num)]; linarith
    have hn : ¬ 0 ≤ (2 * 15 - ρ) / 0.01 := by
      rw [not_le]; exact div_neg_of_neg_of_pos (by linarith) (by norm_num)
    simp only [toInt]
    rw [if_neg hn, e]
    norm_num
  rw [hz]
  simp only
  rw [if_neg (show ¬ ((-1 : ℤ) = 2147483647) by norm_num)]
  split_ifs
  · simp [omNewmark, newmarkLoop]
  · rfl
  · rfl

theorem omGcase2_signs {y : ℝ} (hy : 1 ≤ y) : 0 < (omGcase2 y).1 ∧ (omGcase2 y).2 < 0 := by
  have hy0 : 0 < y := by linarith
  have pos : ∀ e : ℝ, 0 < y ^ e := fun e => Real.rpow_pos_of_pos hy0 e
  have le1 : ∀ e : ℝ, e ≤ 0 → y ^ e ≤ 1 := fun e he => Real.rpow_le_one_of_one_le_of_nonpos hy he
  rw [omGcase2]
  constructor
  · apply mul_pos (mul_pos (by norm_num) (pos _))
    have a := pos (-4 / 3)
    have b := le1 (-2) (by norm_num)
    have c := pos (-10 / 3)
    have d := le1 (-4) (by norm_num)
    have e := pos (-16 / 3)
    linarith
  · have : 0 < 0.7078817734 * y ^ (-1 / 6 : ℝ)
      * (1 - 0.1728260369 * y ^ (-2 / 3 : ℝ) + 0.0003174603174 * y ^ (-2 : ℝ)
          - 0.003581214850 * y ^ (-8 / 3 : ℝ) + 0.0003117824680 * y ^ (-4 : ℝ)
          - 0.0009073966427 * y ^ (-14 / 3 : ℝ)) := by
      apply mul_pos (mul_pos (by norm_num) (pos _))
      have a := le1 (-2 / 3) (by norm_num)
      have b := pos (-2)
      have c := le1 (-8 / 3) (by norm_num)
      have d := pos (-4)
      have e := le1 (-14 / 3) (by norm_num)
      linarith
    linarith

/-- In the window of channel ratios between 30.01 and 30.02 at `η = 15` every call for `l ≤ 58`
succeeds. -/
theorem coulomb_window {ρ : ℝ} (h1 : 30.01 ≤ ρ) (h2 : ρ < 30.02) (l : ℕ) (hl : l ≤ 58) :
    ∃ w, coulombWaveFunctions l ρ 15 = .ok w ∧ 0 < w.G ∧ w.dG < 0 := by
  obtain ⟨hp, hp'⟩ := omGcase2_signs (y := 15) (by norm_num)
  exact coulomb_ok_of_pos (by linarith) (by norm_num) (by nlinarith) (startValues_window h1 h2)
    hp hp' l hl

/-- C63 is false: for `η ≥ 15` and channel ratios between `2η + 0.01` and `2η + 0.02` the number of
integration steps is zero, and the values at the turning point `2η` are returned. At `η = 15` the function
`G` for `l = 0` is therefore constant between 30.01 and 30.02, while the returned derivative is a fixed
negative number. -/
theorem C63_window (ρ : ℝ) (h1 : 30.01 ≤ ρ) (h2 : ρ < 30.02) :
    ∃ w, coulombWaveFunctions 0 ρ 15 = .ok w ∧ w.G = (omGcase2 15).1 ∧ w.dG = (omGcase2 15).2 ∧
      0 < w.G ∧ w.dG < 0 := by
  obtain ⟨w, hw, hG, hD⟩ := coulomb_window h1 h2 0 (by omega)
  obtain ⟨e1, e2⟩ := coulomb_zeroth (startValues_window h1 h2) hw
  exact ⟨w, hw, e1, e2, hG, hD⟩

theorem C63_disproved : ¬ C63_claim := by
  intro hc
  have hx : ∀ x : ℝ, ∃ w : WaveFunctions, 30.01 ≤ x ∧ x < 30.02 →
      coulombWaveFunctions 0 x 15 = .ok w ∧ w.G = (omGcase2 15).1 ∧ w.dG = (omGcase2 15).2 := by
    intro x
    by_cases h : 30.01 ≤ x ∧ x < 30.02
    · obtain ⟨w, a, b, c, -⟩ := C63_window x h.1 h.2
      exact ⟨w, fun _ => ⟨a, b, c⟩⟩
    · exact ⟨⟨0, 0, 0, 0⟩, fun h' => absurd h' h⟩
  choose w hw using hx
  have hn : ∀ᶠ x : ℝ in 𝓝 30.015, 30.01 ≤ x ∧ x < 30.02 := by
    filter_upwards [Ioo_mem_nhds (a := (30.01 : ℝ)) (b := 30.02) (x := 30.015) (by norm_num)
      (by norm_num)] with x hx
    exact ⟨hx.1.le, hx.2⟩
  have hconst : HasDerivAt (fun x => (w x).G) 0 (30.015 : ℝ) :=
    (hasDerivAt_const _ (omGcase2 15).1).congr_of_eventuallyEq
      (hn.mono fun x hx => (hw x hx).2.1)
  have h := hc 0 15 30.015 0 w (by omega) (by norm_num) (hn.mono fun x hx => (hw x hx).1) hconst
  rw [(hw 30.015 ⟨by norm_num, by norm_num⟩).2.2, sub_zero] at h
  have := (omGcase2_signs (y := 15) (by norm_num)).2
  have := abs_pos_of_neg this
  linarith

/-- C63, the part that holds for every Sommerfeld parameter: if the functions returned for `l = 0` near a
channel ratio are consistent there (`G₀'` is the derivative of `G₀`, and `G₀` obeys the wave equation
`G₀'' = (2η/ρ - 1) G₀`), then for every `l ≤ 58` the returned `G'` is the derivative of the returned `G`.
Missing: the consistency for `l = 0`, which fails (`C63_window`). -/
theorem C63_partial (l : ℕ) (hl : l ≤ 58) (η ρ : ℝ) (hρ : ρ ≠ 0) (w₀ w : ℝ → WaveFunctions)
    (h₀ : ∀ᶠ x in 𝓝 ρ, coulombWaveFunctions 0 x η = .ok (w₀ x))
    (h : ∀ᶠ x in 𝓝 ρ, coulombWaveFunctions l x η = .ok (w x))
    (hG : HasDerivAt (fun x => (w₀ x).G) ((w₀ ρ).dG) ρ)
    (hD : HasDerivAt (fun x => (w₀ x).dG) ((2 * η / ρ - 1) * (w₀ ρ).G) ρ) :
    HasDerivAt (fun x => (w x).G) ((w ρ).dG) ρ ∧
    HasDerivAt (fun x => (w x).dG) ((2 * η / ρ + l * (l + 1) / ρ ^ 2 - 1) * (w ρ).G) ρ := by
  have key : ∀ᶠ x in 𝓝 ρ, (w x).G = irregular x η (w₀ x).G (w₀ x).dG l ∧
      (w x).dG = coulombDerivative η x (irregular x η (w₀ x).G (w₀ x).dG) l := by
    filter_upwards [h₀, h] with x hx₀ hx
    obtain ⟨p, p', hs⟩ := startValues_of_ok hx
    obtain ⟨rfl, rfl⟩ := coulomb_zeroth hs hx₀
    exact coulomb_irregular hl hs hx
  obtain ⟨l1, l2⟩ := ladder (p := fun x => (w₀ x).G) (p' := fun x => (w₀ x).dG) hρ hG hD l
  have hk := key.self_of_nhds
  rw [hk.2, hk.1]
  exact ⟨l1.congr_of_eventuallyEq (key.mono fun x hx => hx.1),
    l2.congr_of_eventuallyEq (key.mono fun x hx => hx.2)⟩

/-- C63 holds without Coulomb interaction: for `η = 0` the returned `G'` is the derivative of the returned
`G`, and `G` obeys the radial wave equation, for every `l ≤ 58` and non-zero channel ratio. -/
theorem C63_uncharged (l : ℕ) (hl : l ≤ 58) (ρ : ℝ) (hρ : ρ ≠ 0) (w : ℝ → WaveFunctions)
    (h : ∀ᶠ x in 𝓝 ρ, coulombWaveFunctions l x 0 = .ok (w x)) :
    HasDerivAt (fun x => (w x).G) ((w ρ).dG) ρ ∧
    HasDerivAt (fun x => (w x).dG) ((l * (l + 1) / ρ ^ 2 - 1) * (w ρ).G) ρ := by
  have hs : ∀ x, startValues x 0 = .ok (Real.cos x, -Real.sin x) := fun x => by
    rw [startValues, if_pos rfl]
  have key : ∀ᶠ x in 𝓝 ρ, (w x).G = irregular x 0 (Real.cos x) (-Real.sin x) l ∧
      (w x).dG = coulombDerivative 0 x (irregular x 0 (Real.cos x) (-Real.sin x)) l :=
    h.mono fun x hx => coulomb_irregular hl (hs x) hx
  obtain ⟨l1, l2⟩ := ladder (η := 0) (p := Real.cos) (p' := fun x => -Real.sin x) hρ
    (Real.hasDerivAt_cos ρ) ((Real.hasDerivAt_sin ρ).neg.congr_deriv (by simp)) l
  have hk := key.self_of_nhds
  rw [hk.2, hk.1]
  refine ⟨l1.congr_of_eventuallyEq (key.mono fun x hx => hx.1),
    (l2.congr_of_eventuallyEq (key.mono fun x hx => hx.2)).congr_deriv ?_⟩
  simp

/-! ### Examples -/

/-- Without Coulomb interaction every call with a channel ratio below 1 and `l ≤ 58` succeeds. -/
theorem coulomb_uncharged {x : ℝ} (h0 : 0 < x) (h1 : x ≤ 1) (l : ℕ) (hl : l ≤ 58) :
    ∃ w, coulombWaveFunctions l x 0 = .ok w ∧ 0 < w.G ∧ w.dG < 0 := by
  refine coulomb_ok_of_pos h0 le_rfl (by nlinarith) (p := Real.cos x) (p' := -Real.sin x)
    (by rw [startValues, if_pos rfl]) ?_ ?_ l hl
  · exact Real.cos_pos_of_mem_Ioo ⟨by linarith [Real.pi_pos], by linarith [Real.pi_gt_three]⟩
  · have := Real.sin_pos_of_pos_of_lt_pi h0 (by linarith [Real.pi_gt_three])
    linarith

/-- Hypotheses of `C63_uncharged` and, for `l = 0` and `l = 7`, of `C63_partial`. -/
example (l : ℕ) (hl : l ≤ 58) : ∃ w : ℝ → WaveFunctions,
    (∀ᶠ x in 𝓝 (1 / 2 : ℝ), coulombWaveFunctions l x 0 = .ok (w x)) ∧ (w (1 / 2)).dG < 0 := by
  have hx : ∀ x : ℝ, ∃ w : WaveFunctions, 0 < x ∧ x ≤ 1 →
      coulombWaveFunctions l x 0 = .ok w ∧ w.dG < 0 := by
    intro x
    by_cases h : 0 < x ∧ x ≤ 1
    · obtain ⟨w, a, -, b⟩ := coulomb_uncharged h.1 h.2 l hl
      exact ⟨w, fun _ => ⟨a, b⟩⟩
    · exact ⟨⟨0, 0, 0, 0⟩, fun h' => absurd h' h⟩
  choose w hw using hx
  refine ⟨w, ?_, (hw _ ⟨by norm_num, by norm_num⟩).2⟩
  filter_upwards [Ioo_mem_nhds (a := (0 : ℝ)) (b := 1) (x := 1 / 2) (by norm_num)
      (by norm_num)] with x hx
  exact (hw x ⟨hx.1, hx.2.le⟩).1

/-- Hypotheses of `C61_wronskian`, `C61_partial` and `C64_error_of_F`: an uncharged and a charged case with
functions that are not zero. -/
example : (∃ w, coulombWaveFunctions 3 (1 / 2) 0 = .ok w ∧ w ≠ ⟨0, 0, 0, 0⟩) ∧
    (∃ w, coulombWaveFunctions 3 30.015 15 = .ok w ∧ ¬ (w.G = 0 ∧ w.F = 0)) := by
  obtain ⟨w, h, hG, -⟩ := coulomb_uncharged (x := 1 / 2) (by norm_num) (by norm_num) 3 (by omega)
  obtain ⟨v, h', hG', -⟩ := coulomb_window (ρ := 30.015) (by norm_num) (by norm_num) 3 (by omega)
  exact ⟨⟨w, h, fun e => by rw [e] at hG; exact lt_irrefl _ hG⟩,
    ⟨v, h', fun e => hG'.ne' e.1⟩⟩

/-- Hypotheses of `C61_logarithmic_derivative`. -/
example : ∃ P S φ, calculatePenetrability coulombWaveFunctions .charged 3 30.015 15 = .ok P ∧
    calculateShiftFactor coulombWaveFunctions .charged 3 30.015 15 = .ok S ∧
    calculatePhaseShift coulombWaveFunctions .charged 3 30.015 15 = .ok φ ∧ 0 < P := by
  obtain ⟨v, h', hG', -⟩ := coulomb_window (ρ := 30.015) (by norm_num) (by norm_num) 3 (by omega)
  have hne : ¬ (v.F = 0 ∧ v.G = 0) := fun e => hG'.ne' e.2
  have : 0 < v.F * v.F + v.G * v.G := by nlinarith [mul_self_nonneg v.F]
  simp only [calculatePenetrability, calculateShiftFactor, calculatePhaseShift, h', Bind.bind,
    Except.bind, pure, Except.pure, if_neg hne]
  exact ⟨_, _, _, rfl, rfl, rfl, div_pos (by norm_num) this⟩

/-- Hypotheses of `C62_partial`. -/
example : ∃ w, coulombWaveFunctions 58 30.015 15 = .ok w :=
  let ⟨w, h, _⟩ := coulomb_window (ρ := 30.015) (by norm_num) (by norm_num) 58 (by omega)
  ⟨w, h⟩

end Verif
