import Verif.Lemmas.Riccati2
import Verif.Lemmas.CoulombWave
import Mathlib.Analysis.Complex.ExponentialBounds
import Mathlib.Analysis.Real.Pi.Bounds
import Mathlib.Analysis.SpecialFunctions.Trigonometric.Bounds

/-!
# One point above the turning point

The point `η = 13`, `ρ = 325/8`, where `√(1 - 2η/ρ)` is rational.
-/

namespace Verif.Riccati3

open Verif Spec Filter Topology

/-! ## The recurrence in whole numbers -/

/-- Two neighbours of the sequence of the irregular functions, scaled to whole numbers. -/
def pair (n : ℤ) : ℕ → ℤ × ℤ
  | 0 => (1, n)
  | l + 1 => ((pair n l).2,
      (2 * l + 3) * (4225 + 8 * (l + 1) * (l + 2)) * (pair n l).2
        - 325 * (l + 2) * ((l + 1) * (l + 1) + 169) * (if l = 0 then 6500 else 325 * l) * (pair n l).1)

theorem pair_eq {p p' : ℝ} {n : ℤ} (hp : p = 1) (hn : 6500 * ((13 + 1 / (325 / 8)) * p - p') = n) (l : ℕ) :
    ∃ c : ℝ, 0 < c ∧ c * irregular (325 / 8) 13 p p' l = (pair n l).1 ∧
      c * cs 13 (l + 1) * (if l = 0 then 6500 else 325 * l : ℝ) * irregular (325 / 8) 13 p p' (l + 1)
        = (pair n l).2 := by
  induction l with
  | zero =>
    refine ⟨1, one_pos, ?_, ?_⟩
    · rw [irregular_zero, hp]; simp [pair]
    · have h := (cs_pos 13 (l := 1) le_rfl).ne'
      simp only [if_true, pair, one_mul, zero_add]
      rw [← hn, irregular, upSeq, ← cs_one]
      field_simp
  | succ l ih =>
    obtain ⟨c, hc, h1, h2⟩ := ih
    have hcs := cs_pos 13 (l := l + 1) (by omega)
    set r : ℝ := if l = 0 then 6500 else 325 * l with hr
    have hr0 : 0 < r := by
      rw [hr]; split
      · norm_num
      · have : (0 : ℝ) < l := by exact_mod_cast Nat.pos_of_ne_zero ‹_›
        positivity
    refine ⟨c * cs 13 (l + 1) * r, by positivity, ?_, ?_⟩
    · rw [h2]; rfl
    · have hrec := recurrence_iff.mp
        (irregular_recurrence (325 / 8) 13 p p' (l := l + 1) (by omega))
      have hq : cs 13 (l + 1) ^ 2 = (l + 1 : ℝ) * (l + 1) + 169 := by
        rw [cs, Real.sq_sqrt (by positivity)]; push_cast; ring
      rw [if_neg (by omega)]
      simp only [pair, Nat.add_sub_cancel] at hrec ⊢
      push_cast at hrec ⊢
      rw [← hr, ← h1, ← h2, ← hq]
      linear_combination (325 * c * cs 13 (l + 1) * r) * hrec

theorem irregular_linear (ρ η p p' q q' a b : ℝ) (l : ℕ) :
    irregular ρ η (a * p + b * q) (a * p' + b * q') l
      = a * irregular ρ η p p' l + b * irregular ρ η q q' l := by
  suffices h : ∀ l, irregular ρ η (a * p + b * q) (a * p' + b * q') l
      = a * irregular ρ η p p' l + b * irregular ρ η q q' l ∧
      irregular ρ η (a * p + b * q) (a * p' + b * q') (l + 1)
      = a * irregular ρ η p p' (l + 1) + b * irregular ρ η q q' (l + 1) from (h l).1
  intro l
  induction l with
  | zero =>
    refine ⟨rfl, ?_⟩
    simp only [irregular, upSeq, zero_add]
    ring
  | succ l ih =>
    refine ⟨ih.2, ?_⟩
    have e (p p' : ℝ) : irregular ρ η p p' (l + 1 + 1)
      = omGfunction (l + 1) η ρ (irregular ρ η p p' l) (irregular ρ η p p' (l + 1)) := rfl
    rw [e, e, e, ih.1, ih.2]
    simp only [omGfunction]
    ring

theorem signs : ∀ l ∈ List.range 70, l < 12 ∨ 0 < (pair 90185 l).1 * (pair 87910 l).1 := by
  decide +kernel

theorem irregular_ne {p p' : ℝ} (hp : 0 < p) (h1 : -(17 / 20) * p ≤ p') (h2 : p' ≤ -(1 / 2) * p) {l : ℕ}
    (hl : 12 ≤ l) (hl' : l ≤ 69) : irregular (325 / 8) 13 p p' l ≠ 0 := by
  have hs := (signs l (List.mem_range.mpr (by omega))).resolve_left (by omega)
  obtain ⟨c, hc, e1, -⟩ := pair_eq (p := 1) (p' := -(17 / 20)) (n := 90185) rfl (by norm_num) l
  obtain ⟨d, hd, e2, -⟩ := pair_eq (p := 1) (p' := -(1 / 2)) (n := 87910) rfl (by norm_num) l
  have hs' : (0 : ℝ) < ((pair 90185 l).1 : ℝ) * (pair 87910 l).1 := by exact_mod_cast hs
  rw [← e1, ← e2] at hs'
  have hs2 : 0 < irregular (325 / 8) 13 1 (-(17 / 20)) l * irregular (325 / 8) 13 1 (-(1 / 2)) l := by
    have e : c * irregular (325 / 8) 13 1 (-(17 / 20)) l * (d * irregular (325 / 8) 13 1 (-(1 / 2)) l)
      = c * d * (irregular (325 / 8) 13 1 (-(17 / 20)) l * irregular (325 / 8) 13 1 (-(1 / 2)) l) := by
      ring
    rw [e] at hs'
    exact (mul_pos_iff_of_pos_left (mul_pos hc hd)).mp hs'
  set a := (-(1 / 2) * p - p') * (20 / 7) with ha
  set b := (p' + 17 / 20 * p) * (20 / 7) with hb
  have ha0 : 0 ≤ a := by rw [ha]; linarith
  have hb0 : 0 ≤ b := by rw [hb]; linarith
  have hab : a + b = p := by rw [ha, hb]; ring
  have e := irregular_linear (325 / 8) 13 1 (-(17 / 20)) 1 (-(1 / 2)) a b l
  rw [show a * 1 + b * 1 = p by linarith,
    show a * -(17 / 20) + b * -(1 / 2) = p' by rw [ha, hb]; ring] at e
  rw [e]
  intro hz
  generalize irregular (325 / 8) 13 1 (-(17 / 20)) l = u at *
  generalize irregular (325 / 8) 13 1 (-(1 / 2)) l = v at *
  have h3 : (a * u + b * v) * u = 0 := by rw [hz, zero_mul]
  have h4 : a * u ^ 2 + b * (u * v) = 0 := by linarith
  have hu : 0 < u ^ 2 := by
    rcases eq_or_ne u 0 with h | h
    · rw [h, zero_mul] at hs2; exact absurd hs2 (lt_irrefl _)
    · positivity
  have h5 : 0 ≤ a * u ^ 2 := mul_nonneg ha0 hu.le
  have h6 : 0 ≤ b * (u * v) := mul_nonneg hb0 hs2.le
  have h7 : a = 0 := by
    have : a * u ^ 2 = 0 := by linarith
    exact (mul_eq_zero.mp this).resolve_right hu.ne'
  have h8 : b = 0 := by
    have : b * (u * v) = 0 := by linarith
    exact (mul_eq_zero.mp this).resolve_right hs2.ne'
  linarith

theorem irregular_continuous {η ρ : ℝ} {p p' : ℝ → ℝ} (hρ : ρ ≠ 0) (hp : ContinuousAt p ρ)
    (hp' : ContinuousAt p' ρ) (l : ℕ) :
    ContinuousAt (fun x => irregular x η (p x) (p' x) l) ρ := by
  suffices h : ∀ l, ContinuousAt (fun x => irregular x η (p x) (p' x) l) ρ ∧
      ContinuousAt (fun x => irregular x η (p x) (p' x) (l + 1)) ρ from (h l).1
  intro l
  have hinv : ContinuousAt (fun x : ℝ => 1 / x) ρ := continuousAt_const.div continuousAt_id hρ
  induction l with
  | zero =>
    refine ⟨hp, ?_⟩
    simp only [irregular, upSeq, zero_add]
    exact (((continuousAt_const.add hinv).mul hp).sub hp').div_const _
  | succ l ih =>
    refine ⟨ih.2, ?_⟩
    have e : (fun x => irregular x η (p x) (p' x) (l + 1 + 1))
      = fun x => omGfunction (l + 1) η x (irregular x η (p x) (p' x) l)
        (irregular x η (p x) (p' x) (l + 1)) := rfl
    rw [e]
    simp only [omGfunction]
    have hd (a : ℝ) : ContinuousAt (fun x : ℝ => a / x) ρ := continuousAt_const.div continuousAt_id hρ
    exact (((continuousAt_const.mul (continuousAt_const.add (hd _))).mul ih.2).sub
      (continuousAt_const.mul ih.1)).div_const _

/-! ## The values at the point -/

open Riccati2

theorem X_val : X 13 (325 / 8) = 16 / 25 := by rw [X]; norm_num

theorem S_val : S 13 (325 / 8) = 3 / 5 := by
  rw [S, X_val, show (1 - 16 / 25 : ℝ) = (3 / 5) ^ 2 by norm_num]
  exact Real.sqrt_sq (by norm_num)

theorem Z_val : Z 13 (325 / 8) = 125 / 702 := by rw [Z, S_val]; norm_num

/-- The phase less a full turn. -/
noncomputable def θ : ℝ := riccati2Phase 13 (X 13 (325 / 8)) - 2 * Real.pi

theorem θ_bounds : 84 / 100 < θ ∧ θ < 841 / 1000 := by
  rw [θ, phase_eq (by norm_num) (by norm_num), S_val, X_val, Z_val]
  have e : Real.log ((1 - 3 / 5 : ℝ) / (1 + 3 / 5)) = -(2 * Real.log 2) := by
    rw [show ((1 - 3 / 5 : ℝ) / (1 + 3 / 5)) = (2 ^ 2)⁻¹ by norm_num, Real.log_inv, Real.log_pow]
    norm_num
  rw [e, PI_4, phi]
  have h1 := Real.log_two_gt_d9
  have h2 := Real.log_two_lt_d9
  have h3 := Real.pi_gt_d6
  have h4 := Real.pi_lt_d6
  constructor <;> norm_num at * <;> linarith

theorem phase_sin : Real.sin (riccati2Phase 13 (X 13 (325 / 8))) = Real.sin θ := by
  rw [θ, Real.sin_sub_two_pi]

theorem phase_cos : Real.cos (riccati2Phase 13 (X 13 (325 / 8))) = Real.cos θ := by
  rw [θ, Real.cos_sub_two_pi]

/-- The tangent of the phase. -/
theorem tangent : 0 < Real.cos θ ∧ 9 / 10 * Real.cos θ < Real.sin θ ∧
    Real.sin θ < 131 / 100 * Real.cos θ := by
  obtain ⟨h1, h2⟩ := θ_bounds
  have hs1 := Real.sin_gt_sub_cube (x := θ) (by linarith)
  have hs2 := Real.sin_lt (x := θ) (by linarith)
  have hc1 := Real.one_sub_sq_div_two_le_cos (x := θ)
  have hc2 := Real.cos_sq' θ
  have hs3 : 69 / 100 < Real.sin θ := by nlinarith
  have hc3 : 645 / 1000 < Real.cos θ := by nlinarith
  have hc4 : Real.cos θ < 73 / 100 := by nlinarith
  exact ⟨by linarith, by linarith, by linarith⟩

theorem amp_small : amp 13 (325 / 8) < Real.exp 100 := by
  rw [amp, exponent_eq' (by norm_num) (by norm_num), S_val, X_val, Z_val]
  have h1 : psi (125 / 702) (16 / 25) ≤ 0 := by rw [psi]; norm_num
  have h2 : 1 / Real.sqrt (3 / 5) ≤ 2 := by
    have : 1 / 2 ≤ Real.sqrt (3 / 5) := Real.le_sqrt_of_sq_le (by norm_num)
    rw [div_le_iff₀ (by linarith)]; linarith
  have h3 := Real.exp_le_one_iff.mpr h1
  have h4 := Real.exp_pos (psi (125 / 702) (16 / 25))
  have h5 := Real.add_one_lt_exp (x := (100 : ℝ)) (by norm_num)
  nlinarith

/-- The value and slope that the expansion gives, as functions of the channel ratio. -/
noncomputable def value (ρ : ℝ) : ℝ := amp 13 ρ * Real.cos (riccati2Phase 13 (X 13 ρ))

noncomputable def slope (ρ : ℝ) : ℝ :=
  -(S 13 ρ * codeP (Z 13 ρ) (X 13 ρ) * (amp 13 ρ * Real.sin (riccati2Phase 13 (X 13 ρ)))
    + X 13 ρ ^ 2 * (Z 13 ρ * S 13 ρ / 4 + corr (Z 13 ρ) (X 13 ρ)) * value ρ)

theorem value_continuous {ρ : ℝ} (h : 26 < ρ) : ContinuousAt value ρ :=
  (G_deriv (η := 13) (by norm_num) (by linarith)).continuousAt

theorem codeP_continuous {z x : ℝ → ℝ} {ρ : ℝ} (hz : ContinuousAt z ρ) (hx : ContinuousAt x ρ) :
    ContinuousAt (fun r => codeP (z r) (x r)) ρ := by unfold codeP; fun_prop

theorem corr_continuous {z x : ℝ → ℝ} {ρ : ℝ} (hz : ContinuousAt z ρ) (hx : ContinuousAt x ρ) :
    ContinuousAt (fun r => corr (z r) (x r)) ρ := by unfold corr; fun_prop

theorem combine_continuous {s x z a b p c v : ℝ → ℝ} {ρ : ℝ} (hs : ContinuousAt s ρ)
    (hx : ContinuousAt x ρ) (hz : ContinuousAt z ρ) (ha : ContinuousAt a ρ) (hb : ContinuousAt b ρ)
    (hp : ContinuousAt p ρ) (hc : ContinuousAt c ρ) (hv : ContinuousAt v ρ) :
    ContinuousAt (fun r => -(s r * p r * (a r * b r) + x r ^ 2 * (z r * s r / 4 + c r) * v r)) ρ := by
  fun_prop

theorem slope_continuous {ρ : ℝ} (h : 26 < ρ) : ContinuousAt slope ρ := by
  have hη : (0 : ℝ) < 13 := by norm_num
  have hρ : 2 * 13 < ρ := by linarith
  have cX := (X_deriv hη hρ).continuousAt
  have cZ := (Z_deriv hη hρ).continuousAt
  have cP := (phase_deriv hη hρ).continuousAt
  exact combine_continuous (S_deriv hη hρ).continuousAt cX cZ (amp_deriv hη hρ).continuousAt
    (Real.continuous_sin.continuousAt.comp cP) (codeP_continuous cZ cX) (corr_continuous cZ cX)
    (value_continuous h)

theorem value_pos : 0 < value (325 / 8) := by
  rw [value, phase_cos]
  exact mul_pos (amp_pos (by norm_num) (by norm_num)) tangent.1

theorem slope_range : -(17 / 20) * value (325 / 8) ≤ slope (325 / 8) ∧
    slope (325 / 8) ≤ -(1 / 2) * value (325 / 8) := by
  obtain ⟨t1, t2, t3⟩ := tangent
  have hA := amp_pos (η := 13) (ρ := 325 / 8) (by norm_num) (by norm_num)
  rw [slope, value, phase_cos, phase_sin, S_val, X_val, Z_val]
  have h1 : codeP (125 / 702) (16 / 25) < 1002 / 1000 ∧ 1 < codeP (125 / 702) (16 / 25) := by
    rw [codeP]; norm_num
  have h2 : |(16 / 25 : ℝ) ^ 2 * (125 / 702 * (3 / 5) / 4 + corr (125 / 702) (16 / 25))| < 1 / 50 := by
    rw [corr, abs_lt]; norm_num
  obtain ⟨h1a, h1b⟩ := h1
  obtain ⟨h2a, h2b⟩ := abs_lt.mp h2
  generalize codeP (125 / 702) (16 / 25) = P at *
  generalize (16 / 25 : ℝ) ^ 2 * (125 / 702 * (3 / 5) / 4 + corr (125 / 702) (16 / 25)) = Q at *
  generalize Real.cos θ = c at *
  generalize Real.sin θ = s at *
  generalize amp 13 (325 / 8) = A at *
  have s0 : 0 < s := by linarith
  have k1 : -(17 / 20) * c ≤ -(3 / 5 * P * s + Q * c) := by nlinarith
  have k2 : -(3 / 5 * P * s + Q * c) ≤ -(1 / 2) * c := by nlinarith
  constructor
  · nlinarith [mul_le_mul_of_nonneg_left k1 hA.le]
  · nlinarith [mul_le_mul_of_nonneg_left k2 hA.le]

/-- The slope that the expansion gives is not the derivative. -/
theorem slope_wrong : 1 / 5000 * (|value (325 / 8)| + |g 13 (325 / 8)|)
    < |slope (325 / 8) - g 13 (325 / 8)| := by
  obtain ⟨t1, t2, t3⟩ := tangent
  have hA := amp_pos (η := 13) (ρ := 325 / 8) (by norm_num) (by norm_num)
  rw [slope, g, value, phase_cos, phase_sin, S_val, X_val, Z_val]
  have h1 : codeP (125 / 702) (16 / 25) < P (125 / 702) (16 / 25) := by rw [codeP, P]; norm_num
  have h2 : (16 / 25 : ℝ) ^ 2 * (125 / 702 * (3 / 5) / 4 + corr (125 / 702) (16 / 25))
      - 3 / 5 * B (125 / 702) (16 / 25) < -(9 / 10000) := by
    rw [corr, B]; norm_num
  have h3 : 0 < B (125 / 702) (16 / 25) ∧ B (125 / 702) (16 / 25) < 4 / 100 := by rw [B]; norm_num
  have h4 : 0 < P (125 / 702) (16 / 25) ∧ P (125 / 702) (16 / 25) < 101 / 100 := by rw [P]; norm_num
  generalize codeP (125 / 702) (16 / 25) = p at *
  generalize P (125 / 702) (16 / 25) = q at *
  generalize (16 / 25 : ℝ) ^ 2 * (125 / 702 * (3 / 5) / 4 + corr (125 / 702) (16 / 25)) = Q at *
  generalize B (125 / 702) (16 / 25) = b at *
  generalize Real.cos θ = c at *
  generalize Real.sin θ = s at *
  generalize amp 13 (325 / 8) = A at *
  have s0 : 0 < s := by linarith
  have e1 : -(3 / 5 * p * (A * s) + Q * (A * c)) - A * (-(3 / 5 * b) * c - 3 / 5 * q * s)
      = A * (3 / 5 * (q - p) * s + (3 / 5 * b - Q) * c) := by ring
  have e2 : A * (-(3 / 5 * b) * c - 3 / 5 * q * s) = -(A * (3 / 5 * b * c + 3 / 5 * q * s)) := by ring
  have k1 : 0 < 3 / 5 * (q - p) * s := by
    have : 0 < q - p := by linarith
    positivity
  have k2 : 9 / 10000 * c < (3 / 5 * b - Q) * c := mul_lt_mul_of_pos_right (by linarith) t1
  have k3 : 0 < 3 / 5 * b * c + 3 / 5 * q * s := by
    have := h3.1; have := h4.1; positivity
  have k4 : 3 / 5 * b * c + 3 / 5 * q * s < c := by
    have := mul_lt_mul_of_pos_right h3.2 t1
    have := mul_lt_mul_of_pos_right h4.2 s0
    nlinarith
  rw [e1, e2, abs_neg, abs_of_pos (mul_pos hA t1), abs_of_pos (mul_pos hA k3),
    abs_of_pos (mul_pos hA (by linarith : 0 < 3 / 5 * (q - p) * s + (3 / 5 * b - Q) * c))]
  have k5 := mul_lt_mul_of_pos_left k4 hA
  have k6 := mul_lt_mul_of_pos_left k2 hA
  have k7 := mul_pos hA k1
  have k8 := mul_pos hA t1
  nlinarith

end Verif.Riccati3
