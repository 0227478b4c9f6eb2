import Verif.Model.Coulomb
import Mathlib.Analysis.Calculus.MeanValue
import Mathlib.Analysis.Calculus.Deriv.MeanValue
import Mathlib.Analysis.Calculus.Deriv.Inv
import Mathlib.Analysis.Calculus.Deriv.Pow
import Mathlib.Analysis.SpecialFunctions.Sqrt
import Mathlib.Tactic.LinearCombination

/-!
# Lemmas about the numerical integration of the Coulomb wave equation

The integration goes inward from a radius `a`; `s` is the distance from it, `Y` a solution and `U` its
derivative with respect to `s`. The wave equation is `Y'' = -ω Y`, where `ω` decreases along the way.
-/

namespace Verif.Newmark

open Set

/-! ## Bounds from derivatives -/

theorem nonneg_of_deriv {f f' : ℝ → ℝ} {p T : ℝ} (hf : ∀ t ∈ Icc p T, HasDerivAt f (f' t) t)
    (h0 : 0 ≤ f p) (hb : ∀ t ∈ Icc p T, 0 ≤ f' t) {t : ℝ} (ht : t ∈ Icc p T) : 0 ≤ f t := by
  have hm : MonotoneOn f (Icc p T) := by
    apply monotoneOn_of_deriv_nonneg (convex_Icc p T)
    · exact fun x hx => (hf x hx).continuousAt.continuousWithinAt
    · intro x hx
      rw [interior_Icc] at hx
      exact (hf x (Ioo_subset_Icc_self hx)).differentiableAt.differentiableWithinAt
    · intro x hx
      rw [interior_Icc] at hx
      rw [(hf x (Ioo_subset_Icc_self hx)).deriv]
      exact hb x (Ioo_subset_Icc_self hx)
  exact h0.trans (hm (left_mem_Icc.mpr (ht.1.trans ht.2)) ht ht.1)

theorem bound_of_deriv {f f' : ℝ → ℝ} {p T C : ℝ} (k : ℕ) (hf : ∀ t ∈ Icc p T, HasDerivAt f (f' t) t)
    (h0 : f p = 0) (hb : ∀ t ∈ Icc p T, |f' t| ≤ (k + 1) * C * (t - p) ^ k) {t : ℝ} (ht : t ∈ Icc p T) :
    |f t| ≤ C * (t - p) ^ (k + 1) := by
  have hd : ∀ t : ℝ, HasDerivAt (fun t => C * (t - p) ^ (k + 1)) ((k + 1) * C * (t - p) ^ k) t := by
    intro t
    have := (((hasDerivAt_id t).sub_const p).pow (k + 1)).const_mul C
    refine this.congr_deriv ?_
    simp only [id, Nat.add_sub_cancel]
    push_cast
    ring
  rw [abs_le]
  constructor
  · have := nonneg_of_deriv (f := fun t => C * (t - p) ^ (k + 1) + f t) (fun t ht => (hd t).add (hf t ht))
      (by simp [h0]) (fun t ht => by have := (abs_le.mp (hb t ht)).1; linarith) ht
    linarith
  · have := nonneg_of_deriv (f := fun t => C * (t - p) ^ (k + 1) - f t) (fun t ht => (hd t).sub (hf t ht))
      (by simp [h0]) (fun t ht => by have := (abs_le.mp (hb t ht)).2; linarith) ht
    linarith

/-- The error of the trapezoidal rule. -/
theorem trapezoid {F F1 F2 F3 : ℝ → ℝ} {p H M : ℝ} (hH : 0 ≤ H)
    (h1 : ∀ t ∈ Icc p (p + H), HasDerivAt F (F1 t) t) (h2 : ∀ t ∈ Icc p (p + H), HasDerivAt F1 (F2 t) t)
    (h3 : ∀ t ∈ Icc p (p + H), HasDerivAt F2 (F3 t) t) (hM : ∀ t ∈ Icc p (p + H), |F3 t| ≤ M) :
    |F (p + H) - F p - H / 2 * (F1 p + F1 (p + H))| ≤ M / 12 * H ^ 3 := by
  have hq : ∀ t ∈ Icc p (p + H), |F1 t / 2 - F1 p / 2 - (t - p) / 2 * F2 t| ≤ M / 4 * (t - p) ^ (1 + 1) := by
    intro t ht
    refine bound_of_deriv 1 (f := fun t => F1 t / 2 - F1 p / 2 - (t - p) / 2 * F2 t)
      (f' := fun t => -((t - p) / 2 * F3 t)) (T := p + H) ?_ ?_ ?_ ht
    · intro t ht
      refine ((((h2 t ht).div_const 2).sub_const (F1 p / 2)).sub
        ((((hasDerivAt_id t).sub_const p).div_const 2).mul (h3 t ht))).congr_deriv ?_
      simp only [id]
      ring
    · simp
    · intro t ht
      have := hM t ht
      have ht0 : 0 ≤ t - p := by linarith [ht.1]
      rw [abs_neg, abs_mul, abs_of_nonneg (by linarith : 0 ≤ (t - p) / 2)]
      norm_num
      nlinarith
  have hr := bound_of_deriv (p := p) (T := p + H) (C := M / 12) 2
    (f := fun t => F t - F p - (t - p) / 2 * (F1 p + F1 t))
    (f' := fun t => F1 t / 2 - F1 p / 2 - (t - p) / 2 * F2 t) (fun t ht => by
      refine (((h1 t ht).sub_const (F p)).sub
        ((((hasDerivAt_id t).sub_const p).div_const 2).mul ((h2 t ht).const_add (F1 p)))).congr_deriv ?_
      simp only [id]
      ring) (by simp) (fun t ht => by
        have := hq t ht
        norm_num at this ⊢
        calc _ ≤ _ := this
          _ = _ := by ring) (right_mem_Icc.mpr (by linarith))
  simpa using hr

/-! ## The exact solution -/

/-- `1 - 2η/x` at the distance `s` from `a`, with `z = 2η`. -/
noncomputable def om (z a s : ℝ) : ℝ := 1 - z / (a - s)

theorem cube_bound {z x : ℝ} (h0 : 0 ≤ z) (h1 : z + 1 ≤ x) : z ^ 2 ≤ 0.16 * x ^ 3 := by
  have hx : 1 ≤ x := by linarith
  have h2 : z ^ 2 ≤ (x - 1) ^ 2 := by nlinarith
  nlinarith [mul_nonneg (sq_nonneg (x - 3)) (by linarith : 0 ≤ 4 * x - 3), pow_pos (by linarith : 0 < x) 3]

section Exact

variable {z a L S : ℝ} {Y U : ℝ → ℝ}

/-- Where the bounds are valid: at least one unit outside of the turning point. -/
structure Exact (z a L S : ℝ) (Y U : ℝ → ℝ) : Prop where
  hz : 0 ≤ z
  hL : z + 1 ≤ a - L
  hS : 0 ≤ S
  dY : ∀ s ∈ Icc 0 L, HasDerivAt Y (U s) s
  dU : ∀ s ∈ Icc 0 L, HasDerivAt U (-(om z a s * Y s)) s
  start : U 0 ^ 2 + om z a 0 * Y 0 ^ 2 = S ^ 2

variable (X : Exact z a L S Y U)
include X

theorem Exact.radius {s : ℝ} (hs : s ∈ Icc 0 L) : z + 1 ≤ a - s ∧ 0 < a - s := by
  have := X.hz
  have := X.hL
  have := hs.2
  constructor <;> linarith

theorem Exact.dom {s : ℝ} (hs : s ∈ Icc 0 L) : HasDerivAt (om z a) (-(z / (a - s) ^ 2)) s := by
  have hr := X.radius hs
  have h1 : HasDerivAt (fun s => a - s) (-1) s := by simpa using (hasDerivAt_id s).const_sub a
  refine (((h1.inv hr.2.ne').const_mul z).const_sub 1).congr_deriv ?_
  field_simp

theorem Exact.ddom {s : ℝ} (hs : s ∈ Icc 0 L) :
    HasDerivAt (fun s => -(z / (a - s) ^ 2)) (-(2 * z / (a - s) ^ 3)) s := by
  have hr := X.radius hs
  have h1 : HasDerivAt (fun s => (a - s) ^ 2) (-(2 * (a - s))) s := by
    have h0 : HasDerivAt (fun s => a - s) (-1) s := by simpa using (hasDerivAt_id s).const_sub a
    refine (h0.pow 2).congr_deriv ?_
    norm_num
  refine (((h1.inv (pow_ne_zero 2 hr.2.ne')).const_mul z).neg).congr_deriv ?_
  have := hr.2.ne'
  field_simp

theorem Exact.om_bounds {s : ℝ} (hs : s ∈ Icc 0 L) : 1 / (a - s) ≤ om z a s ∧ om z a s ≤ 1 := by
  have hr := X.radius hs
  unfold om
  constructor
  · rw [div_le_iff₀ hr.2, sub_mul, div_mul_cancel₀ _ hr.2.ne']
    linarith
  · have := div_nonneg X.hz hr.2.le
    linarith

theorem Exact.om_pos {s : ℝ} (hs : s ∈ Icc 0 L) : 0 < om z a s :=
  lt_of_lt_of_le (by have := (X.radius hs).2; positivity) (X.om_bounds hs).1

theorem Exact.energy {s : ℝ} (hs : s ∈ Icc 0 L) : U s ^ 2 + om z a s * Y s ^ 2 ≤ S ^ 2 := by
  have h := nonneg_of_deriv (f := fun s => S ^ 2 - (U s ^ 2 + om z a s * Y s ^ 2))
    (f' := fun s => z / (a - s) ^ 2 * Y s ^ 2) (p := 0) (T := L) (fun s hs => by
      refine ((((X.dU s hs).pow 2).add ((X.dom hs).mul ((X.dY s hs).pow 2))).const_sub (S ^ 2)).congr_deriv ?_
      norm_num
      ring) (by rw [X.start]; simp)
    (fun s hs => by
      have := (X.radius hs).2
      have := X.hz
      positivity) hs
  linarith

theorem Exact.boundU {s : ℝ} (hs : s ∈ Icc 0 L) : |U s| ≤ S := by
  have := X.energy hs
  have h2 := mul_nonneg (X.om_pos hs).le (sq_nonneg (Y s))
  exact abs_le_of_sq_le_sq (by linarith) X.hS

theorem Exact.boundY {s : ℝ} (hs : s ∈ Icc 0 L) : Y s ^ 2 ≤ (a - s) * S ^ 2 := by
  have h1 := X.energy hs
  have h2 := (X.om_bounds hs).1
  have h3 := (X.radius hs).2
  have h4 : 1 / (a - s) * Y s ^ 2 ≤ S ^ 2 := by
    have := mul_le_mul_of_nonneg_right h2 (sq_nonneg (Y s))
    nlinarith [sq_nonneg (U s)]
  rw [one_div, inv_mul_le_iff₀ h3] at h4
  exact h4

theorem Exact.slope_Y {s : ℝ} (hs : s ∈ Icc 0 L) : |z / (a - s) ^ 2 * Y s| ≤ 0.4 * S := by
  have hr := X.radius hs
  have hy := X.boundY hs
  set x := a - s with hx
  refine abs_le_of_sq_le_sq ?_ (by have := X.hS; positivity)
  have h1 : (z / x ^ 2 * Y s) ^ 2 = z ^ 2 / x ^ 4 * Y s ^ 2 := by
    rw [mul_pow, div_pow, ← pow_mul]
  rw [h1]
  have h2 : z ^ 2 / x ^ 4 * Y s ^ 2 ≤ z ^ 2 / x ^ 4 * (x * S ^ 2) :=
    mul_le_mul_of_nonneg_left hy (by positivity)
  have h3 : z ^ 2 / x ^ 4 * (x * S ^ 2) = z ^ 2 / x ^ 3 * S ^ 2 := by
    have := hr.2.ne'
    field_simp
  have h4 : z ^ 2 / x ^ 3 ≤ 0.16 := by
    rw [div_le_iff₀ (pow_pos hr.2 3)]
    exact cube_bound X.hz hr.1
  have h5 := mul_le_mul_of_nonneg_right h4 (sq_nonneg S)
  nlinarith

/-- `U'`, its derivative and the one after. -/
theorem Exact.bound_first {s : ℝ} (hs : s ∈ Icc 0 L) :
    |-(-(z / (a - s) ^ 2) * Y s + om z a s * U s)| ≤ 1.4 * S := by
  have h1 := X.slope_Y hs
  have h2 : |om z a s * U s| ≤ S := by
    rw [abs_mul, abs_of_pos (X.om_pos hs)]
    have := X.boundU hs
    have := (X.om_bounds hs).2
    nlinarith [abs_nonneg (U s), (X.om_pos hs)]
  rw [abs_le] at h1 h2 ⊢
  constructor <;> linarith [h1.1, h1.2, h2.1, h2.2]

theorem Exact.bound_second {s : ℝ} (hs : s ∈ Icc 0 L) :
    |-(-(2 * z / (a - s) ^ 3) * Y s + 2 * (-(z / (a - s) ^ 2)) * U s - om z a s ^ 2 * Y s)| ≤ 2.3 * S := by
  have hr := X.radius hs
  have h1 : |2 * z / (a - s) ^ 3 * Y s| ≤ 0.8 * S := by
    have e : 2 * z / (a - s) ^ 3 * Y s = 2 / (a - s) * (z / (a - s) ^ 2 * Y s) := by
      have := hr.2.ne'
      field_simp
    rw [e, abs_mul, abs_of_pos (by have := hr.2; positivity)]
    have h := X.slope_Y hs
    have h' : 2 / (a - s) ≤ 2 := by
      rw [div_le_iff₀ hr.2]
      have := X.hz
      linarith [hr.1]
    have : 0 < 2 / (a - s) := by have := hr.2; positivity
    nlinarith [abs_nonneg (z / (a - s) ^ 2 * Y s), X.hS]
  have h2 : |2 * (z / (a - s) ^ 2) * U s| ≤ 0.5 * S := by
    have h' : z / (a - s) ^ 2 ≤ 1 / 4 := by
      rw [div_le_iff₀ (pow_pos hr.2 2)]
      nlinarith [sq_nonneg (a - s - 2), hr.1]
    have h0 : 0 ≤ z / (a - s) ^ 2 := div_nonneg X.hz (by positivity)
    rw [abs_mul, abs_of_nonneg (by linarith)]
    have := X.boundU hs
    nlinarith [abs_nonneg (U s), X.hS]
  have h3 : |om z a s ^ 2 * Y s| ≤ S := by
    refine abs_le_of_sq_le_sq ?_ X.hS
    have h1 := X.energy hs
    have h2 := (X.om_bounds hs).2
    have h0 := X.om_pos hs
    have h4 : om z a s ^ 3 ≤ 1 := pow_le_one₀ h0.le h2
    have h5 : 0 ≤ om z a s * Y s ^ 2 := by positivity
    calc (om z a s ^ 2 * Y s) ^ 2 = om z a s ^ 3 * (om z a s * Y s ^ 2) := by ring
      _ ≤ 1 * (om z a s * Y s ^ 2) := mul_le_mul_of_nonneg_right h4 h5
      _ ≤ S ^ 2 := by nlinarith [sq_nonneg (U s)]
  rw [abs_le] at h1 h2 h3 ⊢
  constructor <;> linarith [h1.1, h1.2, h2.1, h2.2, h3.1, h3.2]

theorem Exact.dR {s : ℝ} (hs : s ∈ Icc 0 L) : HasDerivAt (fun s => -(om z a s * Y s))
    (-(-(z / (a - s) ^ 2) * Y s + om z a s * U s)) s :=
  ((X.dom hs).mul (X.dY s hs)).neg

theorem Exact.ddR {s : ℝ} (hs : s ∈ Icc 0 L) :
    HasDerivAt (fun s => -(-(z / (a - s) ^ 2) * Y s + om z a s * U s))
      (-(-(2 * z / (a - s) ^ 3) * Y s + 2 * (-(z / (a - s) ^ 2)) * U s - om z a s ^ 2 * Y s)) s := by
  refine ((((X.ddom hs).mul (X.dY s hs)).add ((X.dom hs).mul (X.dU s hs))).neg).congr_deriv ?_
  ring

/-- The exact solution satisfies the equations of one step up to small remainders. -/
theorem Exact.step {p H : ℝ} (hp : 0 ≤ p) (hH : 0 ≤ H) (hpH : p + H ≤ L) :
    |U (p + H) - U p + H / 2 * (om z a p * Y p + om z a (p + H) * Y (p + H))| ≤ 2.3 / 12 * S * H ^ 3 ∧
    |(Y (p + H) - 0.15 * H ^ 2 * (om z a (p + H) * Y (p + H))) - (Y p - 0.15 * H ^ 2 * (om z a p * Y p))
      - H / 2 * (U p + U (p + H))| ≤ 0.33 * S * H ^ 3 := by
  have hsub : ∀ t ∈ Icc p (p + H), t ∈ Icc 0 L := fun t ht => ⟨hp.trans ht.1, ht.2.trans hpH⟩
  constructor
  · have h := trapezoid (F := U) (F1 := fun s => -(om z a s * Y s)) hH (fun t ht => X.dU t (hsub t ht))
      (fun t ht => X.dR (hsub t ht)) (fun t ht => X.ddR (hsub t ht)) (fun t ht => X.bound_second (hsub t ht))
    calc _ = |U (p + H) - U p - H / 2 * (-(om z a p * Y p) + -(om z a (p + H) * Y (p + H)))| := by
          congr 1
          ring
      _ ≤ _ := h
      _ = _ := by ring
  · have h := trapezoid (F := Y) (F1 := U) hH (fun t ht => X.dY t (hsub t ht))
      (fun t ht => X.dU t (hsub t ht)) (fun t ht => X.dR (hsub t ht)) (fun t ht => X.bound_first (hsub t ht))
    have h' := bound_of_deriv (p := p) (T := p + H) (C := 1.4 * S) 0
      (f := fun s => -(om z a s * Y s) - -(om z a p * Y p)) (fun t ht => (X.dR (hsub t ht)).sub_const _)
      (by simp) (fun t ht => by simpa using X.bound_first (hsub t ht)) (right_mem_Icc.mpr (by linarith))
    simp only [zero_add, pow_one, add_sub_cancel_left] at h'
    have h'' : |0.15 * H ^ 2 * (-(om z a (p + H) * Y (p + H)) - -(om z a p * Y p))|
        ≤ 0.15 * H ^ 2 * (1.4 * S * H) := by
      rw [abs_mul, abs_of_nonneg (by positivity)]
      exact mul_le_mul_of_nonneg_left h' (by positivity)
    have hSH : 0 ≤ S * H ^ 3 := mul_nonneg X.hS (by positivity)
    rw [abs_le] at h h'' ⊢
    constructor <;> linarith [h.1, h.2, h''.1, h''.2]

end Exact

/-! ## One step of the integration -/

/-- What a step that ends has computed. -/
theorem newmarkStep_some {y x h r0 g0 f0 : ℝ} : ∀ {k : ℕ} {r g1 f1 r1 : ℝ},
    newmarkStep y x h r0 g0 f0 k r = some (g1, f1, r1) →
    ∃ δ : ℝ, |δ| ≤ 1e-10 * (|r1| + 1) ∧ r1 = (y / x - 1) * g1 ∧ f1 = f0 + h * (r0 + (r1 + δ)) / 2 ∧
      g1 = g0 + h * f0 + h * h * r0 / 2 + h * h * 0.1 * (r1 + δ - r0)
  | 0, _, _, _, _, hs => by simp [newmarkStep] at hs
  | k + 1, r, g1, f1, r1, hs => by
    rw [newmarkStep] at hs
    set q := (y / x - 1) * (g0 + h * f0 + h * h * r0 / 2 + h * h * 0.1 * (r - r0)) with hq
    by_cases he : (if q ≠ 0 then |1 - r / q| else |q - r|) > 1e-10
    · rw [if_pos he] at hs
      exact newmarkStep_some hs
    · rw [if_neg he, Option.some.injEq, Prod.mk.injEq, Prod.mk.injEq] at hs
      obtain ⟨hg, hf, hr⟩ := hs
      push Not at he
      refine ⟨r - q, ?_, ?_, ?_, ?_⟩
      · rw [← hr]
        by_cases h0 : q = 0
        · rw [if_neg (by simp [h0]), abs_sub_comm] at he
          nlinarith [abs_nonneg q]
        · rw [if_pos h0] at he
          have e : r - q = -(1 - r / q) * q := by field_simp; ring
          rw [e, abs_mul, abs_neg]
          have := mul_le_mul_of_nonneg_right he (abs_nonneg q)
          nlinarith [abs_nonneg q]
      · rw [← hr, ← hg]
      · rw [← hr, ← hf]
        ring
      · rw [← hr, add_sub_cancel]
        exact hg.symm

/-! ## Stability -/

/-- One step of the trapezoidal rule with remainders `α` and `γ`: the weighted size of the error does
not grow by much. `W0` and `W1` are the weights. -/
theorem stable {H m W0 W1 u0 u1 b0 b1 α γ n0 n1 : ℝ} (hH : 0 ≤ H) (hH1 : H ≤ 0.01) (hm : 0 ≤ m) (hm1 : m ≤ 0.41)
    (hW1 : 0 ≤ W1) (hW : W1 ≤ W0) (hW0 : W0 ≤ 1.002)
    (hdW : (W0 - W1) ^ 2 ≤ m ^ 2 * H ^ 2 * W0)
    (hb : b1 - b0 = H / 2 * (u0 + u1) + α) (hu : u1 - u0 = -(H / 2 * (W0 * b0 + W1 * b1)) + γ)
    (hn0 : 0 ≤ n0) (hn1 : 0 ≤ n1) (e0 : n0 ^ 2 = u0 ^ 2 + W0 * b0 ^ 2) (e1 : n1 ^ 2 = u1 ^ 2 + W1 * b1 ^ 2) :
    n1 ≤ (1 + m / 2 * H ^ 2) * n0 + 1.01 * |α| + 1.01 * |γ| := by
  have hW00 : 0 ≤ W0 := hW1.trans hW
  have key : n1 ^ 2 - n0 ^ 2 = -((W0 - W1) * b0 * b1) + α * (W0 * b0 + W1 * b1) + γ * (u0 + u1) := by
    rw [e0, e1]
    linear_combination (u0 + u1) * hu + (W0 * b0 + W1 * b1) * hb
  have hu0 : |u0| ≤ n0 := abs_le_of_sq_le_sq (by nlinarith [mul_nonneg hW00 (sq_nonneg b0)]) hn0
  have hu1 : |u1| ≤ n1 := abs_le_of_sq_le_sq (by nlinarith [mul_nonneg hW1 (sq_nonneg b1)]) hn1
  have hw : ∀ W b u n : ℝ, 0 ≤ W → W ≤ 1.002 → 0 ≤ n → n ^ 2 = u ^ 2 + W * b ^ 2 → |W * b| ≤ 1.005 * n := by
    intro W b u n h0 h1 hn e
    refine abs_le_of_sq_le_sq ?_ (by linarith)
    have h2 : 0 ≤ W * b ^ 2 := mul_nonneg h0 (sq_nonneg b)
    have h3 : (W * b) ^ 2 ≤ 1.002 * (W * b ^ 2) := by
      calc (W * b) ^ 2 = W * (W * b ^ 2) := by ring
        _ ≤ _ := mul_le_mul_of_nonneg_right h1 h2
    nlinarith [sq_nonneg u]
  have hb0 := hw W0 b0 u0 n0 hW00 hW0 hn0 e0
  have hb1 := hw W1 b1 u1 n1 hW1 (hW.trans hW0) hn1 e1
  have hα : α * (W0 * b0 + W1 * b1) ≤ |α| * (1.005 * (n0 + n1)) := by
    calc _ ≤ |α * (W0 * b0 + W1 * b1)| := le_abs_self _
      _ = |α| * |W0 * b0 + W1 * b1| := abs_mul _ _
      _ ≤ _ := mul_le_mul_of_nonneg_left (by have := abs_add_le (W0 * b0) (W1 * b1); linarith) (abs_nonneg _)
  have hγ : γ * (u0 + u1) ≤ |γ| * (n0 + n1) := by
    calc _ ≤ |γ * (u0 + u1)| := le_abs_self _
      _ = |γ| * |u0 + u1| := abs_mul _ _
      _ ≤ _ := mul_le_mul_of_nonneg_left (by have := abs_add_le u0 u1; linarith) (abs_nonneg _)
  have hcross : -((W0 - W1) * b0 * b1) ≤ (m / 2 * H ^ 2 * n0 + 0.005 * |α|) * (n0 + n1) := by
    rcases le_or_gt 0 (b0 * b1) with h | h
    · have h1 : 0 ≤ (W0 - W1) * (b0 * b1) := mul_nonneg (by linarith) h
      have h2 : 0 ≤ (m / 2 * H ^ 2 * n0 + 0.005 * |α|) * (n0 + n1) := by positivity
      linarith
    · have h1 : |b1| ≤ |b1 - b0| := by
        rw [← sq_le_sq]
        have e : (b1 - b0) ^ 2 = b1 ^ 2 - 2 * (b0 * b1) + b0 ^ 2 := by ring
        rw [e]
        linarith [sq_nonneg b0]
      have h2 : |b1 - b0| ≤ H / 2 * (n0 + n1) + |α| := by
        rw [hb]
        refine (abs_add_le _ _).trans ?_
        rw [abs_mul, abs_of_nonneg (by linarith : 0 ≤ H / 2)]
        have := abs_add_le u0 u1
        have := mul_le_mul_of_nonneg_left (by linarith : |u0 + u1| ≤ n0 + n1) (by linarith : 0 ≤ H / 2)
        linarith
      have h3 : |(W0 - W1) * b0| ≤ m * H * n0 := by
        refine abs_le_of_sq_le_sq ?_ (by positivity)
        have h4 := mul_le_mul_of_nonneg_right hdW (sq_nonneg b0)
        have h5 : W0 * b0 ^ 2 ≤ n0 ^ 2 := by rw [e0]; linarith [sq_nonneg u0]
        calc ((W0 - W1) * b0) ^ 2 = (W0 - W1) ^ 2 * b0 ^ 2 := mul_pow _ _ _
          _ ≤ m ^ 2 * H ^ 2 * W0 * b0 ^ 2 := h4
          _ = m ^ 2 * H ^ 2 * (W0 * b0 ^ 2) := by ring
          _ ≤ m ^ 2 * H ^ 2 * n0 ^ 2 := mul_le_mul_of_nonneg_left h5 (by positivity)
          _ = (m * H * n0) ^ 2 := by ring
      have h6 : -((W0 - W1) * b0 * b1) ≤ m * H * n0 * (H / 2 * (n0 + n1) + |α|) := by
        calc _ ≤ |(W0 - W1) * b0 * b1| := neg_le_abs _
          _ = |(W0 - W1) * b0| * |b1| := abs_mul _ _
          _ ≤ _ := mul_le_mul h3 (h1.trans h2) (abs_nonneg _) (by positivity)
      have h7 : m * H ≤ 0.005 := (mul_le_mul hm1 hH1 hH (by norm_num)).trans (by norm_num)
      have h8 : m * H * n0 * |α| ≤ 0.005 * |α| * (n0 + n1) := by
        have : m * H * (n0 * |α|) ≤ 0.005 * (n0 * |α|) := mul_le_mul_of_nonneg_right h7 (by positivity)
        have := mul_nonneg hn1 (abs_nonneg α)
        linarith
      linarith
  have htot : (n1 - n0) * (n0 + n1) ≤ (m / 2 * H ^ 2 * n0 + 1.01 * |α| + |γ|) * (n0 + n1) := by
    linarith
  rcases eq_or_lt_of_le (add_nonneg hn0 hn1) with h | h
  · have : n1 = 0 := by linarith
    rw [this]
    positivity
  · have := le_of_mul_le_mul_right htot h
    linarith [abs_nonneg γ]

/-! ## All steps -/

/-- `1 - c h² ω`, with `c = 1/4 - 1/10`. -/
noncomputable def kap (z a H s : ℝ) : ℝ := 1 - 0.15 * H ^ 2 * om z a s

/-- The weighted distance of the values `g` and `f` from the exact ones. -/
noncomputable def err (z a H : ℝ) (Y U : ℝ → ℝ) (s g f : ℝ) : ℝ :=
  Real.sqrt ((-f - U s) ^ 2 + om z a s / kap z a H s * (kap z a H s * g - kap z a H s * Y s) ^ 2)

section Steps

variable {z a L S H : ℝ} {Y U : ℝ → ℝ} (X : Exact z a L S Y U) (hH : 0 ≤ H) (hH1 : H ≤ 0.01)
include X hH hH1

theorem kap_bounds {s : ℝ} (hs : s ∈ Icc 0 L) : 0.9999 ≤ kap z a H s ∧ kap z a H s ≤ 1 := by
  have h1 := X.om_pos hs
  have h2 := (X.om_bounds hs).2
  unfold kap
  have h3 : H ^ 2 ≤ 0.0001 := by nlinarith
  constructor
  · have : H ^ 2 * om z a s ≤ 0.0001 * 1 := mul_le_mul h3 h2 h1.le (by norm_num)
    linarith
  · have : 0 ≤ H ^ 2 * om z a s := by positivity
    linarith

theorem weight_bounds {s : ℝ} (hs : s ∈ Icc 0 L) :
    om z a s ≤ om z a s / kap z a H s ∧ om z a s / kap z a H s ≤ 1.002 := by
  have hk := kap_bounds X hH hH1 hs
  have h1 := X.om_pos hs
  have h2 := (X.om_bounds hs).2
  constructor
  · rw [le_div_iff₀ (by linarith)]
    nlinarith
  · rw [div_le_iff₀ (by linarith)]
    linarith

omit X hH hH1 in
theorem err_nonneg (s g f : ℝ) : 0 ≤ err z a H Y U s g f := Real.sqrt_nonneg _

theorem err_sq {s : ℝ} (hs : s ∈ Icc 0 L) (g f : ℝ) : err z a H Y U s g f ^ 2 =
    (-f - U s) ^ 2 + om z a s / kap z a H s * (kap z a H s * g - kap z a H s * Y s) ^ 2 := by
  apply Real.sq_sqrt
  have := (weight_bounds X hH hH1 hs).1
  have := X.om_pos hs
  have : 0 ≤ om z a s / kap z a H s := by linarith
  positivity

/-- From the weighted distance to the one with the weights of the wave equation. -/
theorem err_plain {s : ℝ} (hs : s ∈ Icc 0 L) (g f : ℝ) :
    Real.sqrt ((-f - U s) ^ 2 + om z a s * (g - Y s) ^ 2) ≤ 1.001 * err z a H Y U s g f := by
  have hk := kap_bounds X hH hH1 hs
  have he := err_sq X hH hH1 hs g f
  have h0 := err_nonneg (z := z) (a := a) (H := H) (Y := Y) (U := U) s g f
  have ho := X.om_pos hs
  apply Real.sqrt_le_iff.mpr
  refine ⟨by linarith, ?_⟩
  rw [mul_pow, he]
  have e : om z a s / kap z a H s * (kap z a H s * g - kap z a H s * Y s) ^ 2
      = kap z a H s * (om z a s * (g - Y s) ^ 2) := by
    have : kap z a H s ≠ 0 := by linarith
    field_simp
  rw [e]
  have h2 : 0 ≤ om z a s * (g - Y s) ^ 2 := by positivity
  nlinarith [sq_nonneg (-f - U s)]

theorem weight_slope {p : ℝ} (hp : 0 ≤ p) (hpH : p + H ≤ L) :
    om z a (p + H) / kap z a H (p + H) ≤ om z a p / kap z a H p ∧
    (om z a p / kap z a H p - om z a (p + H) / kap z a H (p + H)) ^ 2
      ≤ 0.41 ^ 2 * H ^ 2 * (om z a p / kap z a H p) := by
  have hs0 : p ∈ Icc 0 L := ⟨hp, by linarith⟩
  have hs1 : p + H ∈ Icc 0 L := ⟨by linarith, hpH⟩
  have k0 := kap_bounds X hH hH1 hs0
  have k1 := kap_bounds X hH hH1 hs1
  have r0 := X.radius hs0
  have r1 := X.radius hs1
  have hz := X.hz
  have hd : om z a p - om z a (p + H) = z * H / ((a - p) * (a - (p + H))) := by
    unfold om
    have := r0.2.ne'
    have := r1.2.ne'
    field_simp
    ring
  have hW : om z a p / kap z a H p - om z a (p + H) / kap z a H (p + H)
      = (om z a p - om z a (p + H)) / (kap z a H p * kap z a H (p + H)) := by
    rw [div_sub_div _ _ (by linarith) (by linarith)]
    congr 1
    unfold kap
    ring
  have hdn : 0 ≤ om z a p - om z a (p + H) := by
    rw [hd]
    exact div_nonneg (mul_nonneg hz hH) (mul_nonneg r0.2.le r1.2.le)
  have hkk : 0.9998 ≤ kap z a H p * kap z a H (p + H) := by nlinarith
  constructor
  · have : 0 ≤ om z a p / kap z a H p - om z a (p + H) / kap z a H (p + H) := by
      rw [hW]
      exact div_nonneg hdn (by linarith)
    linarith
  · have h1 : (om z a p - om z a (p + H)) ^ 2 ≤ 0.16 * H ^ 2 * om z a p := by
      have ho : om z a p = ((a - p) - z) / (a - p) := by
        unfold om
        rw [sub_div, div_self r0.2.ne']
      rw [hd, ho, div_pow]
      rw [← mul_div_assoc, div_le_div_iff₀ (by have := r0.2; have := r1.2; positivity) r0.2]
      have hc := cube_bound hz r1.1
      have hx : (a - (p + H)) ^ 3 ≤ (a - (p + H)) ^ 2 * (a - p) := by
        nlinarith [sq_nonneg (a - (p + H))]
      have hy : z ^ 2 ≤ 0.16 * ((a - (p + H)) ^ 2 * (a - p)) * (a - p - z) := by
        have h5 : 0 ≤ 0.16 * ((a - (p + H)) ^ 2 * (a - p)) := by have := r0.2; positivity
        nlinarith [r0.1]
      have := mul_le_mul_of_nonneg_right hy (by have := r0.2; positivity : 0 ≤ H ^ 2 * (a - p))
      nlinarith
    rw [hW, div_pow, div_le_iff₀ (by positivity)]
    have h2 := (weight_bounds X hH hH1 hs0).1
    have h3 : 0 ≤ H ^ 2 * (om z a p / kap z a H p) := by
      have := X.om_pos hs0
      exact mul_nonneg (by positivity) (by linarith)
    have h4 : 0.999 ≤ (kap z a H p * kap z a H (p + H)) ^ 2 := by nlinarith
    have h5 : H ^ 2 * om z a p ≤ H ^ 2 * (om z a p / kap z a H p) := mul_le_mul_of_nonneg_left h2 (by positivity)
    nlinarith

/-- One step. -/
theorem err_step {p g0 f0 g1 f1 r1 : ℝ} {k : ℕ} {r : ℝ} (hp : 0 ≤ p) (hpH : p + H ≤ L)
    (h : newmarkStep z (a - (p + H)) (-H) ((z / (a - p) - 1) * g0) g0 f0 k r = some (g1, f1, r1)) :
    r1 = (z / (a - (p + H)) - 1) * g1 ∧
    (1 - 1e-9 * H) * err z a H Y U (p + H) g1 f1 ≤
      (1 + 0.0021 * H) * err z a H Y U p g0 f0 + (0.54e-4 * S + 1e-10) * H := by
  obtain ⟨δ, hδ, hr, hf, hg⟩ := newmarkStep_some h
  refine ⟨hr, ?_⟩
  have hs0 : p ∈ Icc 0 L := ⟨hp, by linarith⟩
  have hs1 : p + H ∈ Icc 0 L := ⟨by linarith, hpH⟩
  have hx := X.step hp hH hpH
  obtain ⟨hw1, hw2⟩ := weight_slope X hH hH1 hp hpH
  have wb0 := weight_bounds X hH hH1 hs0
  have wb1 := weight_bounds X hH hH1 hs1
  have hr1 : r1 = -(om z a (p + H) * g1) := by rw [hr]; unfold om; ring
  have hr0 : (z / (a - p) - 1) * g0 = -(om z a p * g0) := by unfold om; ring
  rw [hr0] at hf hg
  have k0 : kap z a H p ≠ 0 := by linarith [(kap_bounds X hH hH1 hs0).1]
  have k1 : kap z a H (p + H) ≠ 0 := by linarith [(kap_bounds X hH hH1 hs1).1]
  set n0 := err z a H Y U p g0 f0 with hn0
  set n1 := err z a H Y U (p + H) g1 f1 with hn1
  set τ := (Y (p + H) - 0.15 * H ^ 2 * (om z a (p + H) * Y (p + H))) - (Y p - 0.15 * H ^ 2 * (om z a p * Y p))
      - H / 2 * (U p + U (p + H)) with hτ
  set σ := U (p + H) - U p + H / 2 * (om z a p * Y p + om z a (p + H) * Y (p + H)) with hσ
  have hn0' : 0 ≤ n0 := err_nonneg _ _ _
  have hn1' : 0 ≤ n1 := err_nonneg _ _ _
  have hS := X.hS
  have hst := stable (H := H) (m := 0.41) (W0 := om z a p / kap z a H p)
    (W1 := om z a (p + H) / kap z a H (p + H)) (u0 := -f0 - U p) (u1 := -f1 - U (p + H))
    (b0 := kap z a H p * g0 - kap z a H p * Y p)
    (b1 := kap z a H (p + H) * g1 - kap z a H (p + H) * Y (p + H))
    (α := -(0.15 * H ^ 2 * δ) - τ) (γ := H / 2 * δ - σ) (n0 := n0) (n1 := n1)
    hH hH1 (by norm_num) (by norm_num) (by linarith [X.om_pos hs1]) hw1 wb0.2 hw2
    (by
      rw [hτ]
      unfold kap
      linear_combination hg + H / 2 * hf - (0.15 * H ^ 2 : ℝ) * hr1)
    (by
      have e : ∀ s q : ℝ, kap z a H s ≠ 0 → om z a s / kap z a H s * (kap z a H s * q - kap z a H s * Y s)
          = om z a s * q - om z a s * Y s := by
        intro s q hk
        field_simp
      rw [e _ _ k0, e _ _ k1, hσ]
      linear_combination -hf + H / 2 * hr1)
    hn0' hn1' (err_sq X hH hH1 hs0 _ _) (err_sq X hH hH1 hs1 _ _)
  have hr1b : |r1| ≤ S + 1.01 * n1 := by
    have ho := X.om_pos hs1
    have ho1 := (X.om_bounds hs1).2
    have h1 : |om z a (p + H) * Y (p + H)| ≤ S := by
      refine abs_le_of_sq_le_sq ?_ hS
      have h2 : 0 ≤ om z a (p + H) * Y (p + H) ^ 2 := by positivity
      calc (om z a (p + H) * Y (p + H)) ^ 2 = om z a (p + H) * (om z a (p + H) * Y (p + H) ^ 2) := by ring
        _ ≤ 1 * (om z a (p + H) * Y (p + H) ^ 2) := mul_le_mul_of_nonneg_right ho1 h2
        _ ≤ S ^ 2 := by have := X.energy hs1; linarith [sq_nonneg (U (p + H))]
    have h3 : |om z a (p + H) * (g1 - Y (p + H))| ≤ 1.01 * n1 := by
      refine (?_ : _ ≤ Real.sqrt ((-f1 - U (p + H)) ^ 2 + om z a (p + H) * (g1 - Y (p + H)) ^ 2)).trans
        ((err_plain X hH hH1 hs1 g1 f1).trans (by linarith))
      apply Real.abs_le_sqrt
      have h2 : 0 ≤ om z a (p + H) * (g1 - Y (p + H)) ^ 2 := by positivity
      calc (om z a (p + H) * (g1 - Y (p + H))) ^ 2
          = om z a (p + H) * (om z a (p + H) * (g1 - Y (p + H)) ^ 2) := by ring
        _ ≤ 1 * (om z a (p + H) * (g1 - Y (p + H)) ^ 2) := mul_le_mul_of_nonneg_right ho1 h2
        _ ≤ _ := by linarith [sq_nonneg (-f1 - U (p + H))]
    rw [hr1, abs_neg]
    have e : om z a (p + H) * g1 = om z a (p + H) * Y (p + H) + om z a (p + H) * (g1 - Y (p + H)) := by ring
    rw [e]
    have := abs_add_le (om z a (p + H) * Y (p + H)) (om z a (p + H) * (g1 - Y (p + H)))
    linarith
  have hα : |-(0.15 * H ^ 2 * δ) - τ| ≤ 0.15 * H ^ 2 * |δ| + 0.33 * S * H ^ 3 := by
    refine (abs_sub _ _).trans ?_
    rw [abs_neg, abs_mul, abs_of_nonneg (by positivity : (0 : ℝ) ≤ 0.15 * H ^ 2)]
    linarith [hx.2]
  have hγ : |H / 2 * δ - σ| ≤ H / 2 * |δ| + 2.3 / 12 * S * H ^ 3 := by
    refine (abs_sub _ _).trans ?_
    rw [abs_mul, abs_of_nonneg (by positivity : (0 : ℝ) ≤ H / 2)]
    linarith [hx.1]
  have hd : |δ| ≤ 1e-10 * (S + 1 + 1.01 * n1) := by linarith
  clear_value n0 n1 σ τ
  generalize |δ| = d at *
  generalize |-(0.15 * H ^ 2 * δ) - τ| = A at *
  generalize |H / 2 * δ - σ| = B at *
  have hHH : H ^ 2 ≤ 0.01 * H := by rw [pow_two]; exact mul_le_mul_of_nonneg_right hH1 hH
  have q1 : H ^ 2 * n0 ≤ 0.01 * H * n0 := mul_le_mul_of_nonneg_right hHH hn0'
  have q2 : S * H ^ 3 ≤ 0.0001 * (S * H) := by
    have : H ^ 3 ≤ 0.0001 * H := by
      calc H ^ 3 = H ^ 2 * H := by ring
        _ ≤ 0.01 * H * H := mul_le_mul_of_nonneg_right hHH hH
        _ = 0.01 * H ^ 2 := by ring
        _ ≤ 0.0001 * H := by linarith
    have := mul_le_mul_of_nonneg_left this hS
    linarith
  have q3 : H * d ≤ H * (1e-10 * (S + 1 + 1.01 * n1)) := mul_le_mul_of_nonneg_left hd hH
  have q4 : H ^ 2 * d ≤ 0.01 * (H * (1e-10 * (S + 1 + 1.01 * n1))) := by
    calc H ^ 2 * d ≤ H ^ 2 * (1e-10 * (S + 1 + 1.01 * n1)) := mul_le_mul_of_nonneg_left hd (by positivity)
      _ ≤ 0.01 * H * (1e-10 * (S + 1 + 1.01 * n1)) := mul_le_mul_of_nonneg_right hHH (by positivity)
      _ = _ := by ring
  have q5 : 0 ≤ H * n1 := by positivity
  have q6 : 0 ≤ H * n0 := by positivity
  have q7 : 0 ≤ S * H := by positivity
  linarith

/-- All steps from the distance `i H` on. -/
theorem err_loop {T : ℝ} (hT : T ≤ L) (hT14 : T ≤ 14) : ∀ (k i : ℕ) {g0 f0 : ℝ} {v : ℝ × ℝ},
    ((i : ℝ) + k) * H = T →
    err z a H Y U (i * H) g0 f0 ≤ 1.05 * (0.54e-4 * S + 1e-10) * (i * H) →
    newmarkLoop z (-H) a k (i + 1) g0 f0 ((z / (a - i * H) - 1) * g0) = .ok v →
    v = (0, 0) ∨ err z a H Y U T v.1 v.2 ≤ 1.05 * (0.54e-4 * S + 1e-10) * T
  | 0, i, g0, f0, v, hi, he, h => by
    right
    rw [newmarkLoop] at h
    injection h with h
    subst h
    have : (i : ℝ) * H = T := by rw [← hi]; push_cast; ring
    rwa [this] at he
  | k + 1, i, g0, f0, v, hi, he, h => by
    rw [newmarkLoop] at h
    have ex : a + ((i + 1 : ℕ) : ℝ) * -H = a - (i * H + H) := by push_cast; ring
    rw [ex] at h
    have hkH : 0 ≤ (k : ℝ) * H := by positivity
    have hlt : (i : ℝ) * H + H ≤ T := by
      rw [← hi]
      push_cast
      linarith
    have h0 : (0 : ℝ) ≤ i * H := by positivity
    split_ifs at h
    cases hs : newmarkStep z (a - (i * H + H)) (-H) ((z / (a - i * H) - 1) * g0) g0 f0 100
        ((z / (a - i * H) - 1) * g0) with
    | none =>
      rw [hs] at h
      injection h with h
      exact Or.inl h.symm
    | some q =>
      obtain ⟨g1, f1, r1⟩ := q
      rw [hs] at h
      obtain ⟨hr, hb⟩ := err_step X hH hH1 h0 (hlt.trans hT) hs
      have ei : ((i + 1 : ℕ) : ℝ) * H = i * H + H := by push_cast; ring
      refine err_loop hT hT14 k (i + 1) (g0 := g1) (f0 := f1) ?_ ?_ ?_
      · rw [← hi]
        push_cast
        ring
      · rw [ei]
        have hS := X.hS
        set C := 0.54e-4 * S + 1e-10 with hC
        have hC0 : 0 < C := by positivity
        set t := (i : ℝ) * H with ht
        have h1 : (1 - 1e-9 * H) * err z a H Y U (t + H) g1 f1 ≤
            (1 - 1e-9 * H) * (1.05 * C * (t + H)) := by
          refine hb.trans ?_
          have h2 : (1 + 0.0021 * H) * err z a H Y U t g0 f0 ≤ (1 + 0.0021 * H) * (1.05 * C * t) :=
            mul_le_mul_of_nonneg_left he (by positivity)
          have h3 : 0 ≤ C * H := by positivity
          have h4 : C * H * (t + H) ≤ C * H * 14 := mul_le_mul_of_nonneg_left (by linarith) h3
          have h5 : C * H * t ≤ C * H * 14 := mul_le_mul_of_nonneg_left (by linarith) h3
          linarith
        exact le_of_mul_le_mul_left h1 (by linarith)
      · rw [ei, ← hr]
        exact h

end Steps

end Verif.Newmark
