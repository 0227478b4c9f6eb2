import Verif.Props.Unresolved
import Mathlib.Algebra.QuadraticDiscriminant

/-!
# Lemmas for C100: inequalities of averages over fluctuating widths
-/

namespace Verif

namespace Spec

theorem average_mono {D : Distribution} {f g : ℝ → ℝ} (hD : ∀ p ∈ D, 0 ≤ p.2)
    (h : ∀ p ∈ D, f p.1 ≤ g p.1) : average D f ≤ average D g := by
  have h1 : 0 ≤ average D fun x => g x + (-1) * f x :=
    average_nonneg hD fun p hp => by linarith [h p hp]
  rw [average_add, average_mul] at h1
  linarith

theorem average₃_mono {A B C : Distribution} {f g : ℝ → ℝ → ℝ → ℝ} (hA : ∀ p ∈ A, 0 ≤ p.2)
    (hB : ∀ p ∈ B, 0 ≤ p.2) (hC : ∀ p ∈ C, 0 ≤ p.2)
    (h : ∀ a ∈ A, ∀ b ∈ B, ∀ c ∈ C, f a.1 b.1 c.1 ≤ g a.1 b.1 c.1) :
    average₃ A B C f ≤ average₃ A B C g :=
  average_mono hA fun a ha => average_mono hB fun b hb => average_mono hC fun c hc =>
    h a ha b hb c hc

/-- The average of a product of functions of independent variables. -/
theorem average₃_prod (A B C : Distribution) (f g h : ℝ → ℝ) :
    average₃ A B C (fun a b c => f a * (g b * h c)) = average A f * (average B g * average C h) := by
  unfold average₃
  have h1 : ∀ a, average B (fun b => average C fun c => f a * (g b * h c))
      = (average B g * average C h) * f a := by
    intro a
    have h2 : ∀ b, average C (fun c => f a * (g b * h c)) = (f a * average C h) * g b := by
      intro b
      rw [average_mul, average_mul]
      ring
    simp only [h2]
    rw [average_mul]
    ring
  simp only [h1]
  rw [average_mul]
  ring

/-- The inequality of Cauchy and Schwarz. -/
theorem average₃_sq_le {A B C : Distribution} {p s : ℝ → ℝ → ℝ → ℝ} (hA : ∀ p ∈ A, 0 ≤ p.2)
    (hB : ∀ p ∈ B, 0 ≤ p.2) (hC : ∀ p ∈ C, 0 ≤ p.2)
    (h : ∀ a ∈ A, ∀ b ∈ B, ∀ c ∈ C, 0 < s a.1 b.1 c.1) :
    average₃ A B C p ^ 2
      ≤ average₃ A B C (fun a b c => p a b c ^ 2 / s a b c) * average₃ A B C s := by
  have h1 : ∀ t : ℝ, 0 ≤ average₃ A B C s * (t * t) + (-2 * average₃ A B C p) * t
      + average₃ A B C (fun a b c => p a b c ^ 2 / s a b c) := by
    intro t
    have h2 : 0 ≤ average₃ A B C fun a b c => (p a b c - t * s a b c) ^ 2 / s a b c :=
      average₃_nonneg hA hB hC fun a ha b hb c hc =>
        div_nonneg (sq_nonneg _) (h a ha b hb c hc).le
    have h3 : average₃ A B C (fun a b c => (p a b c - t * s a b c) ^ 2 / s a b c)
        = average₃ A B C (fun a b c =>
          (t * t) * s a b c + ((-2 * t) * p a b c + p a b c ^ 2 / s a b c)) := by
      refine average₃_congr fun a ha b hb c hc => ?_
      have := (h a ha b hb c hc).ne'
      field_simp
      ring
    rw [h3, average₃_add, average₃_add, average₃_mul, average₃_mul] at h2
    linarith
  have h4 := discrim_le_zero h1
  unfold discrim at h4
  nlinarith

end Spec

namespace Unresolved

open Spec

/-- The zeroth, first and second moments of a distribution. -/
def moment (D : Distribution) (n : ℕ) : ℝ := average D fun x => x ^ n

/-- What is known of the moments of the fluctuations of a width. -/
structure Moments (D : Distribution) (ν : ℕ) : Prop where
  zero_ge : 3999 / 4000 ≤ moment D 0
  zero_le : moment D 0 ≤ 4001 / 4000
  one_nonneg : 0 ≤ moment D 1
  one_le : moment D 1 ≤ 2503 / 2500
  two_nonneg : 0 ≤ moment D 2
  two_le : moment D 2 ≤ (1 + 2 / (ν : ℝ)) * (101 / 100)
  weights : ∀ p ∈ D, 0 ≤ p.2
  points : ∀ p ∈ D, 0 ≤ p.1

/-- What is known of the moments of the fluctuations of a width that is not zero. -/
structure Fluctuating (D : Distribution) : Prop where
  one_ge : 2497 / 2500 ≤ moment D 1
  points : ∀ p ∈ D, 0 < p.1

theorem column_moments {ν : ℕ} (h1 : 1 ≤ ν) (h4 : ν ≤ 4) :
    Moments (column (ν - 1)) ν ∧ Fluctuating (column (ν - 1)) := by
  obtain ⟨hp, m0, m1, m2⟩ := C55_moments ν h1 h4
  have e0 : moment (column (ν - 1)) 0 = average (column (ν - 1)) fun _ => 1 := by simp [moment]
  have e1 : moment (column (ν - 1)) 1 = average (column (ν - 1)) fun a => a := by simp [moment]
  rw [abs_le] at m0 m1 m2
  have hν : 1 / 2 ≤ 2 / (ν : ℝ) := by
    have h5 : (0 : ℝ) < ν := by exact_mod_cast h1
    rw [div_le_div_iff₀ (by norm_num) h5]
    have : (ν : ℝ) ≤ 4 := by exact_mod_cast h4
    linarith
  refine ⟨⟨?_, ?_, ?_, ?_, ?_, ?_, fun p h => (hp p h).2, fun p h => (hp p h).1.le⟩,
    ⟨?_, fun p h => (hp p h).1⟩⟩
  · rw [e0]; linarith
  · rw [e0]; linarith
  · rw [e1]; linarith
  · rw [e1]; linarith
  · show 0 ≤ average _ fun a => a ^ 2
    linarith
  · show (average _ fun a => a ^ 2) ≤ _
    linarith
  · rw [e1]; linarith

theorem fluctuations_moments {width : ℝ} {n : ℕ} (h : width ≠ 0 → n ≤ 4) :
    Moments (fluctuations width n) (max n 1) ∧
      (width ≠ 0 → Fluctuating (fluctuations width n)) := by
  unfold fluctuations
  by_cases h0 : width = 0
  · rw [if_pos h0]
    refine ⟨⟨?_, ?_, ?_, ?_, ?_, ?_, ?_, ?_⟩, fun h => absurd h0 h⟩ <;>
      simp [moment, average, fixed] <;> norm_num
    positivity
  · rw [if_neg h0]
    have h4 := h h0
    have e : n - 1 = max n 1 - 1 := by omega
    rw [e]
    obtain ⟨h5, h6⟩ := column_moments (ν := max n 1) (by omega) (by omega)
    exact ⟨h5, fun _ => h6⟩

/-- The average of a monomial. -/
theorem average₃_monomial (A B C : Distribution) (i j k : ℕ) :
    average₃ A B C (fun a b c => a ^ i * (b ^ j * c ^ k))
      = moment A i * (moment B j * moment C k) := average₃_prod A B C _ _ _

/-- The average of a monomial times the total width. -/
theorem average₃_total (w : Data ℝ) (A B C : Distribution) (i j k : ℕ) :
    average₃ A B C (fun a b c => a ^ i * (b ^ j * c ^ k) * totalWidth w a b c)
      = w.elastic * (moment A (i + 1) * (moment B j * moment C k))
        + (w.capture * (moment A i * (moment B j * moment C k))
        + (w.fission * (moment A i * (moment B (j + 1) * moment C k))
        + w.competition * (moment A i * (moment B j * moment C (k + 1))))) := by
  simp only [← average₃_monomial, ← average₃_mul, ← average₃_add]
  refine average₃_congr fun a _ b _ c _ => ?_
  unfold totalWidth
  ring

theorem mul3_le {x y z X Y Z : ℝ} (hx : x ≤ X) (hy : y ≤ Y) (hz : z ≤ Z) (x0 : 0 ≤ x) (y0 : 0 ≤ y)
    (z0 : 0 ≤ z) : x * (y * z) ≤ X * (Y * Z) :=
  mul_le_mul hx (mul_le_mul hy hz z0 (y0.trans hy)) (mul_nonneg y0 z0) (x0.trans hx)

end Unresolved

end Verif
