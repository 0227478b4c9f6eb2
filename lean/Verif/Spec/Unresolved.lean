import Verif.Model.Unresolved
import Mathlib.Algebra.BigOperators.Group.List.Basic

/-!
# Specification: averages over fluctuating widths

A width `Γ` fluctuates as `x Γ`, where `x` has a discrete distribution given by its points and their
weights. The fluctuation integrals are averages over the independent fluctuations of the elastic,
fission and competition widths; the capture width does not fluctuate.
-/

namespace Verif

namespace Spec

/-- A discrete distribution: points with their weights. -/
abbrev Distribution := List (ℝ × ℝ)

/-- The average of `f` under a distribution. -/
def average (D : Distribution) (f : ℝ → ℝ) : ℝ := (D.map fun p => p.2 * f p.1).sum

/-- The average of a function of three independent variables. -/
def average₃ (A B C : Distribution) (f : ℝ → ℝ → ℝ → ℝ) : ℝ :=
  average A fun a => average B fun b => average C fun c => f a b c

/-- The variable that is always zero. -/
def fixed : Distribution := [(0, 1)]

end Spec

namespace Unresolved

open Spec

/-- The distribution given by one column of the quadrature tables. -/
def column (mu : ℕ) : Distribution := (List.range 10).map fun i => ((q i mu : ℝ), (w i mu : ℝ))

/-- The distribution of the fluctuations of a width with the given number of degrees of freedom; a
width that vanishes does not fluctuate, and zero degrees of freedom count as one. -/
noncomputable def fluctuations (width : ℝ) (degrees : ℕ) : Distribution :=
  if width = 0 then fixed else column (degrees - 1)

/-- The total width when the partial widths fluctuate by the given factors. -/
def totalWidth (widths : Data ℝ) (a b c : ℝ) : ℝ :=
  a * widths.elastic + widths.capture + b * widths.fission + c * widths.competition

/-- The fluctuation integrals as averages. -/
noncomputable def averages (widths : Data ℝ) (A B C : Distribution) : Data ℝ :=
  ⟨average₃ A B C fun a b c => a * a / totalWidth widths a b c,
    average₃ A B C fun a b c => a / totalWidth widths a b c,
    average₃ A B C fun a b c => a * b / totalWidth widths a b c,
    average₃ A B C fun a b c => a * c / totalWidth widths a b c⟩

/-- What the degrees of freedom have to be for the function to stay inside its tables. -/
def InTables (widths : Data ℝ) (degrees : Data ℕ) : Prop :=
  1 ≤ degrees.elastic ∧ degrees.elastic ≤ 4 ∧ (widths.fission ≠ 0 → degrees.fission ≤ 4) ∧
    (widths.competition ≠ 0 → degrees.competition ≤ 4)

/-- No combination of fluctuations makes the total width vanish. -/
def Regular (widths : Data ℝ) (A B C : Distribution) : Prop :=
  ∀ a ∈ A, ∀ b ∈ B, ∀ c ∈ C, totalWidth widths a.1 b.1 c.1 ≠ 0

end Unresolved

end Verif
