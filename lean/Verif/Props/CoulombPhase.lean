import Verif.Props.HardSphere
import Verif.Props.SpinGroupMore
import Mathlib.Algebra.BigOperators.Intervals
import Mathlib.Algebra.BigOperators.Group.Finset.Basic

/-!
# Property C12: the Coulomb phase shift of a channel
-/

namespace Verif

theorem sum_range_Icc (f : ℕ → ℝ) (l : ℕ) :
    ((List.range l).map fun n => f (n + 1)).sum = ∑ n ∈ Finset.Icc 1 l, f n := by
  induction l with
  | zero => simp
  | succ l ih =>
    rw [List.range_succ, List.map_append, List.sum_append, ih, Finset.sum_Icc_succ_top (by omega)]
    simp

open Classical in
/-- C12: what the code makes of a charged-particle channel with the Sommerfeld parameter `η`: the sum over
`n = 1 .. l` of the reciprocals of `tan(η/n)`, and no finite value if one of these tangents vanishes. -/
theorem C12_channel {K : Constants} {c : Channel} {E η : ℝ} (hc : c.type = .charged)
    (hη : c.sommerfeldParameter K E = .ok η) :
    c.coulombPhaseShift K E =
      if ∃ n ∈ Finset.Icc 1 c.numbers.l, Real.tan (η / n) = 0 then .error .notFinite
      else .ok (∑ n ∈ Finset.Icc 1 c.numbers.l, 1 / Real.tan (η / n)) := by
  have hiff : (∃ n ∈ List.range c.numbers.l, Real.tan (η / (n + 1 : ℕ)) = 0) ↔
      ∃ n ∈ Finset.Icc 1 c.numbers.l, Real.tan (η / n) = 0 := by
    constructor
    · rintro ⟨n, hn, h⟩
      exact ⟨n + 1, Finset.mem_Icc.mpr ⟨by omega, List.mem_range.mp hn⟩, h⟩
    · rintro ⟨n, hn, h⟩
      obtain ⟨h1, h2⟩ := Finset.mem_Icc.mp hn
      obtain ⟨k, rfl⟩ := Nat.exists_eq_add_of_le' h1
      exact ⟨k, List.mem_range.mpr h2, h⟩
  unfold Channel.coulombPhaseShift Channel.eta
  rw [if_pos hc, hη, hc]
  simp only [bind, Except.bind, calculateCoulombPhaseShift]
  by_cases h : ∃ n ∈ Finset.Icc 1 c.numbers.l, Real.tan (η / n) = 0
  · rw [if_pos h, if_pos (hiff.mpr h)]
  · rw [if_neg h, if_neg fun h' => h (hiff.mp h'), sum_range_Icc fun n => 1 / Real.tan (η / n)]

/-- C12: a channel without charges has the Coulomb phase shift zero at all energies, even at its threshold. -/
theorem C12_channel_neutral (K : Constants) {c : Channel} (E : ℝ) (hc : c.type ≠ .charged) :
    c.coulombPhaseShift K E = .ok 0 := by
  unfold Channel.coulombPhaseShift Channel.eta
  rw [if_neg hc]
  exact C12_partial c.type c.numbers.l 0 (Or.inl hc)

/-- C12: nor has a charged-particle channel with `l = 0` at any energy at which it has a Sommerfeld parameter. -/
theorem C12_channel_s_wave {K : Constants} {c : Channel} {E η : ℝ}
    (hη : c.sommerfeldParameter K E = .ok η) (hl : c.numbers.l = 0) : c.coulombPhaseShift K E = .ok 0 := by
  by_cases hc : c.type = .charged
  · rw [C12_channel hc hη, hl]
    simp
  · exact C12_channel_neutral K E hc

open CoulombExample in
/-- The proton channel with `l = 1` and the Sommerfeld parameter `π/4`. -/
example : elastic.sommerfeldParameter constants 2 = .ok (Real.pi / 4) ∧
    elastic.coulombPhaseShift constants 2 = .ok 1 := by
  have h : elastic.sommerfeldParameter constants 2 = .ok (Real.pi / 4) := by
    have := CoulombExample.eta
    unfold Channel.eta at this
    rwa [if_pos (by rfl)] at this
  refine ⟨h, ?_⟩
  have hl : elastic.numbers.l = 1 := rfl
  rw [C12_channel rfl h, hl]
  simp [Real.cot_eq_cos_div_sin]

end Verif
