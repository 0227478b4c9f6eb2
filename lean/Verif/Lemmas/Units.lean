import Verif.Spec.Units

/-!
# Lemmas for property C92: channels in other units
-/

namespace Verif

open Spec (Units)

variable {K : Constants} {lib : CoulombLibrary} {E : ℝ} {c : Channel} (u : Units)

theorem units_ratio : u.energy * E / u.energy = E := mul_div_cancel_left₀ E u.energy_pos.ne'

theorem units_waveNumber : (u.channel c).waveNumber (u.constants K) (u.energy * E) = c.waveNumber K E / u.length := by
  unfold Channel.waveNumber
  change Real.sqrt (2 * (u.mass * c.pair.reducedMass) * |u.energy * E * c.incident.massRatio + u.energy * c.q|)
    / (u.length * Real.sqrt (u.energy * u.mass) * K.hbar) = _
  have h1 : 2 * (u.mass * c.pair.reducedMass) * |u.energy * E * c.incident.massRatio + u.energy * c.q|
      = u.energy * u.mass * (2 * c.pair.reducedMass * |E * c.incident.massRatio + c.q|) := by
    rw [mul_assoc u.energy E, ← mul_add, abs_mul, abs_of_pos u.energy_pos]
    ring
  have h2 := (mul_pos u.energy_pos u.mass_pos)
  have h3 := (Real.sqrt_pos.mpr h2).ne'
  have h4 := u.length_pos.ne'
  have h5 := K.hbar_pos.ne'
  rw [h1, Real.sqrt_mul h2.le]
  field_simp

theorem units_sommerfeld :
    (u.channel c).sommerfeldParameter (u.constants K) (u.energy * E) = c.sommerfeldParameter K E := by
  unfold Channel.sommerfeldParameter
  rw [units_waveNumber]
  simp only
  have hz : (u.channel c).pair.particle.charge * (u.channel c).pair.residual.charge
      = u.charge ^ 2 * (c.pair.particle.charge * c.pair.residual.charge) := by
    change u.charge * c.pair.particle.charge * (u.charge * c.pair.residual.charge) = _
    ring
  have hμ : (u.channel c).pair.reducedMass = u.mass * c.pair.reducedMass := rfl
  have hq := u.charge_pos.ne'
  have hL := u.length_pos.ne'
  have hm := u.mass_pos.ne'
  have he := u.energy_pos.ne'
  rw [hz, hμ]
  by_cases h0 : c.pair.particle.charge * c.pair.residual.charge = 0
  · rw [if_pos h0, if_pos (by rw [h0, mul_zero])]
  · rw [if_neg h0, if_neg (mul_ne_zero (pow_ne_zero 2 hq) h0)]
    by_cases h1 : c.pair.reducedMass = 0 ∨ c.waveNumber K E = 0
    · rw [if_pos h1, if_pos]
      rcases h1 with h1 | h1
      · left; rw [h1, mul_zero]
      · right; rw [h1, zero_div]
    · rw [if_neg h1, if_neg]
      · obtain ⟨h1, h2⟩ := not_or.mp h1
        have e1 : (u.constants K).epsilon0 = u.charge ^ 2 / (u.length * u.energy) * K.epsilon0 := rfl
        have e2 : (u.constants K).hbar * (u.constants K).hbar
            = u.length ^ 2 * (u.energy * u.mass) * (K.hbar * K.hbar) := by
          change u.length * Real.sqrt (u.energy * u.mass) * K.hbar
            * (u.length * Real.sqrt (u.energy * u.mass) * K.hbar) = _
          rw [← Real.sq_sqrt (mul_pos u.energy_pos u.mass_pos).le]
          rw [Real.sqrt_sq (Real.sqrt_nonneg _)]
          ring
        rw [e1, e2]
        have h3 := K.hbar_pos.ne'
        have h4 := K.epsilon0_pos.ne'
        have h5 := Real.pi_pos.ne'
        congr 1
        field_simp
      · rintro (h | h)
        · exact h1 (Or.inl ((mul_eq_zero.mp h).resolve_left hm))
        · exact h1 (Or.inr ((div_eq_zero_iff.mp h).resolve_right hL))

theorem units_eta : (u.channel c).eta (u.constants K) (u.energy * E) = c.eta K E := by
  unfold Channel.eta
  rw [units_sommerfeld]
  rfl

/-- The argument of the channel functions does not depend on the units. -/
theorem units_radius (f : ℝ → Outcome ℝ) (F : ℝ → Outcome ℝ) :
    (u.radius f (u.energy * E) >>= fun radius => F (c.waveNumber K E / u.length * radius))
      = f E >>= fun radius => F (c.waveNumber K E * radius) := by
  unfold Spec.Units.radius
  rw [units_ratio]
  cases f E with
  | error e => rfl
  | ok x =>
    change F (c.waveNumber K E / u.length * (u.length * x)) = F (c.waveNumber K E * x)
    congr 1
    have := u.length_pos.ne'
    field_simp

/-- Penetrabilities, shift factors and phase shifts are numbers without units. -/
theorem units_functions :
    (u.channel c).penetrability (u.constants K) lib (u.energy * E) = c.penetrability K lib E ∧
    (u.channel c).shiftFactor (u.constants K) lib (u.energy * E) = c.shiftFactor K lib E ∧
    (u.channel c).phaseShift (u.constants K) lib (u.energy * E) = c.phaseShift K lib E ∧
    (u.channel c).coulombPhaseShift (u.constants K) (u.energy * E) = c.coulombPhaseShift K E := by
  unfold Channel.penetrability Channel.shiftFactor Channel.phaseShift Channel.coulombPhaseShift
  rw [units_eta, units_waveNumber]
  refine ⟨?_, ?_, ?_, rfl⟩ <;> congr 1 <;> funext eta
  · exact units_radius u c.radii.penetrability fun x => calculatePenetrability lib c.type c.numbers.l x eta
  · exact units_radius u c.radii.shiftFactor fun x => calculateShiftFactor lib c.type c.numbers.l x eta
  · exact units_radius u c.radii.phaseShift fun x => calculatePhaseShift lib c.type c.numbers.l x eta

theorem units_threshold : (u.channel c).belowThreshold (u.energy * E) ↔ c.belowThreshold E := by
  unfold Channel.belowThreshold
  change c.incident.massRatio * (u.energy * E) + u.energy * c.q < 0 ↔ _
  rw [mul_left_comm, ← mul_add]
  constructor
  · intro h
    exact (mul_neg_iff.mp h).elim (fun h => h.2) (fun h => absurd h.1 (not_lt.mpr u.energy_pos.le))
  · exact fun h => mul_neg_of_pos_of_neg u.energy_pos h

end Verif
