import Verif.Model.Channel

/-!
# Property C01: particles and particle pairs
-/

namespace Verif

/-- C01: a particle is accepted exactly if neither mass nor charge is negative; it then holds what was
given. Otherwise an exception is thrown. -/
theorem C01_particle (id : Str) (mass charge : ℝ) (spin : ℚ) (parity : ℤ) :
    (0 ≤ mass ∧ 0 ≤ charge → makeParticle id mass charge spin parity
      = .ok { id := id, mass := mass, charge := charge, spin := spin, parity := parity }) ∧
    (mass < 0 ∨ charge < 0 → makeParticle id mass charge spin parity = .error .throws) := by
  unfold makeParticle
  constructor
  · rintro ⟨hm, hc⟩
    rw [if_neg hm.not_gt, if_neg hc.not_gt]
  · intro h
    by_cases hm : mass < 0
    · rw [if_pos hm]
    · rw [if_neg hm, if_pos (h.resolve_left hm)]

/-- The particles that can exist. -/
def Accepted (p : Particle) : Prop :=
  makeParticle p.id p.mass p.charge p.spin p.parity = .ok p

theorem Accepted.nonneg {p : Particle} (h : Accepted p) : 0 ≤ p.mass ∧ 0 ≤ p.charge := by
  by_contra hn
  rw [not_and_or, not_le, not_le] at hn
  have := (C01_particle p.id p.mass p.charge p.spin p.parity).2 hn
  unfold Accepted at h
  rw [this] at h
  cases h

/-- C01: kinematics of a pair of two particles of positive mass. -/
theorem C01_pair (a b : Particle) (ha : 0 < a.mass) (hb : 0 < b.mass) (id id' : PairID) :
    ∃ p q, makeParticlePair a b id = .ok p ∧ makeParticlePair b a id' = .ok q ∧
      p.particle = a ∧ p.residual = b ∧ p.id = id ∧
      0 < p.reducedMass ∧ p.reducedMass < a.mass ∧ p.reducedMass < b.mass ∧
      p.reducedMass = q.reducedMass ∧ 1 / p.reducedMass = 1 / a.mass + 1 / b.mass ∧
      0 < p.massRatio ∧ p.massRatio < 1 ∧ p.massRatio + q.massRatio = 1 ∧
      p.massRatio = b.mass / (a.mass + b.mass) := by
  have hs : 0 < a.mass + b.mass := by linarith
  have hs' : b.mass + a.mass ≠ 0 := by linarith
  refine ⟨_, _, if_neg hs.ne', if_neg hs', rfl, rfl, rfl, ?_, ?_, ?_, ?_, ?_, ?_, ?_, ?_, rfl⟩
  · simp only; positivity
  · simp only
    rw [div_lt_iff₀ hs]
    nlinarith
  · simp only
    rw [div_lt_iff₀ hs]
    nlinarith
  · simp only
    rw [mul_comm, add_comm]
  · simp only
    field_simp
    ring
  · simp only; positivity
  · simp only
    rw [div_lt_one hs]
    linarith
  · simp only
    rw [add_comm b.mass a.mass, ← add_div, add_comm b.mass, div_self hs.ne']

/-- A pair of two massless particles is not rejected; its kinematics are NaN. -/
theorem C01_massless_pair (a b : Particle) (ha : Accepted a) (hb : Accepted b) (id : PairID) :
    makeParticlePair a b id = .error .notFinite ↔ a.mass = 0 ∧ b.mass = 0 := by
  have h1 := ha.nonneg.1
  have h2 := hb.nonneg.1
  unfold makeParticlePair
  simp only
  split
  · rename_i h
    exact ⟨fun _ => ⟨by linarith, by linarith⟩, fun _ => rfl⟩
  · rename_i h
    constructor
    · intro h; cases h
    · rintro ⟨h3, h4⟩
      exact absurd (by rw [h3, h4, add_zero]) h

example : Accepted ⟨"n".toList, 1.008664, 0, 1 / 2, 1⟩ :=
  (C01_particle _ _ _ _ _).1 ⟨by norm_num, le_refl _⟩

example : makeParticle "x".toList 1 (-1) 0 1 = .error .throws :=
  (C01_particle _ _ _ _ _).2 (Or.inr (by norm_num))

example : ∃ p, makeParticlePair ⟨"n".toList, 1, 0, 1 / 2, 1⟩ ⟨"U235".toList, 235, 92, 7 / 2, 1⟩
    "n,U235".toList = .ok p ∧ p.massRatio = 235 / 236 := by
  obtain ⟨p, -, hp, -, -, -, -, -, -, -, -, -, -, -, -, h⟩ :=
    C01_pair ⟨"n".toList, 1, 0, 1 / 2, 1⟩ ⟨"U235".toList, 235, 92, 7 / 2, 1⟩ (by norm_num)
      (by norm_num) "n,U235".toList "U235,n".toList
  exact ⟨p, hp, by rw [h]; norm_num⟩

section

variable (K : Constants) (c : Channel) (E : ℝ)

/-- The wave number satisfies `ħ² k² / 2 μ = |E m + Q|`, so it vanishes exactly at the threshold. -/
theorem C01_wave_number (hm : 0 < c.pair.reducedMass) :
    0 ≤ c.waveNumber K E ∧
    K.hbar ^ 2 * c.waveNumber K E ^ 2 / (2 * c.pair.reducedMass) = |E * c.incident.massRatio + c.q| ∧
    (c.waveNumber K E = 0 ↔ E * c.incident.massRatio + c.q = 0) := by
  have hh := K.hbar_pos
  have hnn : 0 ≤ 2 * c.pair.reducedMass * |E * c.incident.massRatio + c.q| := by positivity
  have h2 : K.hbar ^ 2 * c.waveNumber K E ^ 2 / (2 * c.pair.reducedMass)
      = |E * c.incident.massRatio + c.q| := by
    unfold Channel.waveNumber
    rw [div_pow, Real.sq_sqrt hnn]
    field_simp
  refine ⟨div_nonneg (Real.sqrt_nonneg _) hh.le, h2, ?_⟩
  constructor
  · intro h0
    rw [h0] at h2
    simp only [ne_eq, OfNat.ofNat_ne_zero, not_false_eq_true, zero_pow, mul_zero, zero_div] at h2
    exact abs_eq_zero.mp h2.symm
  · intro h0
    unfold Channel.waveNumber
    rw [h0]
    simp

/-- A channel is closed exactly if the available energy is negative. With a positive mass ratio this
is an energy below the threshold `-Q / m`. -/
theorem C01_threshold (hm : 0 < c.incident.massRatio) :
    c.belowThreshold E ↔ E < -c.q / c.incident.massRatio := by
  unfold Channel.belowThreshold
  rw [lt_div_iff₀ hm]
  constructor <;> intro h <;> linarith

end

example : (makeChannel .neutron ⟨⟨[], 1, 0, 0, 1⟩, ⟨[], 1, 0, 0, 1⟩, [], 1 / 2, 1 / 2⟩
    ⟨⟨[], 1, 0, 0, 1⟩, ⟨[], 1, 0, 0, 1⟩, [], 1 / 2, 1 / 2⟩ [] (-1) ⟨0, 0, 0, 1⟩
    ⟨fun _ => .ok 1, fun _ => .ok 1, fun _ => .ok 1⟩ 0).belowThreshold 1 := by
  rw [C01_threshold]
  · norm_num [makeChannel]
  · norm_num [makeChannel]

end Verif
