import Verif.Props.HardSphere
import Verif.Props.LegacyResolvedExamples

/-!
# C103: the centrifugal barrier

Neutrons with higher angular momentum penetrate less, and faster neutrons penetrate more.
-/

namespace Verif

open Filter Topology

/-! ## Lemmas -/

theorem hsP_step_lt {l : ℕ} (hl : l + 1 ≤ 4) {ρ : ℝ} (hρ : 0 < ρ) : hsP (l + 1) ρ < hsP l ρ := by
  have p2 := pow_pos hρ 2
  have p3 := pow_pos hρ 3
  have p4 := pow_pos hρ 4
  have p5 := pow_pos hρ 5
  have p7 := pow_pos hρ 7
  have p9 := pow_pos hρ 9
  have p11 := pow_pos hρ 11
  have p13 := pow_pos hρ 13
  have d1 := d1_pos ρ
  have d2 := d2_pos ρ
  have d3 := d3_pos ρ
  have d4 := d4_pos ρ
  obtain h | h | h | h : l = 0 ∨ l = 1 ∨ l = 2 ∨ l = 3 := by omega
  · subst h
    simp only [hsP]
    rw [div_lt_iff₀ d1]
    nlinarith
  · subst h
    simp only [hsP]
    rw [div_lt_div_iff₀ d2 d1]
    nlinarith
  · subst h
    simp only [hsP]
    rw [div_lt_div_iff₀ d3 d2]
    nlinarith
  · subst h
    simp only [hsP]
    rw [div_lt_div_iff₀ d4 d3]
    nlinarith

theorem hsS_step_lt {l : ℕ} (hl : l + 1 ≤ 4) (ρ : ℝ) : hsS (l + 1) ρ < hsS l ρ := by
  have p2 : 0 ≤ ρ ^ 2 := by positivity
  have p4 : 0 ≤ ρ ^ 4 := by positivity
  have p6 : 0 ≤ ρ ^ 6 := by positivity
  have p8 : 0 ≤ ρ ^ 8 := by positivity
  have p10 : 0 ≤ ρ ^ 10 := by positivity
  have p12 : 0 ≤ ρ ^ 12 := by positivity
  have d1 := d1_pos ρ
  have d2 := d2_pos ρ
  have d3 := d3_pos ρ
  have d4 := d4_pos ρ
  obtain h | h | h | h : l = 0 ∨ l = 1 ∨ l = 2 ∨ l = 3 := by omega
  · subst h
    simp only [hsS]
    exact div_neg_of_neg_of_pos (by norm_num) d1
  · subst h
    simp only [hsS]
    rw [div_lt_div_iff₀ d2 d1]
    nlinarith
  · subst h
    simp only [hsS]
    rw [div_lt_div_iff₀ d3 d2]
    nlinarith
  · subst h
    simp only [hsS]
    rw [div_lt_div_iff₀ d4 d3]
    nlinarith

theorem hsP_lt {l l' : ℕ} (h : l < l') (hl' : l' ≤ 4) {ρ : ℝ} (hρ : 0 < ρ) : hsP l' ρ < hsP l ρ := by
  induction h with
  | refl => exact hsP_step_lt hl' hρ
  | step _ ih => exact (hsP_step_lt hl' hρ).trans (ih (by omega))

theorem hsS_lt {l l' : ℕ} (h : l < l') (hl' : l' ≤ 4) (ρ : ℝ) : hsS l' ρ < hsS l ρ := by
  induction h with
  | refl => exact hsS_step_lt hl' ρ
  | step _ ih => exact (hsS_step_lt hl' ρ).trans (ih (by omega))

theorem hsS_mono {l : ℕ} (hl : l ≤ 4) (h0 : l ≠ 0) {ρ ρ' : ℝ} (hρ : 0 ≤ ρ) (h : ρ < ρ') :
    hsS l ρ < hsS l ρ' := by
  have hx : ρ ^ 2 < ρ' ^ 2 := pow_lt_pow_left₀ h hρ two_ne_zero
  have e4 : ∀ r : ℝ, r ^ 4 = (r ^ 2) ^ 2 := fun r => by ring
  have e6 : ∀ r : ℝ, r ^ 6 = (r ^ 2) ^ 3 := fun r => by ring
  have e8 : ∀ r : ℝ, r ^ 8 = (r ^ 2) ^ 4 := fun r => by ring
  have d1 := d1_pos ρ
  have d2 := d2_pos ρ
  have d3 := d3_pos ρ
  have d4 := d4_pos ρ
  have d1' := d1_pos ρ'
  have d2' := d2_pos ρ'
  have d3' := d3_pos ρ'
  have d4' := d4_pos ρ'
  have hx0 : 0 ≤ ρ ^ 2 := sq_nonneg _
  have hy0 : 0 ≤ ρ' ^ 2 := sq_nonneg _
  simp only [e4, e6, e8] at d2 d3 d4 d2' d3' d4'
  unfold hsS
  simp only [e4, e6, e8]
  generalize ρ ^ 2 = x at *
  generalize ρ' ^ 2 = y at *
  have q1 : 0 < y - x := by linarith
  have q2 : 0 < y ^ 2 - x ^ 2 := by nlinarith
  have q3 : 0 < y ^ 3 - x ^ 3 := by nlinarith [pow_lt_pow_left₀ hx hx0 (by norm_num : 3 ≠ 0)]
  have q4 : 0 < y ^ 4 - x ^ 4 := by nlinarith [pow_lt_pow_left₀ hx hx0 (by norm_num : 4 ≠ 0)]
  have xy : 0 ≤ x * y := mul_nonneg hx0 hy0
  obtain h | h | h | h : l = 1 ∨ l = 2 ∨ l = 3 ∨ l = 4 := by omega
  · subst h
    simp only
    rw [div_lt_div_iff₀ d1 d1']
    linarith
  · subst h
    simp only
    rw [div_lt_div_iff₀ d2 d2']
    have := mul_nonneg xy q1.le
    nlinarith
  · subst h
    simp only
    rw [div_lt_div_iff₀ d3 d3']
    have := mul_nonneg xy q1.le
    have := mul_nonneg xy q2.le
    have := mul_nonneg (mul_nonneg xy xy) q1.le
    nlinarith
  · subst h
    simp only
    rw [div_lt_div_iff₀ d4 d4']
    have := mul_nonneg xy q1.le
    have := mul_nonneg xy q2.le
    have := mul_nonneg xy q3.le
    have := mul_nonneg (mul_nonneg xy xy) q1.le
    have := mul_nonneg (mul_nonneg xy xy) q2.le
    have := mul_nonneg (mul_nonneg xy (mul_nonneg xy xy)) q1.le
    nlinarith

theorem hsP_mono (lib : CoulombLibrary) {l : ℕ} (hl : l ≤ 4) {ρ ρ' : ℝ} (hρ : 0 ≤ ρ) (h : ρ < ρ') :
    hsP l ρ < hsP l ρ' := by
  rcases hρ.eq_or_lt with h0 | h0
  · subst h0
    have h1 := (C09_at_zero lib l hl 0).1
    rw [calculatePenetrability_eq lib hl] at h1
    rw [Except.ok.inj h1]
    exact (C09_bounds lib l hl ρ' 0 _ _ h (calculatePenetrability_eq lib hl ρ' 0)
      (calculateShiftFactor_eq lib hl ρ' 0)).1
  · exact C09_monotone lib l hl ρ ρ' 0 _ _ h0 h (calculatePenetrability_eq lib hl ρ 0)
      (calculatePenetrability_eq lib hl ρ' 0)

theorem penetrability_values {K : Constants} {lib : CoulombLibrary} {c : Channel} {E P : ℝ}
    (hn : c.type = .neutron) (h : c.penetrability K lib E = .ok P) :
    c.numbers.l ≤ 4 ∧ ∃ a, c.radii.penetrability E = .ok a ∧ P = hsP c.numbers.l (c.waveNumber K E * a) := by
  unfold Channel.penetrability Channel.eta at h
  rw [hn, if_neg (by decide)] at h
  simp only [Bind.bind, Except.bind] at h
  split at h
  · cases h
  rename_i a ha
  have hl : c.numbers.l ≤ 4 := by
    by_contra hl
    rw [(C10_rejection lib c.numbers.l (c.waveNumber K E * a) 0).1.mpr (by omega)] at h
    cases h
  rw [calculatePenetrability_eq lib hl] at h
  exact ⟨hl, a, ha, (Except.ok.inj h).symm⟩

theorem shiftFactor_values {K : Constants} {lib : CoulombLibrary} {c : Channel} {E S : ℝ}
    (hn : c.type = .neutron) (h : c.shiftFactor K lib E = .ok S) :
    c.numbers.l ≤ 4 ∧ ∃ a, c.radii.shiftFactor E = .ok a ∧ S = hsS c.numbers.l (c.waveNumber K E * a) := by
  unfold Channel.shiftFactor Channel.eta at h
  rw [hn, if_neg (by decide)] at h
  simp only [Bind.bind, Except.bind] at h
  split at h
  · cases h
  rename_i a ha
  have hl : c.numbers.l ≤ 4 := by
    by_contra hl
    rw [(C10_rejection lib c.numbers.l (c.waveNumber K E * a) 0).2.1.mpr (by omega)] at h
    cases h
  rw [calculateShiftFactor_eq lib hl] at h
  exact ⟨hl, a, ha, (Except.ok.inj h).symm⟩

theorem waveNumber_lt {K : Constants} {c : Channel} {E E' : ℝ} (hm : 0 < c.pair.reducedMass)
    (hr : 0 < c.incident.massRatio) (ho : ¬ c.belowThreshold E) (h : E < E') :
    c.waveNumber K E < c.waveNumber K E' := by
  unfold Channel.belowThreshold at ho
  push Not at ho
  have h1 : E * c.incident.massRatio < E' * c.incident.massRatio := mul_lt_mul_of_pos_right h hr
  unfold Channel.waveNumber
  refine div_lt_div_of_pos_right ?_ K.hbar_pos
  rw [abs_of_nonneg (by linarith), abs_of_nonneg (by linarith)]
  exact Real.sqrt_lt_sqrt (mul_nonneg (by linarith) (by linarith))
    (mul_lt_mul_of_pos_left (by linarith) (by linarith))

theorem tendsto_inv_of (f F : ℝ → ℝ) {y : ℝ} (hy : F 0 = y) (hF : ContinuousAt F 0)
    (h : ∀ r : ℝ, 0 < r → f r = F r⁻¹) : Tendsto f atTop (𝓝 y) := by
  rw [← hy]
  refine (hF.tendsto.comp tendsto_inv_atTop_zero).congr' ?_
  filter_upwards [eventually_gt_atTop (0 : ℝ)] with r hr
  exact (h r hr).symm

/-! ## The properties -/

section

variable {K : Constants} {lib : CoulombLibrary} {c c' : Channel} {E E' P P' S S' : ℝ}

/-- C103: the penetrability of a neutron channel increases with the energy above its threshold. -/
theorem C103_penetrability_energy (hn : c.type = .neutron) (hm : 0 < c.pair.reducedMass)
    (hr : 0 < c.incident.massRatio)
    (ha : ∃ a, 0 < a ∧ c.radii.penetrability E = .ok a ∧ c.radii.penetrability E' = .ok a)
    (ho : ¬ c.belowThreshold E) (hE : E < E') (h : c.penetrability K lib E = .ok P)
    (h' : c.penetrability K lib E' = .ok P') : P < P' := by
  obtain ⟨a, ha0, ha1, ha2⟩ := ha
  obtain ⟨hl, b, hb, rfl⟩ := penetrability_values hn h
  obtain ⟨-, b', hb', rfl⟩ := penetrability_values hn h'
  obtain rfl := Except.ok.inj (ha1.symm.trans hb)
  obtain rfl := Except.ok.inj (ha2.symm.trans hb')
  exact hsP_mono lib hl (mul_nonneg (div_nonneg (Real.sqrt_nonneg _) K.hbar_pos.le) ha0.le)
    (mul_lt_mul_of_pos_right (waveNumber_lt hm hr ho hE) ha0)

/-- C103: the shift factor of a neutron channel with orbital momentum increases with the energy above its
threshold; without orbital momentum it vanishes. -/
theorem C103_shift_energy (hn : c.type = .neutron) (hm : 0 < c.pair.reducedMass)
    (hr : 0 < c.incident.massRatio)
    (ha : ∃ a, 0 < a ∧ c.radii.shiftFactor E = .ok a ∧ c.radii.shiftFactor E' = .ok a)
    (ho : ¬ c.belowThreshold E) (hE : E < E') (h : c.shiftFactor K lib E = .ok S)
    (h' : c.shiftFactor K lib E' = .ok S') :
    (c.numbers.l = 0 → S = 0 ∧ S' = 0) ∧ (c.numbers.l ≠ 0 → S < S') := by
  obtain ⟨a, ha0, ha1, ha2⟩ := ha
  obtain ⟨hl, b, hb, rfl⟩ := shiftFactor_values hn h
  obtain ⟨-, b', hb', rfl⟩ := shiftFactor_values hn h'
  obtain rfl := Except.ok.inj (ha1.symm.trans hb)
  obtain rfl := Except.ok.inj (ha2.symm.trans hb')
  refine ⟨fun h0 => by rw [h0]; exact ⟨rfl, rfl⟩, fun h0 => ?_⟩
  exact hsS_mono hl h0 (mul_nonneg (div_nonneg (Real.sqrt_nonneg _) K.hbar_pos.le) ha0.le)
    (mul_lt_mul_of_pos_right (waveNumber_lt hm hr ho hE) ha0)

/-- C103: of two neutron channels with the same particles and the same radius, the one with the higher
orbital momentum has the smaller penetrability at all energies but that of the threshold. -/
theorem C103_penetrability_barrier (hn : c.type = .neutron) (hn' : c'.type = .neutron)
    (hi : c'.incident = c.incident) (hp : c'.pair = c.pair) (hq : c'.q = c.q)
    (hm : 0 < c.pair.reducedMass) (hE : E * c.incident.massRatio + c.q ≠ 0)
    (hr : c'.radii.penetrability E = c.radii.penetrability E)
    (ha : ∀ a, c.radii.penetrability E = .ok a → 0 < a) (hl : c.numbers.l < c'.numbers.l)
    (h : c.penetrability K lib E = .ok P) (h' : c'.penetrability K lib E = .ok P') : P' < P := by
  obtain ⟨-, a, ha1, rfl⟩ := penetrability_values hn h
  obtain ⟨hl', b, hb, rfl⟩ := penetrability_values hn' h'
  obtain rfl := Except.ok.inj ((hr.trans ha1).symm.trans hb)
  have hk : c'.waveNumber K E = c.waveNumber K E := by
    unfold Channel.waveNumber
    rw [hi, hp, hq]
  rw [hk]
  refine hsP_lt hl hl' (mul_pos ?_ (ha _ ha1))
  exact div_pos (Real.sqrt_pos.mpr (mul_pos (by linarith) (abs_pos.mpr hE))) K.hbar_pos

/-- C103: its shift factor is smaller, too. -/
theorem C103_shift_barrier (hn : c.type = .neutron) (hn' : c'.type = .neutron)
    (hi : c'.incident = c.incident) (hp : c'.pair = c.pair) (hq : c'.q = c.q)
    (hr : c'.radii.shiftFactor E = c.radii.shiftFactor E) (hl : c.numbers.l < c'.numbers.l)
    (h : c.shiftFactor K lib E = .ok S) (h' : c'.shiftFactor K lib E = .ok S') : S' < S := by
  obtain ⟨-, a, ha1, rfl⟩ := shiftFactor_values hn h
  obtain ⟨hl', b, hb, rfl⟩ := shiftFactor_values hn' h'
  obtain rfl := Except.ok.inj ((hr.trans ha1).symm.trans hb)
  have hk : c'.waveNumber K E = c.waveNumber K E := by
    unfold Channel.waveNumber
    rw [hi, hp, hq]
  rw [hk]
  exact hsS_lt hl hl' _

end

/-- C103: far above the barrier the orbital momentum no longer matters: the ratio of the penetrability to the
channel ratio tends to one, and the shift factor to zero. -/
theorem C103_far_above (lib : CoulombLibrary) (l : ℕ) (hl : l ≤ 4) (η : ℝ) :
    ∃ P S : ℝ → ℝ, (∀ ρ, calculatePenetrability lib .neutron l ρ η = .ok (P ρ) ∧
        calculateShiftFactor lib .neutron l ρ η = .ok (S ρ)) ∧
      Tendsto (fun ρ => P ρ / ρ) atTop (𝓝 1) ∧ Tendsto S atTop (𝓝 0) := by
  refine ⟨hsP l, hsS l, fun ρ => ⟨calculatePenetrability_eq lib hl ρ η, calculateShiftFactor_eq lib hl ρ η⟩,
    ?_, ?_⟩
  · obtain h | h | h | h | h : l = 0 ∨ l = 1 ∨ l = 2 ∨ l = 3 ∨ l = 4 := by omega
    · subst h
      exact tendsto_inv_of (fun ρ => hsP 0 ρ / ρ) (fun _ => 1) rfl continuousAt_const
        fun r hr => by simp only [hsP]; field_simp
    · subst h
      exact tendsto_inv_of (fun ρ => hsP 1 ρ / ρ) (fun t => 1 / (1 + t ^ 2))
        (by norm_num) (ContinuousAt.div (by fun_prop) (by fun_prop) (by norm_num))
        fun r hr => by simp only [hsP]; have := d1_pos r; field_simp; ring
    · subst h
      exact tendsto_inv_of (fun ρ => hsP 2 ρ / ρ) (fun t => 1 / (1 + 3 * t ^ 2 + 9 * t ^ 4))
        (by norm_num) (ContinuousAt.div (by fun_prop) (by fun_prop) (by norm_num))
        fun r hr => by simp only [hsP]; have := d2_pos r; field_simp; ring
    · subst h
      exact tendsto_inv_of (fun ρ => hsP 3 ρ / ρ)
        (fun t => 1 / (1 + 6 * t ^ 2 + 45 * t ^ 4 + 225 * t ^ 6))
        (by norm_num) (ContinuousAt.div (by fun_prop) (by fun_prop) (by norm_num))
        fun r hr => by simp only [hsP]; have := d3_pos r; field_simp; ring
    · subst h
      exact tendsto_inv_of (fun ρ => hsP 4 ρ / ρ)
        (fun t => 1 / (1 + 10 * t ^ 2 + 135 * t ^ 4 + 1575 * t ^ 6 + 11025 * t ^ 8))
        (by norm_num) (ContinuousAt.div (by fun_prop) (by fun_prop) (by norm_num))
        fun r hr => by simp only [hsP]; have := d4_pos r; field_simp; ring
  · obtain h | h | h | h | h : l = 0 ∨ l = 1 ∨ l = 2 ∨ l = 3 ∨ l = 4 := by omega
    · subst h
      exact tendsto_inv_of (hsS 0) (fun _ => 0) rfl continuousAt_const fun r hr => rfl
    · subst h
      exact tendsto_inv_of (hsS 1) (fun t => -t ^ 2 / (1 + t ^ 2))
        (by norm_num) (ContinuousAt.div (by fun_prop) (by fun_prop) (by norm_num))
        fun r hr => by simp only [hsS]; have := d1_pos r; field_simp; ring
    · subst h
      exact tendsto_inv_of (hsS 2) (fun t => -(3 * t ^ 2 + 18 * t ^ 4) / (1 + 3 * t ^ 2 + 9 * t ^ 4))
        (by norm_num) (ContinuousAt.div (by fun_prop) (by fun_prop) (by norm_num))
        fun r hr => by simp only [hsS]; have := d2_pos r; field_simp; ring
    · subst h
      exact tendsto_inv_of (hsS 3) (fun t => -(6 * t ^ 2 + 90 * t ^ 4 + 675 * t ^ 6)
          / (1 + 6 * t ^ 2 + 45 * t ^ 4 + 225 * t ^ 6))
        (by norm_num) (ContinuousAt.div (by fun_prop) (by fun_prop) (by norm_num))
        fun r hr => by simp only [hsS]; have := d3_pos r; field_simp; ring
    · subst h
      exact tendsto_inv_of (hsS 4) (fun t => -(10 * t ^ 2 + 270 * t ^ 4 + 4725 * t ^ 6 + 44100 * t ^ 8)
          / (1 + 10 * t ^ 2 + 135 * t ^ 4 + 1575 * t ^ 6 + 11025 * t ^ 8))
        (by norm_num) (ContinuousAt.div (by fun_prop) (by fun_prop) (by norm_num))
        fun r hr => by simp only [hsS]; have := d4_pos r; field_simp; ring

open BreitWigner.Example in
/-- Channels for s- and p-waves of the same particles, as the theorems ask for, at an energy above the
threshold. -/
example (lib : CoulombLibrary) : (channel 0 (1 / 2) 1).type = .neutron ∧ (channel 1 (1 / 2) 1).type = .neutron ∧
    (channel 1 (1 / 2) 1).pair = (channel 0 (1 / 2) 1).pair ∧
    0 < (channel 0 (1 / 2) 1).pair.reducedMass ∧ 0 < (channel 0 (1 / 2) 1).incident.massRatio ∧
    ¬ (channel 0 (1 / 2) 1).belowThreshold 2 ∧
    2 * (channel 0 (1 / 2) 1).incident.massRatio + (channel 0 (1 / 2) 1).q ≠ 0 ∧
    (channel 0 (1 / 2) 1).penetrability Example.constants lib 2 = .ok 1 ∧
    (channel 1 (1 / 2) 1).penetrability Example.constants lib 2 = .ok (1 / 2) := by
  refine ⟨rfl, rfl, rfl, ?_, ?_, ?_, ?_, ?_, ?_⟩
  · norm_num [channel, makeChannel, Example.pair]
  · norm_num [channel, makeChannel, Example.pair]
  · norm_num [channel, makeChannel, Example.pair, Channel.belowThreshold]
  · norm_num [channel, makeChannel, Example.pair]
  · rw [BreitWigner.Example.penetrability, calculatePenetrability_eq lib (by norm_num)]
    rfl
  · rw [BreitWigner.Example.penetrability, calculatePenetrability_eq lib (by norm_num)]
    norm_num [hsP]

end Verif
