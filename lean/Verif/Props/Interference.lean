import Verif.Lemmas.Interference
import Mathlib.Analysis.Real.Pi.Bounds
import Verif.Props.SpinGroupConstruction

/-!
# Property C108: interference between neighbouring resonances
-/

namespace Verif

open Complex Set

section

variable {option : BoundaryOption} {K : Constants} {lib : CoulombLibrary} {g : SpinGroup} {c : Channel} {e₁ e₂ : ℝ}

/-- C108: a spin group with a single channel and without eliminated widths, between two neighbouring resonances
of it. If the hard-sphere phase shift is less than a right angle and the boundary condition is the shift factor,
there are energies between the resonances at which the group does not scatter at all, and energies at which it
scatters as much as unitarity permits. -/
theorem C108_channel (hg : g.Built) (hc : g.channels = [c])
    (hwidths : ∀ r ∈ g.table.resonances, r.widths.length = 1) (hel : ∀ r ∈ g.table.resonances, r.eliminated = 0)
    (he : e₁ < e₂) (hgap : ∀ r ∈ g.table.resonances, r.energy ≤ e₁ ∨ e₂ ≤ r.energy)
    (h₁ : ∃ r ∈ g.table.resonances, r.energy = e₁ ∧ r.widths ≠ [0])
    (h₂ : ∃ r ∈ g.table.resonances, r.energy = e₂ ∧ r.widths ≠ [0])
    {P φ : ℝ → ℝ} (hP : ContinuousOn P (Icc e₁ e₂)) (hφ : ContinuousOn φ (Icc e₁ e₂))
    (hvalues : ∀ E ∈ Icc e₁ e₂, 0 < P E ∧ (0 < φ E ∧ φ E < Real.pi / 2) ∧
      c.penetrability K lib E = .ok (P E) ∧ c.phaseShift K lib E = .ok (φ E) ∧ c.coulombPhaseShift K E = .ok 0 ∧
      (option = .constant → c.shiftFactor K lib E = .ok c.boundary))
    (hopen : ∀ E ∈ Icc e₁ e₂, 0 ≤ c.incident.massRatio * E + c.q)
    (hk : ∀ E ∈ Icc e₁ e₂, c.waveNumber K E ≠ 0) :
    (∃ E ∈ Ioo e₁ e₂, ∀ cache, ∃ m cache', g.evaluate option K lib E cache (fun _ => none) = .ok (m, cache') ∧
      m c.reaction = some 0) ∧
    ∃ E ∈ Ioo e₁ e₂, ∀ cache, ∃ m cache', g.evaluate option K lib E cache (fun _ => none) = .ok (m, cache') ∧
      m c.reaction = some (4 * Real.pi / c.waveNumber K E ^ 2 * c.spinFactor) := by
  obtain ⟨channels, reactions, incident, ⟨ids, rs⟩⟩ := g
  simp only at hc
  subst hc
  simp only at hwidths hel hgap h₁ h₂
  have one {r : Resonance} (hr : r ∈ rs) (h : r.widths ≠ [0]) : r.width 0 ≠ 0 := by
    obtain ⟨x, hx⟩ := List.length_eq_one_iff.mp (hwidths r hr)
    intro h0
    rw [Resonance.width, hx, List.getD_cons_zero] at h0
    rw [hx, h0] at h
    exact h rfl
  have h₁' : ∃ r ∈ rs, r.energy = e₁ ∧ r.width 0 ≠ 0 := by
    obtain ⟨r, hr, a, b⟩ := h₁; exact ⟨r, hr, a, one hr b⟩
  have h₂' : ∃ r ∈ rs, r.energy = e₂ ∧ r.width 0 ≠ 0 := by
    obtain ⟨r, hr, a, b⟩ := h₂; exact ⟨r, hr, a, one hr b⟩
  -- the cross section at an energy, given the collision matrix there
  have final (E : ℝ) (hE : E ∈ Ioo e₁ e₂) (U₀ : ℂ) (hn : normSq U₀ = 1)
      (hU : ∀ U : ℂ, U * (1 - I * (P E * Interference.rFunction rs E : ℝ))
        = exp (-(2 * φ E * I)) * (1 + I * (P E * Interference.rFunction rs E : ℝ)) → U = U₀) (cache) :
      ∃ m cache', (⟨[c], reactions, incident, ⟨ids, rs⟩⟩ : SpinGroup).evaluate option K lib E cache (fun _ => none)
        = .ok (m, cache') ∧
        m c.reaction = some (Real.pi / c.waveNumber K E ^ 2 * c.spinFactor * normSq (1 - U₀)) := by
    have hE' : E ∈ Icc e₁ e₂ := Ioo_subset_Icc_self hE
    obtain ⟨p0, p1, p2, p3, p4, p5⟩ := hvalues E hE'
    have all {p : Fin [c].length → Prop} (h : p 0) : ∀ i, p i := by
      rintro ⟨i, hi⟩
      have : i = 0 := by simpa using hi
      subst this
      exact h
    have hop : ¬ c.belowThreshold E := not_lt.mpr (hopen E hE')
    obtain ⟨⟨m, cache'⟩, hm⟩ := (C19_evaluation_succeeds hg (option := option) (E := E) (lib := lib) (K := K)
      (P := fun _ => P E) (S := fun _ => c.boundary) (w := fun _ => 0) (phi := fun _ => φ E) (all p2)
      (fun ho => all (p5 ho)) (all p4) (all p3) (fun _ => p0.le) (fun _ => all fun _ => p0)
      (fun r hr => hwidths r hr) (fun r hr h => by
        rcases hgap r hr with h' | h'
        · linarith [hE.1, h.1]
        · linarith [hE.2, h.1]) (fun d hd _ => by
        rw [List.mem_singleton.mp hd]
        exact hk E hE') cache (fun _ => none) (fun _ => none)).1
    refine ⟨m, cache', hm, ?_⟩
    obtain ⟨P', S', w', phi', hev, hres⟩ := evaluate_ok hg hm
    have q1 : P' 0 = P E := by simpa using (hev.penetrability 0).symm.trans p2
    have q2 : phi' 0 = φ E := by simpa using (hev.phase 0).symm.trans p3
    have q3 : w' 0 = 0 := by simpa using (hev.coulomb 0).symm.trans p4
    have q4 : option = .constant → S' 0 = c.boundary := fun ho => by
      simpa using (hev.shiftFactor ho 0).symm.trans (p5 ho)
    have hi : c.isIncident = true := by
      obtain ⟨d, hd, -⟩ := hev.waveNumber
      have := List.mem_of_find?_eq_some hd
      rw [List.mem_singleton] at this
      rw [← this]
      exact List.find?_some hd
    have hcol := Interference.collision_one (phi := phi') hop hel q4 (hev.nonneg 0) q3 hev.invertible
    rw [q1, q2] at hcol
    have hmem : c.reaction ∈ reactions := by
      obtain ⟨-, first, rest, h2, h3, -⟩ := hg.incident
      simp only at h3
      rw [h3]
      simp
    rw [hres, if_pos hmem, Option.getD_none, zero_add,
      Interference.contribution_one (hU _ hcol) q3 hi hn]
  constructor
  · obtain ⟨E, hE, h⟩ := Interference.crosses he hgap h₁' h₂'
      (hP.mul (Real.continuous_cos.comp_continuousOn hφ)) (Real.continuous_sin.comp_continuousOn hφ) (fun E hE => by
        obtain ⟨p0, ⟨p1, p2⟩, -⟩ := hvalues E hE
        exact mul_pos p0 (Real.cos_pos_of_mem_Ioo ⟨by linarith [Real.pi_pos], p2⟩))
    refine ⟨E, hE, fun cache => ?_⟩
    obtain ⟨m, cache', hm, hv⟩ := final E hE 1 (by simp) (fun U hU => Interference.collision_zero hU (by
      simp only [Pi.mul_apply, Function.comp_apply] at h
      linarith)) cache
    refine ⟨m, cache', hm, ?_⟩
    rw [hv]
    simp
  · obtain ⟨E, hE, h⟩ := Interference.crosses he hgap h₁' h₂'
      (hP.mul (Real.continuous_sin.comp_continuousOn hφ)) (Real.continuous_cos.comp_continuousOn hφ).neg
      (fun E hE => by
        obtain ⟨p0, ⟨p1, p2⟩, -⟩ := hvalues E hE
        exact mul_pos p0 (Real.sin_pos_of_pos_of_lt_pi p1 (by linarith [Real.pi_pos])))
    refine ⟨E, hE, fun cache => ?_⟩
    obtain ⟨m, cache', hm, hv⟩ := final E hE (-1) (by simp) (fun U hU => Interference.collision_max hU (by
      simp only [Pi.mul_apply, Pi.neg_apply, Function.comp_apply] at h
      linarith)) cache
    refine ⟨m, cache', hm, ?_⟩
    rw [hv]
    have : normSq (1 - -1) = 4 := by norm_num [normSq_apply]
    rw [this]
    congr 1
    ring

/-- C108 for s-wave neutrons and constant radii, in terms of the input data. -/
theorem C108_s_wave (hg : g.Built) (hc : g.channels = [c]) (hn : c.type = .neutron) (hl : c.numbers.l = 0)
    {a b d : ℝ} (ha : 0 < a) (hd : 0 < d) (hrP : ∀ E, c.radii.penetrability E = .ok a)
    (hrS : ∀ E, c.radii.shiftFactor E = .ok b) (hrφ : ∀ E, c.radii.phaseShift E = .ok d)
    (hmass : 0 < c.pair.reducedMass) (hratio : 0 ≤ c.incident.massRatio)
    (hboundary : option = .constant → c.boundary = 0)
    (hwidths : ∀ r ∈ g.table.resonances, r.widths.length = 1) (hel : ∀ r ∈ g.table.resonances, r.eliminated = 0)
    (he : e₁ < e₂) (hgap : ∀ r ∈ g.table.resonances, r.energy ≤ e₁ ∨ e₂ ≤ r.energy)
    (h₁ : ∃ r ∈ g.table.resonances, r.energy = e₁ ∧ r.widths ≠ [0])
    (h₂ : ∃ r ∈ g.table.resonances, r.energy = e₂ ∧ r.widths ≠ [0])
    (hopen : 0 < c.incident.massRatio * e₁ + c.q) (hsmall : c.waveNumber K e₂ * d < Real.pi / 2) :
    (∃ E ∈ Ioo e₁ e₂, ∀ cache, ∃ m cache', g.evaluate option K lib E cache (fun _ => none) = .ok (m, cache') ∧
      m c.reaction = some 0) ∧
    ∃ E ∈ Ioo e₁ e₂, ∀ cache, ∃ m cache', g.evaluate option K lib E cache (fun _ => none) = .ok (m, cache') ∧
      m c.reaction = some (4 * Real.pi / c.waveNumber K E ^ 2 * c.spinFactor) := by
  have hop : ∀ E ∈ Icc e₁ e₂, 0 < c.incident.massRatio * E + c.q := fun E hE => by
    have := mul_le_mul_of_nonneg_left hE.1 hratio
    linarith
  have hk : ∀ E ∈ Icc e₁ e₂, 0 < c.waveNumber K E := fun E hE => waveNumber_pos hmass (hop E hE).ne'
  have hmono : ∀ E ∈ Icc e₁ e₂, c.waveNumber K E ≤ c.waveNumber K e₂ := fun E hE => by
    unfold Channel.waveNumber
    refine div_le_div_of_nonneg_right (Real.sqrt_le_sqrt ?_) K.hbar_pos.le
    have h1 := hop E hE
    have h2 := hop e₂ ⟨he.le, le_rfl⟩
    rw [mul_comm] at h1 h2
    rw [abs_of_pos h1, abs_of_pos h2]
    have := mul_le_mul_of_nonneg_right hE.2 hratio
    exact mul_le_mul_of_nonneg_left (by linarith) (by positivity)
  have hcont : Continuous (c.waveNumber K) := by
    unfold Channel.waveNumber
    fun_prop
  have heta : ∀ E, c.eta K E = .ok 0 := fun E => if_neg (by rw [hn]; decide)
  refine C108_channel hg hc hwidths hel he hgap h₁ h₂ (P := fun E => c.waveNumber K E * a)
    (φ := fun E => c.waveNumber K E * d) (hcont.mul continuous_const).continuousOn
    (hcont.mul continuous_const).continuousOn (fun E hE => ?_) (fun E hE => (hop E hE).le) (fun E hE => (hk E hE).ne')
  refine ⟨mul_pos (hk E hE) ha, ⟨mul_pos (hk E hE) hd,
    (mul_le_mul_of_nonneg_right (hmono E hE) hd.le).trans_lt hsmall⟩, ?_, ?_, ?_, fun ho => ?_⟩
  · simp only [Channel.penetrability, hrP, heta, bind, Except.bind, hn, hl, calculatePenetrability]
  · simp only [Channel.phaseShift, hrφ, heta, bind, Except.bind, hn, hl, calculatePhaseShift]
  · simp only [Channel.coulombPhaseShift, heta, bind, Except.bind, hn, calculateCoulombPhaseShift]
  · simp only [Channel.shiftFactor, hrS, heta, bind, Except.bind, hn, hl, calculateShiftFactor, hboundary ho]

end

namespace Example

theorem two_consistent : Spec.ConsistentGroup [elastic] ⟨[elastic.id], [⟨1, [1 / 2], 0⟩, ⟨2, [1 / 3], 0⟩]⟩ := by
  refine ⟨by simp, ?_, by simp, ?_, ⟨elastic, by simp, rfl⟩, rfl⟩
  · intro c hc d hd
    simp only [List.mem_singleton] at hc hd
    rw [hc, hd]
  · intro c hc d hd
    simp only [List.mem_singleton] at hc hd
    subst hc hd
    exact ⟨rfl, rfl⟩

/-- C108 applies: s-wave resonances at energies 1 and 2, and a channel radius of 1, whose phase shift is at most
`k = 1` there. -/
example (option : BoundaryOption) (lib : CoulombLibrary) : ∃ g : SpinGroup, g.Built ∧ g.channels = [elastic] ∧
    ∃ E ∈ Ioo (1 : ℝ) 2, ∀ cache, ∃ m cache',
      g.evaluate option constants lib E cache (fun _ => none) = .ok (m, cache') ∧ m elastic.reaction = some 0 := by
  obtain ⟨g, hg⟩ := (C24_accepted _ _).mpr two_consistent
  obtain ⟨hb, h1, h2⟩ := SpinGroup.Built.of_make hg
  refine ⟨g, hb, h1, ?_⟩
  refine (C108_s_wave (a := 1) (b := 1) (d := 1) hb h1 rfl rfl one_pos one_pos (fun _ => rfl) (fun _ => rfl)
    (fun _ => rfl) (by norm_num [elastic, makeChannel, pair]) (by norm_num [elastic, makeChannel, pair])
    (fun _ => rfl) ?_ ?_ (by norm_num) ?_ ?_ ?_ (by norm_num [elastic, makeChannel, pair]) ?_).1
  · rw [h2]; simp
  · rw [h2]; simp
  · rw [h2]; simp
  · rw [h2]; exact ⟨_, List.mem_cons_self, rfl, by norm_num⟩
  · rw [h2]; exact ⟨_, List.mem_cons_of_mem _ List.mem_cons_self, rfl, by norm_num⟩
  · have : elastic.waveNumber constants 2 = 1 := by
      norm_num [Channel.waveNumber, elastic, makeChannel, pair, constants]
    rw [this]
    linarith [Real.pi_gt_three]

end Example

end Verif
