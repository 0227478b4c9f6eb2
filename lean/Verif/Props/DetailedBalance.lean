import Verif.Spec.DetailedBalance
import Verif.Props.SpinGroup
import Verif.Props.SpinGroupConstruction
import Verif.Props.OneLevel
import Verif.Lemmas.System

/-!
# Property C90: detailed balance
-/

namespace Verif

open Complex Matrix

variable {option : BoundaryOption} {K : Constants} {lib : CoulombLibrary} {E Q : ℝ} {a b : ParticlePair}
  {channels : List Channel} {rs : List Resonance}

theorem inverseEnergy_back (h : Spec.TwoPairs a b) :
    Spec.inverseEnergy b a (-Q) (Spec.inverseEnergy a b Q E) = E := by
  have h1 := h.massRatio.1.ne'
  have h2 := h.massRatio.2.ne'
  unfold Spec.inverseEnergy
  field_simp
  ring

theorem inverseEnergy_centre (h : Spec.TwoPairs a b) (q : ℝ) :
    Spec.inverseEnergy a b Q E * b.massRatio + (q - Q) = E * a.massRatio + q := by
  have h2 := h.massRatio.2.ne'
  unfold Spec.inverseEnergy
  field_simp
  ring

section

variable {c : Channel}

theorem inverse_waveNumber (h : Spec.TwoPairs a b) (hc : c.incident = a) :
    (Spec.inverseChannel a b Q c).waveNumber K (Spec.inverseEnergy a b Q E) = c.waveNumber K E := by
  unfold Channel.waveNumber
  rw [hc]
  change Real.sqrt (2 * c.pair.reducedMass * |Spec.inverseEnergy a b Q E * b.massRatio + (c.q - Q)|) / K.hbar = _
  rw [inverseEnergy_centre h]

theorem inverse_eta (h : Spec.TwoPairs a b) (hc : c.incident = a) :
    (Spec.inverseChannel a b Q c).eta K (Spec.inverseEnergy a b Q E) = c.eta K E := by
  unfold Channel.eta Channel.sommerfeldParameter
  rw [inverse_waveNumber h hc]
  rfl

theorem inverse_functions (h : Spec.TwoPairs a b) (hc : c.incident = a) :
    (Spec.inverseChannel a b Q c).penetrability K lib (Spec.inverseEnergy a b Q E) = c.penetrability K lib E ∧
    (Spec.inverseChannel a b Q c).shiftFactor K lib (Spec.inverseEnergy a b Q E) = c.shiftFactor K lib E ∧
    (Spec.inverseChannel a b Q c).phaseShift K lib (Spec.inverseEnergy a b Q E) = c.phaseShift K lib E ∧
    (Spec.inverseChannel a b Q c).coulombPhaseShift K (Spec.inverseEnergy a b Q E) = c.coulombPhaseShift K E := by
  unfold Channel.penetrability Channel.shiftFactor Channel.phaseShift Channel.coulombPhaseShift
  rw [inverse_eta h hc, inverse_waveNumber h hc]
  refine ⟨?_, ?_, ?_, rfl⟩
  · change (do
      let eta ← c.eta K E
      let radius ← c.radii.penetrability (Spec.inverseEnergy b a (-Q) (Spec.inverseEnergy a b Q E))
      calculatePenetrability lib c.type c.numbers.l (c.waveNumber K E * radius) eta) = _
    rw [inverseEnergy_back h]
  · change (do
      let eta ← c.eta K E
      let radius ← c.radii.shiftFactor (Spec.inverseEnergy b a (-Q) (Spec.inverseEnergy a b Q E))
      calculateShiftFactor lib c.type c.numbers.l (c.waveNumber K E * radius) eta) = _
    rw [inverseEnergy_back h]
  · change (do
      let eta ← c.eta K E
      let radius ← c.radii.phaseShift (Spec.inverseEnergy b a (-Q) (Spec.inverseEnergy a b Q E))
      calculatePhaseShift lib c.type c.numbers.l (c.waveNumber K E * radius) eta) = _
    rw [inverseEnergy_back h]

theorem inverse_threshold (h : Spec.TwoPairs a b) (hc : c.incident = a) :
    (Spec.inverseChannel a b Q c).belowThreshold (Spec.inverseEnergy a b Q E) ↔ c.belowThreshold E := by
  unfold Channel.belowThreshold
  rw [hc]
  change b.massRatio * Spec.inverseEnergy a b Q E + (c.q - Q) < 0 ↔ _
  rw [mul_comm, inverseEnergy_centre h, mul_comm]

end

/-- The channels of the inverse group, in the same order. -/
noncomputable def inverseIndex (a b : ParticlePair) (Q : ℝ) (channels : List Channel) :
    Fin channels.length ≃ Fin (channels.map (Spec.inverseChannel a b Q)).length :=
  finCongr (by rw [List.length_map])

theorem inverse_getElem (i : Fin channels.length) :
    (channels.map (Spec.inverseChannel a b Q))[inverseIndex a b Q channels i]
      = Spec.inverseChannel a b Q channels[i] :=
  List.getElem_map _

theorem inverse_width (r : Resonance) (i : ℕ) :
    (Spec.inverseResonance a b Q r).width i = Real.sqrt (a.massRatio / b.massRatio) * r.width i := by
  unfold Resonance.width Spec.inverseResonance
  simp only [List.getD_eq_getElem?_getD, List.getElem?_map]
  cases r.widths[i]? <;> simp

theorem inverse_rMatrix (h : Spec.TwoPairs a b) (hc : Spec.ChannelsOf a b Q channels) :
    (Spec.rMatrix (channels.map (Spec.inverseChannel a b Q)) (rs.map (Spec.inverseResonance a b Q))
      (Spec.inverseEnergy a b Q E)).submatrix (inverseIndex a b Q channels) (inverseIndex a b Q channels)
      = Spec.rMatrix channels rs E := by
  have hrat : 0 < a.massRatio / b.massRatio := div_pos h.massRatio.1 h.massRatio.2
  have hb := h.massRatio.2.ne'
  have hamp : ∀ r (i : Fin channels.length), Spec.amplitude (channels.map (Spec.inverseChannel a b Q))
      (Spec.inverseEnergy a b Q E) (Spec.inverseResonance a b Q r) (inverseIndex a b Q channels i)
        = Real.sqrt (a.massRatio / b.massRatio) * Spec.amplitude channels E r i := by
    intro r i
    unfold Spec.amplitude
    rw [inverse_getElem]
    have ht := inverse_threshold (E := E) (Q := Q) h (hc.incident channels[i] (List.getElem_mem _))
    by_cases h1 : channels[i].belowThreshold E
    · rw [if_pos (ht.mpr h1), if_pos h1, mul_zero]
    · rw [if_neg (fun h => h1 (ht.mp h)), if_neg h1]
      exact inverse_width r i
  ext i j
  simp only [Matrix.submatrix_apply, Spec.rMatrix, Matrix.of_apply, List.map_map]
  congr 1
  refine List.map_congr_left fun r _ => ?_
  simp only [Function.comp_apply, hamp]
  have e1 : (((Spec.inverseResonance a b Q r).energy : ℝ) : ℂ) - (Spec.inverseEnergy a b Q E : ℝ)
      - I * ((Spec.inverseResonance a b Q r).eliminated : ℂ) ^ 2
      = ((a.massRatio / b.massRatio : ℝ) : ℂ) * ((r.energy : ℂ) - E - I * (r.eliminated : ℂ) ^ 2) := by
    have e2 : (((Spec.inverseResonance a b Q r).eliminated : ℂ)) ^ 2
        = ((a.massRatio / b.massRatio : ℝ) : ℂ) * (r.eliminated : ℂ) ^ 2 := by
      change ((Real.sqrt (a.massRatio / b.massRatio) * r.eliminated : ℝ) : ℂ) ^ 2 = _
      rw [← ofReal_pow, mul_pow, Real.sq_sqrt hrat.le]
      push_cast
      ring
    have e3 : (Spec.inverseResonance a b Q r).energy - Spec.inverseEnergy a b Q E
        = a.massRatio / b.massRatio * (r.energy - E) := by
      change Spec.inverseEnergy a b Q r.energy - Spec.inverseEnergy a b Q E = _
      unfold Spec.inverseEnergy
      field_simp
      ring
    rw [e2, ← ofReal_sub, e3]
    push_cast
    ring
  rw [e1]
  have e4 : ∀ x y : ℝ, (((Real.sqrt (a.massRatio / b.massRatio) * x : ℝ)) : ℂ)
      * ((Real.sqrt (a.massRatio / b.massRatio) * y : ℝ) : ℂ)
      = ((a.massRatio / b.massRatio : ℝ) : ℂ) * ((x : ℂ) * y) := by
    intro x y
    rw [← ofReal_mul, show Real.sqrt (a.massRatio / b.massRatio) * x * (Real.sqrt (a.massRatio / b.massRatio) * y)
      = Real.sqrt (a.massRatio / b.massRatio) ^ 2 * (x * y) by ring, Real.sq_sqrt hrat.le]
    push_cast
    ring
  rw [e4, mul_div_mul_left _ _ (ofReal_ne_zero.mpr hrat.ne')]

section

variable {P S w phi : Fin channels.length → ℝ}

theorem inverse_denominator (h : Spec.TwoPairs a b) (hc : Spec.ChannelsOf a b Q channels) :
    (Spec.levelDenominator option (channels.map (Spec.inverseChannel a b Q))
      (rs.map (Spec.inverseResonance a b Q)) (Spec.inverseEnergy a b Q E)
      (P ∘ (inverseIndex a b Q channels).symm) (S ∘ (inverseIndex a b Q channels).symm)).submatrix
        (inverseIndex a b Q channels) (inverseIndex a b Q channels)
      = Spec.levelDenominator option channels rs E P S := by
  unfold Spec.levelDenominator
  have hL : ∀ i, Spec.logDerivative option (channels.map (Spec.inverseChannel a b Q))
      (P ∘ (inverseIndex a b Q channels).symm) (S ∘ (inverseIndex a b Q channels).symm)
      (inverseIndex a b Q channels i) = Spec.logDerivative option channels P S i := by
    intro i
    cases option with
    | shiftFactor => simp [Spec.logDerivative]
    | constant =>
      simp only [Spec.logDerivative, Function.comp_apply, Equiv.symm_apply_apply, inverse_getElem]
      rfl
  rw [← inverse_rMatrix h hc]
  ext i j
  simp only [Matrix.submatrix_apply, Matrix.sub_apply, Matrix.mul_diagonal, hL, Matrix.one_apply,
    EmbeddingLike.apply_eq_iff_eq]

theorem inverse_collision (h : Spec.TwoPairs a b) (hc : Spec.ChannelsOf a b Q channels)
    (i j : Fin channels.length) :
    Spec.collision (Spec.tMatrix option (channels.map (Spec.inverseChannel a b Q))
      (rs.map (Spec.inverseResonance a b Q)) (Spec.inverseEnergy a b Q E)
      (P ∘ (inverseIndex a b Q channels).symm) (S ∘ (inverseIndex a b Q channels).symm))
      (w ∘ (inverseIndex a b Q channels).symm) (phi ∘ (inverseIndex a b Q channels).symm)
      (inverseIndex a b Q channels i) (inverseIndex a b Q channels j)
      = Spec.collision (Spec.tMatrix option channels rs E P S) w phi i j := by
  simp only [Spec.collision, Function.comp_apply, Equiv.symm_apply_apply, EmbeddingLike.apply_eq_iff_eq]
  congr 3
  simp only [Spec.tMatrix, Matrix.of_apply, Function.comp_apply, Equiv.symm_apply_apply]
  rw [← inverse_denominator h hc, ← inverse_rMatrix h hc, inv_submatrix_equiv, submatrix_mul_equiv,
    Matrix.submatrix_apply]

theorem collision_symmetric (hdet : (Spec.levelDenominator option channels rs E P S).det ≠ 0)
    (i j : Fin channels.length) :
    Spec.collision (Spec.tMatrix option channels rs E P S) w phi i j
      = Spec.collision (Spec.tMatrix option channels rs E P S) w phi j i := by
  unfold Spec.collision
  rw [tMatrix_symm hdet i j]
  simp only [eq_comm (a := i)]
  ring

theorem isIncident_of {c : Channel} {p : ParticlePair} (hc : c.incident = p) :
    c.isIncident ↔ c.pair.id = p.id := by
  unfold Channel.isIncident
  rw [hc, beq_iff_eq]

theorem transition_of {p : ParticlePair} {x y : PairID} (hx : p.id ≠ y) :
    makeReactionID p.id x = .transition p.id y ↔ x = y := by
  unfold makeReactionID
  split
  · rename_i h
    subst h
    simp [hx]
  · simp

/-- What a group contributes to the reaction from the incident pair `p` to another pair `y`. -/
theorem contribution_transition {p : ParticlePair} {y : PairID} (hy : p.id ≠ y) (hcap : y ≠ "capture".toList)
    (hinc : ∀ c ∈ channels, c.incident = p)
    (hreac : ∀ c ∈ channels, c.reaction = makeReactionID p.id c.pair.id) :
    Spec.contribution option K channels rs E P S w phi (.transition p.id y)
      = Spec.incidentFactor K channels E * ∑ i : Fin channels.length, ∑ j : Fin channels.length,
        if channels[i].pair.id = p.id ∧ channels[j].pair.id = y then
          normSq (Spec.collision (Spec.tMatrix option channels rs E P S) w phi i j) else 0 := by
  unfold Spec.contribution
  simp only
  rw [Finset.mul_sum]
  refine Finset.sum_congr rfl fun i _ => ?_
  have hi := List.getElem_mem (l := channels) i.2
  have hi2 : channels[i].isIncident = true ↔ channels[i].pair.id = p.id := isIncident_of (hinc _ hi)
  have hcapture : Spec.captureID channels ≠ some (.transition p.id y) := by
    unfold Spec.captureID
    cases h0 : channels with
    | nil => simp
    | cons c cs =>
      simp only [List.head?_cons, Option.map_some, ne_eq, Option.some.injEq, ReactionID.transition.injEq, not_and]
      exact fun _ h => hcap h.symm
  rw [if_neg hcapture, add_zero]
  by_cases h1 : channels[i].pair.id = p.id
  · rw [if_pos (hi2.mpr h1), Finset.mul_sum]
    refine Finset.sum_congr rfl fun j _ => ?_
    have hj := List.getElem_mem (l := channels) j.2
    have hj2 : channels[j].reaction = .transition p.id y ↔ channels[j].pair.id = y := by
      have := hreac _ hj
      change channels[j].reaction = _ at this
      rw [this]
      exact transition_of hy
    by_cases h2 : channels[j].pair.id = y
    · rw [if_pos (hj2.mpr h2), if_pos ⟨h1, h2⟩]
      have hne : i ≠ j := by
        rintro rfl
        exact hy (h1.symm.trans h2)
      simp only [Spec.partialCrossSection, if_neg hne, zero_sub, normSq_neg]
    · rw [if_neg (fun h => h2 (hj2.mp h)), if_neg (fun h => h2 h.2), mul_zero]
  · rw [if_neg (fun h => h1 (hi2.mp h)), Finset.sum_eq_zero, mul_zero]
    exact fun j _ => if_neg fun h => h1 h.1

theorem inverse_of :
    (∀ c ∈ channels.map (Spec.inverseChannel a b Q), c.incident = b) ∧
    (∀ c ∈ channels.map (Spec.inverseChannel a b Q), c.reaction = makeReactionID b.id c.pair.id) := by
  constructor <;> intro c h
  · obtain ⟨c, -, rfl⟩ := List.mem_map.mp h
    rfl
  · obtain ⟨c, -, rfl⟩ := List.mem_map.mp h
    rfl

theorem spinFactor_states {J : ℚ} {p : ParticlePair} (h1 : 0 ≤ p.particle.spin) (h2 : 0 ≤ p.residual.spin) :
    statisticalSpinFactor J p.particle.spin p.residual.spin * Spec.spinStates p = 2 * J + 1 := by
  unfold statisticalSpinFactor Spec.spinStates
  field_simp

/-- The factor of the incident pair. -/
theorem factor_states {p : ParticlePair} {J : ℚ} {ε : ℝ} (hμ : 0 < p.reducedMass)
    (h1 : 0 ≤ p.particle.spin) (h2 : 0 ≤ p.residual.spin)
    (hex : ∃ c ∈ channels, c.isIncident)
    (hall : ∀ c ∈ channels, c.isIncident → c.pair = p ∧ E * c.incident.massRatio + c.q = ε ∧ c.numbers.J = J ∧
      c.spinFactor = statisticalSpinFactor c.numbers.J c.pair.particle.spin c.pair.residual.spin) (hε : ε ≠ 0) :
    Spec.incidentFactor K channels E * (p.reducedMass * |ε| * Spec.spinStates p)
      = Real.pi * K.hbar ^ 2 * (2 * J + 1) / 2 ∧
    ∃ c, channels.find? Channel.isIncident = some c ∧ c.waveNumber K E ≠ 0 := by
  obtain ⟨c, hc⟩ : ∃ c, channels.find? Channel.isIncident = some c := by
    cases h : channels.find? Channel.isIncident with
    | some c => exact ⟨c, rfl⟩
    | none =>
      obtain ⟨c, hc, hi⟩ := hex
      exact absurd hi (List.find?_eq_none.mp h c hc)
  obtain ⟨e1, e2, e3, e4⟩ := hall c (List.mem_of_find?_eq_some hc) (List.find?_some hc)
  have hk : c.waveNumber K E ^ 2 = 2 * p.reducedMass * |ε| / K.hbar ^ 2 := by
    unfold Channel.waveNumber
    rw [e1, e2, div_pow, Real.sq_sqrt (by positivity)]
  have hħ := K.hbar_pos
  have hpos : 0 < |ε| := abs_pos.mpr hε
  constructor
  · unfold Spec.incidentFactor
    rw [hc]
    simp only
    have e5 : (c.spinFactor : ℝ) * (Spec.spinStates p : ℝ) = 2 * (J : ℝ) + 1 := by
      have := spinFactor_states (J := J) h1 h2
      rw [e4, e3, e1]
      exact_mod_cast this
    rw [hk, ← e5]
    field_simp
  · refine ⟨c, hc, fun h0 => ?_⟩
    rw [h0] at hk
    have : 0 < 2 * p.reducedMass * |ε| / K.hbar ^ 2 := by positivity
    rw [← hk] at this
    norm_num at this

/-- The inverse group can be evaluated, and its contributions are related to those of the group. -/
theorem inverse_contribution (h : Spec.TwoPairs a b) (hc : Spec.ChannelsOf a b Q channels) {J : ℚ}
    (hJ : ∀ c ∈ channels, c.numbers.J = J) (hb : ∃ c ∈ channels, c.pair.id = b.id)
    (hE : a.massRatio * E + Q ≠ 0) (hev : Spec.Evaluable option K lib channels rs E P S w phi) :
    ∃ P' S' w' phi', Spec.Evaluable option K lib (channels.map (Spec.inverseChannel a b Q))
        (rs.map (Spec.inverseResonance a b Q)) (Spec.inverseEnergy a b Q E) P' S' w' phi' ∧
      Spec.contribution option K channels rs E P S w phi (.transition a.id b.id)
          * (a.reducedMass * |a.massRatio * E| * Spec.spinStates a)
        = Spec.contribution option K (channels.map (Spec.inverseChannel a b Q))
          (rs.map (Spec.inverseResonance a b Q)) (Spec.inverseEnergy a b Q E) P' S' w' phi'
            (.transition b.id a.id) * (b.reducedMass * |a.massRatio * E + Q| * Spec.spinStates b) := by
  set σ := inverseIndex a b Q channels with hσ
  have hget : ∀ i, (channels.map (Spec.inverseChannel a b Q))[i]
      = Spec.inverseChannel a b Q channels[σ.symm i] := by
    intro i
    exact List.getElem_map _
  have hin : ∀ i : Fin channels.length, channels[i].incident = a := fun i => hc.incident _ (List.getElem_mem _)
  obtain ⟨hi1, hi2⟩ := inverse_of (a := a) (b := b) (Q := Q) (channels := channels)
  have hE0 : a.massRatio * E ≠ 0 := by
    obtain ⟨c, h1, h2⟩ := hev.waveNumber
    intro h0
    apply h2
    have hcm := List.mem_of_find?_eq_some h1
    obtain ⟨-, hq⟩ := hc.entrance c hcm ((isIncident_of (hc.incident c hcm)).mp (List.find?_some h1))
    unfold Channel.waveNumber
    rw [hc.incident c hcm, hq, mul_comm E, h0]
    simp
  have hexa : ∃ c ∈ channels, c.isIncident := by
    obtain ⟨c, h1, -⟩ := hev.waveNumber
    exact ⟨c, List.mem_of_find?_eq_some h1, List.find?_some h1⟩
  obtain ⟨fa, -⟩ := factor_states (K := K) (E := E) (p := a) (J := J) (ε := a.massRatio * E) h.reducedMass.1
    h.spins.1 h.spins.2.1 hexa (by
      intro c hcm hi
      obtain ⟨e1, e2⟩ := hc.entrance c hcm ((isIncident_of (hc.incident c hcm)).mp hi)
      refine ⟨e1, ?_, hJ c hcm, hc.spinFactor c hcm⟩
      rw [hc.incident c hcm, e2, add_zero, mul_comm]) hE0
  obtain ⟨fb, hwave⟩ := factor_states (K := K) (E := Spec.inverseEnergy a b Q E) (p := b) (J := J)
    (channels := channels.map (Spec.inverseChannel a b Q)) (ε := a.massRatio * E + Q) h.reducedMass.2
    h.spins.2.2.1 h.spins.2.2.2 (by
      obtain ⟨c, h1, h2⟩ := hb
      exact ⟨_, List.mem_map_of_mem h1, (isIncident_of rfl).mpr h2⟩) (by
      intro c' hcm' hi
      obtain ⟨c, hcm, rfl⟩ := List.mem_map.mp hcm'
      have hid : (Spec.inverseChannel a b Q c).pair.id = b.id := (isIncident_of rfl).mp hi
      obtain ⟨e1, e2⟩ := hc.exit c hcm hid
      refine ⟨e1, ?_, hJ c hcm, hc.spinFactor c hcm⟩
      change Spec.inverseEnergy a b Q E * b.massRatio + (c.q - Q) = _
      rw [inverseEnergy_centre h, e2, mul_comm]) hE
  refine ⟨P ∘ σ.symm, S ∘ σ.symm, w ∘ σ.symm, phi ∘ σ.symm, ⟨?_, ?_, ?_, ?_, fun i => hev.nonneg _, ?_, ?_, ?_,
    hwave⟩, ?_⟩
  · intro i
    rw [hget i, (inverse_functions h (hin _)).1]
    exact hev.penetrability _
  · intro ho i
    rw [hget i, (inverse_functions h (hin _)).2.1]
    exact hev.shiftFactor ho _
  · intro i
    rw [hget i, (inverse_functions (lib := lib) h (hin _)).2.2.2]
    exact hev.coulomb _
  · intro i
    rw [hget i, (inverse_functions h (hin _)).2.2.1]
    exact hev.phase _
  · intro r' hr'
    obtain ⟨r, hr, rfl⟩ := List.mem_map.mp hr'
    rw [List.length_map, ← hev.widths r hr]
    exact List.length_map _
  · intro r' hr'
    obtain ⟨r, hr, rfl⟩ := List.mem_map.mp hr'
    rintro ⟨h1, h2⟩
    have hrat := Real.sqrt_pos.mpr (div_pos h.massRatio.1 h.massRatio.2)
    refine hev.noPole r hr ⟨?_, (mul_eq_zero.mp h2).resolve_left hrat.ne'⟩
    have : Spec.inverseEnergy a b Q r.energy = Spec.inverseEnergy a b Q E := h1
    rw [← inverseEnergy_back (Q := Q) (E := r.energy) h, this, inverseEnergy_back h]
  · have := hev.invertible
    rwa [← inverse_denominator h hc, det_submatrix_equiv_self] at this
  · rw [contribution_transition h.different h.notCapture.2 hc.incident hc.reaction,
      contribution_transition h.different.symm h.notCapture.1 hi1 hi2]
    have hsum : (∑ i, ∑ j, if (channels.map (Spec.inverseChannel a b Q))[i].pair.id = b.id ∧
          (channels.map (Spec.inverseChannel a b Q))[j].pair.id = a.id then
          normSq (Spec.collision (Spec.tMatrix option (channels.map (Spec.inverseChannel a b Q))
            (rs.map (Spec.inverseResonance a b Q)) (Spec.inverseEnergy a b Q E) (P ∘ σ.symm) (S ∘ σ.symm))
            (w ∘ σ.symm) (phi ∘ σ.symm) i j) else 0)
        = ∑ i : Fin channels.length, ∑ j : Fin channels.length,
          if channels[i].pair.id = a.id ∧ channels[j].pair.id = b.id then
          normSq (Spec.collision (Spec.tMatrix option channels rs E P S) w phi i j) else 0 := by
      rw [← Equiv.sum_comp σ]
      simp_rw [← Equiv.sum_comp σ (fun j => ite _ _ _)]
      rw [Finset.sum_comm]
      refine Finset.sum_congr rfl fun i _ => Finset.sum_congr rfl fun j _ => ?_
      rw [inverse_collision h hc, inverse_getElem, inverse_getElem, collision_symmetric hev.invertible j i]
      simp only [Spec.inverseChannel, and_comm]
    rw [hsum, mul_right_comm, fa, mul_right_comm (Spec.incidentFactor K (channels.map _) _), fb]

end

/-- What has been added to the cross section of a reaction. -/
def added (start m : CrossSectionMap) (id : ReactionID) : ℝ := (m id).getD 0 - (start id).getD 0

theorem mem_reactions {g : SpinGroup} (hg : g.Built) {p : ParticlePair} {y : PairID} (hy : p.id ≠ y)
    (hcap : y ≠ "capture".toList) (hreac : ∀ c ∈ g.channels, c.reaction = makeReactionID p.id c.pair.id) :
    .transition p.id y ∈ g.reactions ↔ ∃ c ∈ g.channels, c.pair.id = y := by
  obtain ⟨-, first, rest, -, h3, -⟩ := hg.incident
  rw [h3, List.mem_append, List.mem_map, List.mem_singleton]
  constructor
  · rintro (⟨c, h1, h2⟩ | h)
    · rw [hreac c h1] at h2
      exact ⟨c, h1, (transition_of hy).mp h2⟩
    · exact absurd (ReactionID.transition.inj h).2 hcap
  · rintro ⟨c, h1, h2⟩
    refine Or.inl ⟨c, h1, ?_⟩
    rw [hreac c h1]
    exact (transition_of hy).mpr h2

/-- C90 for a spin group: detailed balance. The group for the inverse reactions can be evaluated at the same energy
of the compound nucleus, and the cross sections of a reaction and its inverse are related by the wave numbers and
the numbers of spin states. -/
theorem C90_spin_group {g g' : SpinGroup} (hg : g.Built) (hg' : g'.Built) (h : Spec.TwoPairs a b)
    (hc : Spec.ChannelsOf a b Q g.channels)
    (hchannels : g'.channels = g.channels.map (Spec.inverseChannel a b Q))
    (hresonances : g'.table.resonances = g.table.resonances.map (Spec.inverseResonance a b Q))
    (hE : a.massRatio * E + Q ≠ 0)
    {cache c : MatrixCache g.channels.length} {start m : CrossSectionMap}
    (hok : g.evaluate option K lib E cache start = .ok (m, c))
    (cache' : MatrixCache g'.channels.length) (start' : CrossSectionMap) :
    ∃ m' c', g'.evaluate option K lib (Spec.inverseEnergy a b Q E) cache' start' = .ok (m', c') ∧
      added start m (.transition a.id b.id) * (a.reducedMass * |a.massRatio * E| * Spec.spinStates a)
        = added start' m' (.transition b.id a.id)
          * (b.reducedMass * |a.massRatio * E + Q| * Spec.spinStates b) := by
  obtain ⟨P, S, w, phi, hev, hres⟩ := evaluate_ok hg hok
  have hcons := (C24_accepted _ _).mp ⟨g, hg⟩
  have hcons' := (C24_accepted _ _).mp ⟨g', hg'⟩
  obtain ⟨first, rest, hfirst⟩ := List.exists_cons_of_ne_nil hcons.nonempty
  have hb : ∃ c ∈ g.channels, c.pair.id = b.id := by
    obtain ⟨c, h1, h2⟩ := hcons'.hasIncident
    rw [hchannels] at h1
    obtain ⟨d, h3, rfl⟩ := List.mem_map.mp h1
    exact ⟨d, h3, h2⟩
  have hmem : ReactionID.transition a.id b.id ∈ g.reactions :=
    (mem_reactions hg h.different h.notCapture.2 hc.reaction).mpr hb
  obtain ⟨hi1, hi2⟩ := inverse_of (a := a) (b := b) (Q := Q) (channels := g.channels)
  have ha' : ReactionID.transition b.id a.id ∈ g'.reactions := by
    refine (mem_reactions hg' h.different.symm h.notCapture.1 (by rwa [hchannels])).mpr ?_
    obtain ⟨c, h1, h2⟩ := hcons.hasIncident
    rw [hchannels]
    refine ⟨_, List.mem_map_of_mem h1, ?_⟩
    rw [← hc.incident c h1]
    exact h2
  obtain ⟨P', S', w', phi', hev', hcon⟩ := inverse_contribution h hc (J := first.numbers.J)
    (fun c hcm => (hcons.sameJpi c hcm first (by rw [hfirst]; exact List.mem_cons_self)).1) hb hE hev
  obtain ⟨channels', reactions', incident', table'⟩ := g'
  obtain ⟨tc, trs⟩ := table'
  simp only at hchannels hresonances
  subst hchannels hresonances
  obtain ⟨⟨m', c'⟩, e⟩ := evaluate_ok_of hg' hev' cache' start'
  obtain ⟨P₂, S₂, w₂, phi₂, hev₂, hres'⟩ := evaluate_ok hg' e
  refine ⟨m', c', e, ?_⟩
  unfold added
  rw [hres, hres', if_pos hmem, if_pos ha', Option.getD_some, Option.getD_some, add_sub_cancel_left,
    add_sub_cancel_left, ← Evaluable_contribution hev' hev₂, hcon]

/-- The spin group for the inverse reactions. -/
def Inverse (a b : ParticlePair) (Q : ℝ) (st st' : GroupState) : Prop :=
  st'.group.channels = st.group.channels.map (Spec.inverseChannel a b Q) ∧
    st'.group.table.resonances = st.group.table.resonances.map (Spec.inverseResonance a b Q)

/-- C90 for a compound system: the system for the inverse reactions consists of the groups that have channels of
the other pair. -/
theorem C90_system {s s' : CompoundSystem} (hg : ∀ st ∈ s, st.group.Built) (hg' : ∀ st ∈ s', st.group.Built)
    (h : Spec.TwoPairs a b) (hc : ∀ st ∈ s, Spec.ChannelsOf a b Q st.group.channels)
    (hs : List.Forall₂ (Inverse a b Q)
      (s.filter fun st => st.group.channels.any fun c => c.pair.id == b.id) s')
    (hE : a.massRatio * E + Q ≠ 0) {start m : CrossSectionMap} {s₂ : CompoundSystem}
    (hok : CompoundSystem.evaluate option K lib E s start = .ok (m, s₂)) (start' : CrossSectionMap) :
    ∃ m' s₂', CompoundSystem.evaluate option K lib (Spec.inverseEnergy a b Q E) s' start' = .ok (m', s₂') ∧
      added start m (.transition a.id b.id) * (a.reducedMass * |a.massRatio * E| * Spec.spinStates a)
        = added start' m' (.transition b.id a.id)
          * (b.reducedMass * |a.massRatio * E + Q| * Spec.spinStates b) := by
  induction s generalizing s' start start' s₂ with
  | nil =>
    rw [evaluate_nil] at hok
    cases hok
    cases hs
    exact ⟨start', [], rfl, by simp [added]⟩
  | cons st s ih =>
    obtain ⟨r, c, rest, h4, h5, rfl⟩ := evaluate_cons_ok.mp hok
    have hg1 := hg st List.mem_cons_self
    have hc1 := hc st List.mem_cons_self
    have hgs := fun x hx => hg x (List.mem_cons_of_mem st hx)
    have hcs := fun x hx => hc x (List.mem_cons_of_mem st hx)
    by_cases hb : ∃ c ∈ st.group.channels, c.pair.id = b.id
    · rw [List.filter_cons_of_pos (by
        obtain ⟨c, h1, h2⟩ := hb
        exact List.any_eq_true.mpr ⟨c, h1, by rw [h2, beq_self_eq_true]⟩)] at hs
      cases hs with
      | @cons _ st' _ s' hst hs =>
        obtain ⟨r', c', e1, e2⟩ := C90_spin_group hg1 (hg' st' List.mem_cons_self) h hc1 hst.1 hst.2 hE h4 st'.cache
          start'
        obtain ⟨m', s₂', e3, e4⟩ := ih hgs (fun x hx => hg' x (List.mem_cons_of_mem _ hx)) hcs hs h5 r'
        refine ⟨m', _, evaluate_cons_ok.mpr ⟨_, _, _, e1, e3, rfl⟩, ?_⟩
        have hsplit : ∀ x y z id, added x z id = added x y id + added y z id := by
          intro x y z id
          unfold added
          ring
        rw [hsplit start r m, hsplit start' r' m', add_mul, add_mul, e2, e4]
    · rw [List.filter_cons_of_neg (by
        intro h0
        obtain ⟨c, h1, h2⟩ := List.any_eq_true.mp h0
        exact hb ⟨c, h1, eq_of_beq h2⟩)] at hs
      obtain ⟨m', s₂', e3, e4⟩ := ih hgs hg' hcs hs h5 start'
      refine ⟨m', s₂', e3, ?_⟩
      rw [← e4]
      congr 1
      obtain ⟨P, S, w, phi, hev, hres⟩ := evaluate_ok hg1 h4
      unfold added
      rw [hres, if_neg (fun h0 => hb ((mem_reactions hg1 h.different h.notCapture.2 hc1.reaction).mp h0))]

/-- C90: the constructor accepts the group for the inverse reactions if and only if there is a channel of the other
pair. -/
theorem C90_accepted {g : SpinGroup} (hg : g.Built) (a b : ParticlePair) (Q : ℝ) :
    (∃ g', makeSpinGroup (g.channels.map (Spec.inverseChannel a b Q))
        ⟨g.table.channels, g.table.resonances.map (Spec.inverseResonance a b Q)⟩ = .ok g') ↔
      ∃ c ∈ g.channels, c.pair.id = b.id := by
  rw [C24_accepted]
  have hcons := (C24_accepted _ _).mp ⟨g, hg⟩
  have hids : (g.channels.map (Spec.inverseChannel a b Q)).map Channel.id = g.channels.map Channel.id := by
    rw [List.map_map]
    rfl
  constructor
  · intro h
    obtain ⟨c, h1, h2⟩ := h.hasIncident
    obtain ⟨d, h3, rfl⟩ := List.mem_map.mp h1
    exact ⟨d, h3, h2⟩
  · rintro ⟨c, h1, h2⟩
    refine ⟨?_, ?_, ?_, ?_, ⟨_, List.mem_map_of_mem h1, h2⟩, ?_⟩
    · rw [ne_eq, List.map_eq_nil_iff]
      exact hcons.nonempty
    · intro c hc d hd
      obtain ⟨c, -, rfl⟩ := List.mem_map.mp hc
      obtain ⟨d, -, rfl⟩ := List.mem_map.mp hd
      rfl
    · rw [hids]
      exact hcons.uniqueIDs
    · intro c' hc' d' hd'
      obtain ⟨c, hc, rfl⟩ := List.mem_map.mp hc'
      obtain ⟨d, hd, rfl⟩ := List.mem_map.mp hd'
      exact hcons.sameJpi c hc d hd
    · rw [hids]
      exact hcons.sameTable

/-- C90: the channels for the inverse reactions are those which the constructor makes of the other incident pair,
the Q value and the radii as functions of the energy of that pair. -/
theorem C90_channel (t : ChannelType) (p : ParticlePair) (id : Str) (q : ℝ) (numbers : QuantumNumbers)
    (f₁ f₂ f₃ : ℝ → Outcome ℝ) (B : ℝ) :
    Spec.inverseChannel a b Q (makeChannel t a p id q numbers ⟨f₁, f₂, f₃⟩ B)
      = makeChannel t b p id (q - Q) numbers ⟨fun E => f₁ (Spec.inverseEnergy b a (-Q) E),
        fun E => f₂ (Spec.inverseEnergy b a (-Q) E), fun E => f₃ (Spec.inverseEnergy b a (-Q) E)⟩ B := rfl

namespace Example

theorem twoPairs : Spec.TwoPairs pair excited :=
  ⟨by decide, ⟨by decide, by decide⟩, ⟨by norm_num [pair], by norm_num [excited]⟩,
    ⟨by norm_num [pair], by norm_num [excited]⟩, by
      norm_num [pair, excited, neutron, target]⟩

theorem channelsOf : Spec.ChannelsOf pair excited (-10) group.channels := by
  have hmem : ∀ c ∈ group.channels, c = elastic ∨ c = inelastic ∨ c = fission := by
    intro c hc
    have hc' : c ∈ Example.channels := hc
    simpa only [Example.channels, List.mem_cons, List.not_mem_nil, or_false] using hc'
  constructor <;> intro c hc <;> rcases hmem c hc with rfl | rfl | rfl
  all_goals first | rfl | exact fun _ => ⟨rfl, rfl⟩ | exact fun h => absurd h (by decide)

/-- The hypotheses of `C90_spin_group` can be met: inelastic scattering above its threshold at 20, and the
scattering of neutrons by the excited target. -/
example (lib : CoulombLibrary) (cache : MatrixCache group.channels.length) :
    ∃ g', makeSpinGroup (group.channels.map (Spec.inverseChannel pair excited (-10)))
        ⟨group.table.channels, group.table.resonances.map (Spec.inverseResonance pair excited (-10))⟩ = .ok g' ∧
      ∀ cache', ∃ m c m' c',
        group.evaluate .constant constants lib 40 cache (fun _ => none) = .ok (m, c) ∧
        g'.evaluate .constant constants lib 20 cache' (fun _ => none) = .ok (m', c') ∧
        added (fun _ => none) m (.transition pair.id excited.id)
          = added (fun _ => none) m' (.transition excited.id pair.id) / 2 := by
  obtain ⟨g', hg'⟩ := (C90_accepted group_built pair excited (-10)).mpr ⟨inelastic, by simp [group, Example.channels], rfl⟩
  refine ⟨g', hg', fun cache' => ?_⟩
  obtain ⟨h1, h2, h3⟩ := SpinGroup.Built.of_make hg'
  have hn : ∀ c ∈ group.channels, NeutralAt 40 c := by
    intro c hc
    have hc' : c ∈ Example.channels := hc
    have hold := neutralAt c hc
    simp only [Example.channels, List.mem_cons, List.not_mem_nil, or_false] at hc'
    refine ⟨hold.notCharged, hold.lmax, hold.mass, ?_, ?_, ?_, ?_⟩
    all_goals rcases hc' with rfl | rfl | rfl
    all_goals first | exact ⟨1, one_pos, rfl⟩ | exact ⟨1, rfl⟩ | norm_num [elastic, inelastic, fission, makeChannel, pair]
  obtain ⟨⟨m, c⟩, e⟩ := (C19_neutral_channels (option := .constant) (K := constants) (lib := lib) group_built hn
    (by simp [group, table, resonances, Example.channels]) (by norm_num [group, table, resonances]) cache (fun _ => none)
    (fun _ => none)).1
  obtain ⟨m', c', e', h4⟩ := C90_spin_group group_built h1 twoPairs channelsOf h2 (by rw [h3]) (by norm_num [pair]) e
    cache' (fun _ => none)
  have hE : Spec.inverseEnergy pair excited (-10) 40 = 20 := by norm_num [Spec.inverseEnergy, pair, excited]
  rw [hE] at e'
  refine ⟨m, c, m', c', e, e', ?_⟩
  have hspins : (Spec.spinStates pair : ℝ) = Spec.spinStates excited := rfl
  have hpos : (0 : ℝ) < Spec.spinStates excited := by
    norm_num [Spec.spinStates, excited, neutron, target]
  rw [hspins] at h4
  have hp : pair.reducedMass = 1 / 2 ∧ excited.reducedMass = 1 / 2 ∧ pair.massRatio = 1 / 2 := ⟨rfl, rfl, rfl⟩
  rw [hp.1, hp.2.1, hp.2.2] at h4
  norm_num at h4
  rw [eq_div_iff two_ne_zero]
  refine mul_right_cancel₀ (mul_pos (show (0 : ℝ) < 5 by norm_num) hpos).ne' ?_
  linarith

end Example

end Verif
