import Verif.Lemmas.LowEnergy
import Verif.Props.ContinuityRange

/-!
# Property C76: cross sections at very low energies
-/

namespace Verif

open Filter Topology Complex

/-- Cross sections that have the limits `v` when multiplied with the square root of the energy, and `u` by
themselves for the reactions in `elastic`. -/
structure SlowMaps {ι : Type} (f : ℝ → ι → ℝ) (v u : ι → ℝ) (elastic : ι → Prop) : Prop where
  support : ∃ ids : List ι, ∀ E, ∀ id ∉ ids, f E id = 0
  reaction : ∀ id, Tendsto (fun E => Real.sqrt E * f E id) (𝓝[>] 0) (𝓝 (v id))
  scattering : ∀ id, elastic id → Tendsto (fun E => f E id) (𝓝[>] 0) (𝓝 (u id))

theorem SlowMaps.close {ι : Type} {f : ℝ → ι → ℝ} {v u : ι → ℝ} {elastic : ι → Prop}
    (h : SlowMaps f v u elastic) {ε : ℝ} (hε : 0 < ε) :
    ∀ᶠ E in 𝓝[>] 0, ∀ id, |Real.sqrt E * f E id - v id| < ε ∧ (elastic id → |f E id - u id| < ε) := by
  classical
  obtain ⟨ids, hids⟩ := h.support
  have : ∀ᶠ E in 𝓝[>] 0, ∀ id ∈ ids.toFinset, |Real.sqrt E * f E id - v id| < ε ∧
      (elastic id → |f E id - u id| < ε) := by
    rw [Finset.eventually_all]
    intro id _
    by_cases he : elastic id
    · filter_upwards [Metric.tendsto_nhds.mp (h.reaction id) ε hε,
        Metric.tendsto_nhds.mp (h.scattering id he) ε hε] with E h1 h2
      rw [Real.dist_eq] at h1 h2
      exact ⟨h1, fun _ => h2⟩
    · filter_upwards [Metric.tendsto_nhds.mp (h.reaction id) ε hε] with E h1
      rw [Real.dist_eq] at h1
      exact ⟨h1, fun h => absurd h he⟩
  filter_upwards [this] with E hE id
  by_cases hid : id ∈ ids
  · exact hE id (List.mem_toFinset.mpr hid)
  · have h0 : ∀ E, f E id = 0 := fun E => hids E id hid
    have hv : v id = 0 := by
      refine tendsto_nhds_unique (h.reaction id) ?_
      simp only [h0, mul_zero]
      exact tendsto_const_nhds
    rw [h0, hv]
    refine ⟨by simpa using hε, fun he => ?_⟩
    have hu : u id = 0 := by
      refine tendsto_nhds_unique (h.scattering id he) ?_
      simp only [h0]
      exact tendsto_const_nhds
    rw [hu]
    simpa using hε

section

variable {option : BoundaryOption} {K : Constants} {lib : CoulombLibrary}

/-- Reactions that a spin group does not have get no contribution. -/
theorem contribution_absent {g : SpinGroup} (hg : g.Built) {E : ℝ} {P S w phi : Fin g.channels.length → ℝ}
    {id : ReactionID} (hid : id ∉ g.reactions) :
    Spec.contribution option K g.channels g.table.resonances E P S w phi id = 0 := by
  obtain ⟨-, -, ⟨first, h1, h2⟩, -⟩ := C24_contents hg
  rw [h2, List.mem_append, not_or] at hid
  have hc : Spec.captureID g.channels ≠ some id := by
    unfold Spec.captureID
    rw [h1]
    rintro h
    exact hid.2 (by simpa using (Option.some.inj h).symm)
  have hr : ∀ c : Fin g.channels.length, g.channels[c].reaction ≠ id := fun c h =>
    hid.1 (List.mem_map.mpr ⟨_, List.getElem_mem _, h⟩)
  unfold Spec.contribution
  simp only [if_neg hc, if_neg (hr _), Finset.sum_const_zero, add_zero, ite_self]

theorem group_slow {g : SpinGroup} (hg : g.Built) {v u : ReactionID → ℝ}
    (h : Spec.SlowGroup option K lib g.channels g.table.resonances v u) :
    ∃ f, SlowMaps f v u (Spec.Scatters g.channels) ∧
      ∀ᶠ E in 𝓝[>] 0, ∀ cache start, ∃ m cache',
        g.evaluate option K lib E cache start = .ok (m, cache') ∧
        ∀ id, (m id).getD 0 = (start id).getD 0 + f E id := by
  classical
  obtain ⟨P₀, S₀, a, b, h, rfl, rfl⟩ := h
  have hch : ∀ i : Fin g.channels.length, ∃ P S phi, SlowFunctions K lib g.channels[i] P S phi := fun i =>
    (h.slow _ (List.getElem_mem _)).functions
  choose P S phi hch using hch
  have hv := fun i => (hch i).values.self_of_nhds
  obtain rfl : P₀ = fun c => P c 0 := by
    funext i; simpa using (h.penetrability i).symm.trans (hv i).1
  obtain rfl : S₀ = fun c => S c 0 := by
    funext i; simpa using (h.shiftFactor i).symm.trans (hv i).2.1
  have hdet : (Spec.levelDenominator option g.channels g.table.resonances 0 (fun c => P c 0)
      (fun c => S c 0)).det ≠ 0 := by
    cases option with
    | constant => exact h.invertible rfl
    | shiftFactor =>
      rw [Spec.levelDenominator, logDerivative_eq]
      exact level_det_ne_zero _ _ (fun i => (hv i).2.2.2.2) (imForm_rMatrix_nonneg _ _ _)
        fun i _ => Or.inl rfl
  have hlim := slow_limits (option := option) h.slow hch h.noPole hdet h.channelRadius h.phaseRadius
  obtain ⟨hdet', -⟩ := inner_tendsto (fun c hc => (h.slow c hc).massRatio) hch h.noPole hdet
  refine ⟨fun E id => Spec.contribution option K g.channels g.table.resonances E (fun c => P c E)
    (fun c => S c E) (fun _ => 0) (fun c => phi c E) id, ⟨⟨g.reactions, fun E id hid =>
      contribution_absent hg hid⟩, fun id => (hlim id).1, fun id hid => (hlim id).2 hid.1 hid.2⟩, ?_⟩
  have hpole : ∀ᶠ E in 𝓝[>] (0 : ℝ), ∀ r ∈ g.table.resonances.toFinset,
      ¬ (r.energy = E ∧ r.eliminated = 0) := by
    rw [Finset.eventually_all]
    intro r hr
    by_cases h0 : r.energy = 0
    · filter_upwards [self_mem_nhdsWithin] with E hE h1
      rw [h0] at h1
      exact (Set.mem_Ioi.mp hE).ne h1.1
    · filter_upwards [nhdsWithin_le_nhds (continuousAt_id.eventually_ne (Ne.symm h0))] with E hE h1
      exact hE h1.1.symm
  have hvals : ∀ᶠ E in 𝓝[>] (0 : ℝ), ∀ i, g.channels[i].penetrability K lib E = .ok (P i E) ∧
      g.channels[i].shiftFactor K lib E = .ok (S i E) ∧ g.channels[i].coulombPhaseShift K E = .ok 0 ∧
      g.channels[i].phaseShift K lib E = .ok (phi i E) ∧ 0 ≤ P i E := by
    rw [eventually_all]
    exact fun i => nhdsWithin_le_nhds (hch i).values
  filter_upwards [hpole, hvals, hdet', self_mem_nhdsWithin] with E h1 h2 h3 h4 cache start
  have hev : Spec.Evaluable option K lib g.channels g.table.resonances E (fun c => P c E) (fun c => S c E)
      (fun _ => 0) (fun c => phi c E) := by
    refine ⟨fun i => (h2 i).1, fun _ i => (h2 i).2.1, fun i => (h2 i).2.2.1, fun i => (h2 i).2.2.2.1,
      fun i => (h2 i).2.2.2.2, h.widths, fun r hr => h1 r (List.mem_toFinset.mpr hr), h3, ?_⟩
    obtain ⟨c, hc, hinc⟩ := ((C24_accepted _ _).mp ⟨g, hg⟩).hasIncident
    cases hf : g.channels.find? Channel.isIncident with
    | none =>
      have := List.find?_eq_none.mp hf c hc
      simp [Channel.isIncident, hinc] at this
    | some d =>
      have hd := h.slow d (List.mem_of_find?_eq_some hf)
      obtain ⟨-, hq, hμ⟩ := hd.incident (List.find?_some hf)
      refine ⟨d, rfl, (waveNumber_pos hμ ?_).ne'⟩
      rw [hq, add_zero]
      exact (mul_pos hd.massRatio h4).ne'
  obtain ⟨⟨m, cache'⟩, hm⟩ := evaluate_ok_of hg hev cache start
  obtain ⟨P', S', w', phi', hev', hres⟩ := evaluate_ok hg hm
  refine ⟨m, cache', hm, fun id => ?_⟩
  rw [hres id]
  by_cases hid : id ∈ g.reactions
  · rw [if_pos hid, Option.getD_some, Evaluable_contribution hev' hev]
  · rw [if_neg hid, contribution_absent hg hid, add_zero]

/-- C76 for a spin group: it can be evaluated at all sufficiently small energies, whatever was evaluated
before; the product of each cross section and the square root of the energy approaches the limit for
reactions, and elastic cross sections themselves approach that for scattering. -/
theorem C76_spin_group {g : SpinGroup} (hg : g.Built) {v u : ReactionID → ℝ}
    (h : Spec.SlowGroup option K lib g.channels g.table.resonances v u) {ε : ℝ} (hε : 0 < ε) :
    ∃ δ > 0, ∀ E, 0 < E → E < δ → ∀ cache, ∃ m cache',
      g.evaluate option K lib E cache (fun _ => none) = .ok (m, cache') ∧
        ∀ id, |Real.sqrt E * (m id).getD 0 - v id| < ε ∧
          (Spec.Scatters g.channels id → |(m id).getD 0 - u id| < ε) := by
  obtain ⟨f, hf, hnear⟩ := group_slow hg h
  obtain ⟨δ, hδ, hall⟩ := mem_nhdsGT_iff_exists_Ioo_subset.mp (hnear.and (hf.close hε))
  refine ⟨δ, hδ, fun E h0 hE cache => ?_⟩
  obtain ⟨h1, h2⟩ := hall ⟨h0, hE⟩
  obtain ⟨m, cache', h3, h4⟩ := h1 cache fun _ => none
  refine ⟨m, cache', h3, fun id => ?_⟩
  rw [h4 id, Option.getD_none, zero_add]
  exact h2 id

theorem system_slow {s : CompoundSystem} (hg : ∀ st ∈ s, st.group.Built)
    {limits : List ((ReactionID → ℝ) × (ReactionID → ℝ))}
    (h : List.Forall₂ (fun (st : GroupState) l =>
      Spec.SlowGroup option K lib st.group.channels st.group.table.resonances l.1 l.2) s limits) :
    ∃ f, SlowMaps f (fun id => (limits.map fun l => l.1 id).sum) (fun id => (limits.map fun l => l.2 id).sum)
        (fun id => ∀ st ∈ s, Spec.Scatters st.group.channels id) ∧
      ∀ᶠ E in 𝓝[>] 0, ∀ s₁ : CompoundSystem, s₁.map GroupState.group = s.map GroupState.group →
        ∀ start, ∃ m s₂, CompoundSystem.evaluate option K lib E s₁ start = .ok (m, s₂) ∧
          ∀ id, (m id).getD 0 = (start id).getD 0 + f E id := by
  induction h with
  | nil =>
    refine ⟨fun _ _ => 0, ⟨⟨[], fun _ _ _ => rfl⟩, fun _ => ?_, fun _ _ => ?_⟩,
      Eventually.of_forall fun E s₁ hs₁ start => ?_⟩
    · simp only [mul_zero, List.map_nil, List.sum_nil]
      exact tendsto_const_nhds
    · simp only [List.map_nil, List.sum_nil]
      exact tendsto_const_nhds
    · obtain rfl := List.map_eq_nil_iff.mp hs₁
      exact ⟨start, [], rfl, fun id => (add_zero _).symm⟩
  | @cons st l s limits h1 _ ih =>
    obtain ⟨f, hf, hnear⟩ := group_slow (hg st List.mem_cons_self) h1
    obtain ⟨k, hk, hnear'⟩ := ih fun st hst => hg st (List.mem_cons_of_mem _ hst)
    refine ⟨fun E id => f E id + k E id, ⟨?_, fun id => ?_, fun id hid => ?_⟩, ?_⟩
    · obtain ⟨ids, h2⟩ := hf.support
      obtain ⟨ids', h3⟩ := hk.support
      refine ⟨ids ++ ids', fun E id hid => ?_⟩
      rw [List.mem_append, not_or] at hid
      rw [h2 E id hid.1, h3 E id hid.2, add_zero]
    · simp only [mul_add, List.map_cons, List.sum_cons]
      exact (hf.reaction id).add (hk.reaction id)
    · simp only [List.map_cons, List.sum_cons]
      exact (hf.scattering id (hid st List.mem_cons_self)).add
        (hk.scattering id fun st hst => hid st (List.mem_cons_of_mem _ hst))
    · filter_upwards [hnear, hnear'] with E h3 h4 s₁ hs₁ start
      cases s₁ with
      | nil => cases hs₁
      | cons st₁ rest₁ =>
        obtain ⟨g₁, cache₁⟩ := st₁
        simp only [List.map_cons, List.cons.injEq] at hs₁
        obtain ⟨rfl, hs₁⟩ := hs₁
        obtain ⟨m, c', h5, h6⟩ := h3 cache₁ start
        obtain ⟨m', s₂, h7, h8⟩ := h4 rest₁ hs₁ m
        refine ⟨_, _, evaluate_cons_ok.mpr ⟨_, _, _, h5, h7, rfl⟩, fun id => ?_⟩
        rw [h8, h6, add_assoc]

/-- C76 for a compound system: the limits are the sums of those of its spin groups. -/
theorem C76_system {s : CompoundSystem} (hg : ∀ st ∈ s, st.group.Built)
    {limits : List ((ReactionID → ℝ) × (ReactionID → ℝ))}
    (h : List.Forall₂ (fun (st : GroupState) l =>
      Spec.SlowGroup option K lib st.group.channels st.group.table.resonances l.1 l.2) s limits)
    {ε : ℝ} (hε : 0 < ε) :
    ∃ δ > 0, ∀ E, 0 < E → E < δ → ∀ s₁ : CompoundSystem,
      s₁.map GroupState.group = s.map GroupState.group → ∃ m s₂,
        CompoundSystem.evaluate option K lib E s₁ (fun _ => none) = .ok (m, s₂) ∧
        ∀ id, |Real.sqrt E * (m id).getD 0 - (limits.map fun l => l.1 id).sum| < ε ∧
          ((∀ st ∈ s, Spec.Scatters st.group.channels id) →
            |(m id).getD 0 - (limits.map fun l => l.2 id).sum| < ε) := by
  obtain ⟨f, hf, hnear⟩ := system_slow hg h
  obtain ⟨δ, hδ, hall⟩ := mem_nhdsGT_iff_exists_Ioo_subset.mp (hnear.and (hf.close hε))
  refine ⟨δ, hδ, fun E h0 hE s₁ hs₁ => ?_⟩
  obtain ⟨h1, h2⟩ := hall ⟨h0, hE⟩
  obtain ⟨m, s₂, h3, h4⟩ := h1 s₁ hs₁ fun _ => none
  refine ⟨m, s₂, h3, fun id => ?_⟩
  rw [h4 id, Option.getD_none, zero_add]
  exact h2 id

end

section OneChannel

variable {K : Constants} {lib : CoulombLibrary} {c : Channel} {rs : List Resonance}
  {P S : Fin [c].length → ℝ}

theorem inner_one (hP : ∀ i, P i = 0) : Spec.innerMatrix .shiftFactor [c] rs P S = Spec.rMatrix [c] rs 0 := by
  have : Spec.logDerivative .shiftFactor [c] P S = fun _ => 0 := by
    funext i
    simp [Spec.logDerivative, hP]
  rw [Spec.innerMatrix, Spec.levelDenominator, this]
  simp

theorem rMatrix_one (hc : ¬ c.belowThreshold 0) : Spec.rMatrix [c] rs 0 0 0
    = (rs.map fun r => (r.width 0 : ℂ) ^ 2 / ((r.energy : ℂ) - I * (r.eliminated : ℂ) ^ 2)).sum := by
  have h : ∀ r, Spec.amplitude [c] 0 r 0 = r.width 0 := fun r => if_neg hc
  simp only [Spec.rMatrix, Matrix.of_apply, h, ofReal_zero, sub_zero, pow_two]

theorem rMatrix_one_im (hc : ¬ c.belowThreshold 0) : (Spec.rMatrix [c] rs 0 0 0).im
    = (rs.map fun r => r.width 0 ^ 2 * r.eliminated ^ 2 / (r.energy ^ 2 + r.eliminated ^ 4)).sum := by
  rw [rMatrix_one hc]
  induction rs with
  | nil => simp
  | cons r rs ih =>
    rw [List.map_cons, List.sum_cons, add_im, ih, List.map_cons, List.sum_cons]
    congr 1
    rw [← ofReal_pow, ← ofReal_pow, div_im]
    simp only [normSq_apply, sub_re, sub_im, mul_re, mul_im, I_re, I_im, ofReal_re, ofReal_im]
    ring_nf

/-- C76 for a spin group with one channel: the capture cross section is inversely proportional to the square
root of the energy, with the sum `Σ γ² γ_γ² / (E_r² + γ_γ⁴)` over the resonances, and the elastic one is
`4π g |b - a R|²`. -/
theorem C76_one_channel {g : SpinGroup} (hg : g.Built) (hone : g.channels = [c])
    (hs : Spec.SlowChannel c) (hi : c.isIncident) (helastic : c.reaction = .elastic c.incident.id)
    (hl : c.numbers.l = 0) {a b : ℝ} (ha : c.radii.penetrability 0 = .ok a) (hb : c.radii.phaseShift 0 = .ok b)
    (hw : ∀ r ∈ g.table.resonances, r.widths.length = 1)
    (hp : ∀ r ∈ g.table.resonances, ¬ (r.energy = 0 ∧ r.eliminated = 0)) {ε : ℝ} (hε : 0 < ε) :
    ∃ δ > 0, ∀ E, 0 < E → E < δ → ∀ cache, ∃ m cache',
      g.evaluate .shiftFactor K lib E cache (fun _ => none) = .ok (m, cache') ∧
        |Real.sqrt E * (m (.transition c.incident.id "capture".toList)).getD 0
          - 4 * Real.pi * c.spinFactor * a / c.waveNumber K 1 * (g.table.resonances.map fun r =>
            r.width 0 ^ 2 * r.eliminated ^ 2 / (r.energy ^ 2 + r.eliminated ^ 4)).sum| < ε ∧
        |(m (.elastic c.incident.id)).getD 0 - 4 * Real.pi * c.spinFactor * normSq (b - a * (g.table.resonances.map fun r =>
            (r.width 0 : ℂ) ^ 2 / ((r.energy : ℂ) - I * (r.eliminated : ℂ) ^ 2)).sum)| < ε := by
  obtain ⟨channels, reactions, incident, table⟩ := g
  obtain rfl : channels = [c] := hone
  obtain ⟨ht, hq, hμ⟩ := hs.incident hi
  have hbelow : ¬ c.belowThreshold 0 := by
    unfold Channel.belowThreshold
    rw [mul_zero, hq, add_zero]
    exact lt_irrefl 0
  have hk0 : c.waveNumber K 0 = 0 := waveNumber_threshold K (by
    unfold Spec.AtThreshold
    rw [mul_zero, hq, add_zero])
  have hk1 : 0 < c.waveNumber K 1 := waveNumber_pos hμ (by
    rw [hq, mul_one, add_zero]
    exact hs.massRatio.ne')
  have hall : ∀ {p : Channel → Prop}, p c → ∀ d ∈ [c], p d := by
    intro p hp d hd
    obtain rfl := List.mem_singleton.mp hd
    exact hp
  have hfin : ∀ i : Fin [c].length, i = 0 := fun i => Fin.ext (by have := i.isLt; simp only [List.length_singleton] at this; simpa using this)
  have hget : ∀ i : Fin [c].length, [c][i] = c := fun i => by rw [hfin i]; rfl
  have heta : ∀ E, c.eta K E = .ok 0 := fun E => if_neg hs.neutral
  have hP0 : c.penetrability K lib 0 = .ok 0 := by
    simp only [Channel.penetrability, heta, ha, ht, Bind.bind, Except.bind]
    rw [calculatePenetrability_eq lib (by rw [hl]; omega), hl, hk0, zero_mul]
    rfl
  obtain ⟨b', -, hb'⟩ := hs.shiftFactor
  have hS0 : ∃ S, c.shiftFactor K lib 0 = .ok S := by
    simp only [Channel.shiftFactor, heta, hb'.self_of_nhds, ht, Bind.bind, Except.bind]
    rw [calculateShiftFactor_eq lib (by rw [hl]; omega)]
    exact ⟨_, rfl⟩
  obtain ⟨S₀, hS0⟩ := hS0
  have hslow : Spec.Slow .shiftFactor K lib [c] table.resonances (fun _ => 0) (fun _ => S₀) (fun _ => a)
      (fun _ => b) :=
    ⟨hall hs, fun i => by rw [hget]; exact hP0, fun i => by rw [hget]; exact hS0,
      fun i => by rw [hget]; exact ha, fun i => by rw [hget]; exact hb, hw, hp, fun e => by cases e⟩
  have hfactor : Spec.incidentFactor K [c] 1 = Real.pi / c.waveNumber K 1 ^ 2 * c.spinFactor := by
    unfold Spec.incidentFactor
    rw [List.find?_cons_of_pos hi]
  have hwave : ∀ x, Spec.sWaveRatio K c x = c.waveNumber K 1 * x := fun x => if_pos hl
  have hcapture : Spec.captureID [c] = some (.transition c.incident.id "capture".toList) := rfl
  obtain ⟨δ, hδ, h⟩ := C76_spin_group hg ⟨_, _, _, _, hslow, rfl, rfl⟩ hε
  refine ⟨δ, hδ, fun E h0 h1 cache => ?_⟩
  obtain ⟨m, cache', h2, h3⟩ := h E h0 h1 cache
  refine ⟨m, cache', h2, ?_, ?_⟩
  · have h4 := (h3 (.transition c.incident.id "capture".toList)).1
    convert h4 using 3
    rw [inner_one fun _ => rfl, Spec.slowReaction]
    simp only [zero_mul, Finset.sum_const_zero, ite_self, sub_zero, zero_add, hcapture, if_true, hget, hi,
      hwave, hfactor]
    rw [Finset.sum_eq_single 0 (fun i _ h => absurd (hfin i) h) (by simp), rMatrix_one_im hbelow]
    field_simp
  · have h4 := (h3 (.elastic c.incident.id)).2 ⟨hall fun _ => hi, by rw [hcapture]; simp⟩
    convert h4 using 3
    rw [inner_one fun _ => rfl, Spec.slowScattering]
    simp only [hget, hi, if_true, hwave, hfactor, helastic]
    rw [Finset.sum_eq_single 0 (fun i _ h => absurd (hfin i) h) (by simp),
      Finset.sum_eq_single 0 (fun i _ h => absurd (hfin i) h) (by simp), if_pos rfl, rMatrix_one hbelow]
    rw [ofReal_mul, ofReal_mul, mul_assoc (c.waveNumber K 1 : ℂ), ← mul_sub, normSq_mul, normSq_ofReal]
    field_simp

namespace Example

theorem radius_slow : Spec.ContinuousRadius (fun _ => (.ok 1 : Outcome ℝ)) 0 :=
  ⟨fun _ => 1, continuousAt_const, Eventually.of_forall fun _ => rfl⟩

theorem elastic_slow : Spec.SlowChannel elastic :=
  ⟨by decide, fun _ => by decide, radius_slow, fun _ => Eventually.of_forall fun _ a ha => by
      obtain rfl : (1 : ℝ) = a := Except.ok.inj ha
      exact zero_le_one, radius_slow, radius_slow, by norm_num [elastic, makeChannel, pair],
    fun _ => ⟨rfl, rfl, by norm_num [elastic, makeChannel, pair]⟩⟩

theorem inelastic_slow : Spec.SlowChannel inelastic :=
  ⟨by decide, fun _ => by decide, radius_slow, fun _ => Eventually.of_forall fun _ a ha => by
      obtain rfl : (1 : ℝ) = a := Except.ok.inj ha
      exact zero_le_one, radius_slow, radius_slow, by norm_num [inelastic, makeChannel, pair],
    fun h => absurd h (by decide)⟩

theorem fission_slow : Spec.SlowChannel fission :=
  ⟨by decide, fun h => absurd h (by decide), radius_slow, fun h => absurd h (by decide), radius_slow,
    radius_slow, by norm_num [fission, makeChannel, pair], fun h => absurd h (by decide)⟩

/-- A spin group with one channel and one resonance. -/
noncomputable def single : SpinGroup := ⟨[elastic], [elastic.reaction] ++
  [.transition pair.id "capture".toList], determineIncidentChannels [elastic],
  ⟨[elastic.id], [⟨2, [1], 1⟩]⟩⟩

theorem single_built : single.Built := by
  obtain ⟨g, hg⟩ := (C24_accepted [elastic] ⟨[elastic.id], [⟨2, [1], 1⟩]⟩).mpr (by
    refine ⟨by simp, ?_, by simp, ?_, ⟨elastic, by simp, rfl⟩, rfl⟩ <;>
    · intro c hc d hd
      obtain rfl := List.mem_singleton.mp hc
      obtain rfl := List.mem_singleton.mp hd
      simp)
  obtain ⟨h1, h2, -⟩ := C24_contents hg
  obtain ⟨h3, first, rest, h4, h5, -⟩ := (SpinGroup.Built.of_make hg).1.incident
  have : g = single := by
    obtain ⟨c, r, i, t⟩ := g
    simp only at h1 h2 h3 h4 h5
    subst h1 h2 h3 h5
    have : first = elastic := by
      have := congrArg List.head? h4
      simp only [List.head?_cons, Option.some.injEq] at this
      exact this.symm
    subst this
    rfl
  rw [← this]
  exact (SpinGroup.Built.of_make hg).1

/-- The capture cross section of the example is that of the 1/v law and not zero. -/
example (lib : CoulombLibrary) {ε : ℝ} (hε : 0 < ε) :
    0 < 4 * Real.pi / (5 * elastic.waveNumber constants 1) ∧
    ∃ δ > 0, ∀ E, 0 < E → E < δ → ∀ cache, ∃ m cache',
      single.evaluate .shiftFactor constants lib E cache (fun _ => none) = .ok (m, cache') ∧
        |Real.sqrt E * (m (.transition "n,T".toList "capture".toList)).getD 0
          - 4 * Real.pi / (5 * elastic.waveNumber constants 1)| < ε ∧
        |(m (.elastic "n,T".toList)).getD 0 - 4 * Real.pi * (2 / 5)| < ε := by
  have hk : 0 < elastic.waveNumber constants 1 := waveNumber_pos (by norm_num [elastic, makeChannel, pair])
    (by norm_num [elastic, makeChannel, pair])
  have hpi := Real.pi_pos
  refine ⟨by positivity, ?_⟩
  have hg : elastic.spinFactor = 1 := by
    norm_num [elastic, makeChannel, statisticalSpinFactor, pair, neutron, target]
  obtain ⟨δ, hδ, h⟩ := C76_one_channel (K := constants) (lib := lib) (a := 1) (b := 1) single_built rfl
    elastic_slow rfl rfl rfl rfl rfl (fun r hr => by obtain rfl := List.mem_singleton.mp hr; rfl)
    (fun r hr => by obtain rfl := List.mem_singleton.mp hr; norm_num) hε
  refine ⟨δ, hδ, fun E h0 h1 cache => ?_⟩
  obtain ⟨m, cache', h2, h3, h4⟩ := h E h0 h1 cache
  refine ⟨m, cache', h2, ?_, ?_⟩
  · refine lt_of_eq_of_lt ?_ h3
    show |_ - _| = |_ - _|
    congr 2
    rw [hg]
    simp only [single, List.map_cons, List.map_nil, List.sum_cons, List.sum_nil, Resonance.width]
    norm_num
    field_simp
  · refine lt_of_eq_of_lt ?_ h4
    show |_ - _| = |_ - _|
    congr 2
    rw [hg]
    simp only [single, List.map_cons, List.map_nil, List.sum_cons, List.sum_nil, Resonance.width]
    norm_num
    rw [show (1 : ℂ) - (2 - I)⁻¹ = ⟨3 / 5, -1 / 5⟩ by
      rw [eq_comm, eq_sub_iff_add_eq, ← eq_sub_iff_add_eq', inv_eq_iff_eq_inv, eq_comm]
      apply inv_eq_of_mul_eq_one_left
      apply Complex.ext <;> simp <;> norm_num]
    norm_num [normSq_apply]

end Example

end OneChannel

/-- With the shift factors as boundary conditions there are always limits. -/
theorem slowGroup_exists {K : Constants} {lib : CoulombLibrary} {channels : List Channel}
    {rs : List Resonance} (h : ∀ c ∈ channels, Spec.SlowChannel c)
    (hw : ∀ r ∈ rs, r.widths.length = channels.length)
    (hp : ∀ r ∈ rs, ¬ (r.energy = 0 ∧ r.eliminated = 0)) :
    ∃ l : (ReactionID → ℝ) × (ReactionID → ℝ), Spec.SlowGroup .shiftFactor K lib channels rs l.1 l.2 := by
  have hch : ∀ i : Fin channels.length, ∃ P S phi, SlowFunctions K lib channels[i] P S phi := fun i =>
    (h _ (List.getElem_mem _)).functions
  choose P S phi hch using hch
  have hv := fun i => (hch i).values.self_of_nhds
  have hr : ∀ i : Fin channels.length, ∃ a b, channels[i].radii.penetrability 0 = .ok a ∧
      channels[i].radii.phaseShift 0 = .ok b := by
    intro i
    obtain ⟨a, -, ha⟩ := (h channels[i] (List.getElem_mem _)).penetrability
    obtain ⟨b, -, hb⟩ := (h channels[i] (List.getElem_mem _)).phaseShift
    exact ⟨_, _, ha.self_of_nhds, hb.self_of_nhds⟩
  choose a b hr using hr
  exact ⟨⟨_, _⟩, _, _, a, b, ⟨h, fun i => (hv i).1, fun i => (hv i).2.1, fun i => (hr i).1,
    fun i => (hr i).2, hw, hp, fun e => by cases e⟩, rfl, rfl⟩

theorem forall₂_exists {α β : Type*} {R : α → β → Prop} {l : List α} (h : ∀ a ∈ l, ∃ b, R a b) :
    ∃ m, List.Forall₂ R l m := by
  induction l with
  | nil => exact ⟨[], .nil⟩
  | cons a l ih =>
    obtain ⟨b, hb⟩ := h a List.mem_cons_self
    obtain ⟨m, hm⟩ := ih fun a ha => h a (List.mem_cons_of_mem _ ha)
    exact ⟨b :: m, .cons hb hm⟩

open Example in
/-- C76 applies to the example with three channels, one of which is closed. -/
example (lib : CoulombLibrary) : ∃ v u : ReactionID → ℝ, ∀ ε > 0, ∃ δ > 0, ∀ E, 0 < E → E < δ →
    ∀ cache, ∃ m cache',
      group.evaluate .shiftFactor constants lib E cache (fun _ => none) = .ok (m, cache') ∧
        ∀ id, |Real.sqrt E * (m id).getD 0 - v id| < ε ∧
          (Spec.Scatters group.channels id → |(m id).getD 0 - u id| < ε) := by
  obtain ⟨⟨v, u⟩, h⟩ := slowGroup_exists (K := constants) (lib := lib) (channels := group.channels)
    (rs := group.table.resonances) (by
      intro c hc
      have hc' : c ∈ channels := hc
      simp only [channels, List.mem_cons, List.not_mem_nil, or_false] at hc'
      rcases hc' with rfl | rfl | rfl
      · exact elastic_slow
      · exact inelastic_slow
      · exact fission_slow) widths (by
      intro r hr
      have hr' : r ∈ resonances := hr
      simp only [resonances, List.mem_cons, List.not_mem_nil, or_false] at hr'
      rcases hr' with rfl | rfl <;> norm_num)
  exact ⟨v, u, fun ε hε => C76_spin_group group_built h hε⟩

/-- C76 for a reconstructor of a compound system whose range begins at zero energy or below. -/
theorem C76_reconstructor {option : BoundaryOption} {K : Constants} {lib : CoulombLibrary}
    {R : Reconstructor} {s : CompoundSystem} (hs : R.system = variantOf option s)
    (hg : ∀ st ∈ s, st.group.Built) {limits : List ((ReactionID → ℝ) × (ReactionID → ℝ))}
    (h : List.Forall₂ (fun (st : GroupState) l =>
      Spec.SlowGroup option K lib st.group.channels st.group.table.resonances l.1 l.2) s limits)
    (hE : R.lower ≤ 0 ∧ 0 < R.upper) {ε : ℝ} (hε : 0 < ε) :
    ∃ δ > 0, ∀ E, 0 < E → E < δ → ∃ m R', R.call K lib E = .ok (m, R') ∧
      ∀ id, |Real.sqrt E * (m (.inl id)).getD 0 - (limits.map fun l => l.1 id).sum| < ε ∧
        ((∀ st ∈ s, Spec.Scatters st.group.channels id) →
          |(m (.inl id)).getD 0 - (limits.map fun l => l.2 id).sum| < ε) := by
  obtain ⟨δ, hδ, hall⟩ := C76_system hg h hε
  refine ⟨min δ R.upper, lt_min hδ hE.2, fun E h0 hE' => ?_⟩
  obtain ⟨h1, h2⟩ := lt_min_iff.mp hE'
  obtain ⟨m, s₂, h3, h4⟩ := hall E h0 h1 s rfl
  refine ⟨.ofCrossSections m, { R with system := variantOf option s₂ }, ?_, h4⟩
  unfold Reconstructor.call
  rw [if_pos (by exact ⟨by linarith [hE.1], h2.le⟩), hs]
  cases option <;>
  · simp only [variantOf, SystemVariant.evaluate, h3]
    rfl

namespace Endf

open Spec Blocks

variable {K : Constants} {lib : CoulombLibrary} {tables : InterpolationLibrary}
  {initialBreitWigner : Channel → Verif.BreitWigner.Cache} {neutronMass A : ℝ} {incident target : Str}
  {reactions : ReactionLibrary} {initial : (g : SpinGroup) → MatrixCache g.channels.length}
  {elementaryCharge : ℝ} {range : Range} {p : ReichMoore} {s : CompoundSystem}
  {nro : Option (ℝ → Outcome ℝ)} {naps : ℤ}

theorem elastic_slow {pair : ParticlePair} {radii : ChannelRadii} {n : QuantumNumbers} (hl : n.l ≤ 4)
    (hm : 0 < pair.reducedMass) (ht : 0 < pair.massRatio) (h1 : ContinuousRadius radii.penetrability 0)
    (h0 : ∀ᶠ E in nhds 0, ∀ a, radii.penetrability E = .ok a → 0 ≤ a)
    (h2 : ContinuousRadius radii.shiftFactor 0) (h3 : ContinuousRadius radii.phaseShift 0) :
    SlowChannel (elasticChannel pair radii n) :=
  ⟨by show ChannelType.neutron ≠ .charged; decide, fun _ => hl, h1, fun _ => h0, h2, h3, ht,
    fun _ => ⟨rfl, rfl, hm⟩⟩

theorem fission_slow {pair fission : ParticlePair} {radii : ChannelRadii} {l : ℕ} {J : ℚ} {id : Str}
    (hm : fission.id ≠ pair.id) (ht : 0 < pair.massRatio) (h1 : ContinuousRadius radii.penetrability 0)
    (h2 : ContinuousRadius radii.shiftFactor 0) (h3 : ContinuousRadius radii.phaseShift 0) :
    SlowChannel (fissionChannel pair fission radii l J id) :=
  have hn : ChannelType.fission ≠ .neutron := by decide
  ⟨by show ChannelType.fission ≠ .charged; decide, (absurd · hn), h1, (absurd · hn), h2, h3, ht,
    fun h => absurd (beq_iff_eq.mp h) hm⟩

theorem cell_slow {b : Block} (hl : b.numbers.l ≤ 4) (hm : 0 < b.pair.reducedMass)
    (hf : b.fission.id ≠ b.pair.id) (ht : 0 < b.pair.massRatio)
    (h1 : ContinuousRadius b.radii.penetrability 0)
    (h0 : ∀ᶠ E in nhds 0, ∀ a, b.radii.penetrability E = .ok a → 0 ≤ a)
    (h2 : ContinuousRadius b.radii.shiftFactor 0) (h3 : ContinuousRadius b.radii.phaseShift 0) (j : Fin 3) :
    SlowChannel ((b.cell K lib).channel j) := by
  match j with
  | 0 => exact elastic_slow hl hm ht h1 h0 h2 h3
  | 1 => exact fission_slow hf ht h1 h2 h3
  | 2 => exact fission_slow hf ht h1 h2 h3

theorem cell_reaction {b : Block} (hf : b.fission.id ≠ b.pair.id) (j : Fin 3)
    (h : ((b.cell K lib).channel j).reaction = .elastic b.pair.id) :
    ((b.cell K lib).channel j).isIncident := by
  match j with
  | 0 => exact beq_iff_eq.mpr rfl
  | 1 => exact absurd h (by
      show makeReactionID b.pair.id b.fission.id ≠ _
      rw [makeReactionID, if_neg (Ne.symm hf)]
      simp)
  | 2 => exact absurd h (by
      show makeReactionID b.pair.id b.fission.id ≠ _
      rw [makeReactionID, if_neg (Ne.symm hf)]
      simp)

/-- The spin groups of a Reich-Moore evaluation whose radii are continuous around the energy zero. -/
theorem reichMoore_slow (h : PhysicalReichMoore neutronMass A nro naps p)
    (hap : RadiiAround neutronMass A nro naps p.ap 0)
    (hlv : ∀ lv ∈ p.lValues, RadiiAround neutronMass A nro naps (lengthOf p lv) 0)
    (hs : makeReichMooreCompoundSystem K lib initial neutronMass incident target nro naps p = .ok s) :
    ∀ st ∈ s, (∀ c ∈ st.group.channels, SlowChannel c) ∧
      Scatters st.group.channels (.elastic (pairID incident target)) := by
  have h0 : 0 ≤ A * neutronMass := mul_nonneg h.positive.le h.mass.le
  obtain ⟨blocks, pair, radii, remaining, consolidated, hL, h4, h5⟩ := Layout.of_system h.spin h.ratio hs
  have hall := hL.all h.spin h.ratio
  obtain ⟨dk, dc⟩ := data_cells fun b hb => (hall b hb).2.1
  have hgood : ∀ c ∈ (blocks ++ remaining.map (emptyBlock A pair radii)).map (Block.cell K lib), c.Good := by
    intro c hc
    obtain ⟨b, -, rfl⟩ := List.mem_map.mp hc
    exact b.cell_good
  obtain ⟨jpis, -, -, j3⟩ := system_groups dk (by
      intro d hd
      obtain ⟨b, hb, hd⟩ := List.mem_flatMap.mp hd
      exact (hall b hb).2.1.lengths d hd) (by
      intro c hc
      obtain ⟨b, hb, rfl⟩ := List.mem_map.mp hc
      exact (Block.cell_jpi (hall b hb).1).2) hgood dc
    (fun x => hL.nodup h.different (fun b hb => (hall b hb).1) x) h4 h5
  have hpair := incidentPair_eq incident target p.spin h.mass h.positive.le
  rw [hL.pair] at hpair
  have hpv := Except.ok.inj hpair
  have := h.positive
  have := h.mass
  have hred : 0 < pair.reducedMass := by rw [hpv]; positivity
  have hratio : 0 < pair.massRatio := by rw [hpv]; positivity
  have hpid : pair.id = pairID incident target := by rw [hpv]
  have hradii : ∀ b ∈ blocks ++ remaining.map (emptyBlock A pair radii), b.lvalue.l ≤ 4 ∧
      ContinuousRadius b.radii.penetrability 0 ∧
      (∀ᶠ E in nhds 0, ∀ a, b.radii.penetrability E = .ok a → 0 ≤ a) ∧
      ContinuousRadius b.radii.shiftFactor 0 ∧ ContinuousRadius b.radii.phaseShift 0 := by
    have key : ∀ ap r, makeChannelRadii ap nro naps A neutronMass = .ok r →
        RadiiAround neutronMass A nro naps ap 0 → ContinuousRadius r.penetrability 0 ∧
        (∀ᶠ E in nhds 0, ∀ a, r.penetrability E = .ok a → 0 ≤ a) ∧
        ContinuousRadius r.shiftFactor 0 ∧ ContinuousRadius r.phaseShift 0 := by
      rintro ap r hr ⟨channel, scattering, h1, ⟨a, ha, hav⟩, ⟨a₀, ha₀, hc₀⟩, h4⟩
      obtain ⟨r', k1, k2, k3, k4⟩ := radii_of_isRadii h0 h1
      rw [hr] at k1
      obtain rfl := Except.ok.inj k1
      rw [k2, k3, k4]
      refine ⟨⟨a, ha, hav⟩, ?_, ⟨a, ha, hav⟩, h4⟩
      have e0 : a 0 = a₀ := by
        have := hav.self_of_nhds
        rw [hc₀] at this
        exact (Except.ok.inj this).symm
      filter_upwards [hav, ha.eventually_const_lt (e0 ▸ ha₀)] with E h1 h2 x hx
      rw [h1] at hx
      exact (Except.ok.inj hx) ▸ h2.le
    intro b hb
    rcases List.mem_append.mp hb with hb | hb
    · have hmem := (Block.lvalue_mem hL.groups hb).1
      have hr := (hL.valid b hb).radii
      rw [h.ratio _ hmem] at hr
      exact ⟨h.l _ hmem, key _ _ hr (hlv _ hmem)⟩
    · obtain ⟨n, hn, rfl⟩ := List.mem_map.mp hb
      have := (hL.left h.spin n hn).1
      have := h.waves.2
      exact ⟨show n.l ≤ 4 by omega, key _ _ hL.radii hap⟩
  intro st hst
  obtain ⟨x, -, hb, -, hch, -⟩ := forall₂_mem_right j3 hst
  have hcell : ∀ c ∈ st.group.channels, ∃ b ∈ blocks ++ remaining.map (emptyBlock A pair radii), ∃ j,
      (b.cell K lib).channel j = c := by
    intro c hc
    rw [hch] at hc
    obtain ⟨cell, hcm, j, -, rfl⟩ := mem_channelsOf.mp hc
    obtain ⟨b, hbm, rfl⟩ := List.mem_map.mp (mem_cellsOf.mp hcm).1
    exact ⟨b, hbm, j, rfl⟩
  have hfis : ∀ b ∈ blocks ++ remaining.map (emptyBlock A pair radii), b.fission.id ≠ b.pair.id := by
    intro b hbm
    obtain ⟨-, -, hfis, hbp⟩ := hall b hbm
    rw [hfis, hbp, hpid]
    exact (pairID_ne_of_not_mem (id := "fission".toList) (by decide))
  refine ⟨fun c hc => ?_, fun c hc hid => ?_, ?_⟩
  · obtain ⟨b, hbm, j, rfl⟩ := hcell c hc
    obtain ⟨hnum, -, -, hbp⟩ := hall b hbm
    obtain ⟨hl, r1, r2, r3, r4⟩ := hradii b hbm
    exact cell_slow (by rw [hnum.l]; exact hl) (by rw [hbp]; exact hred) (hfis b hbm)
      (by rw [hbp]; exact hratio) r1 r2 r3 r4 j
  · obtain ⟨b, hbm, j, rfl⟩ := hcell c hc
    obtain ⟨-, -, -, hbp⟩ := hall b hbm
    refine cell_reaction (hfis b hbm) j ?_
    rw [hbp, hpid]
    exact hid
  · unfold captureID
    cases st.group.channels.head? <;> simp

/-- C76 for Reich-Moore ranges that begin at zero energy or below and whose radii are continuous around that
energy. -/
theorem C76_reich_moore (ht : range.type = 1 ∧ range.representation = 3)
    (hp : range.parameters = .reichMoore p)
    (hr : Option.Rel (IsRadiusTable tables) range.scatteringRadius nro)
    (h : PhysicalReichMoore neutronMass A nro range.naps p)
    (hE : range.lower ≤ 0 ∧ 0 < range.upper) (hap : RadiiAround neutronMass A nro range.naps p.ap 0)
    (hlv : ∀ lv ∈ p.lValues, RadiiAround neutronMass A nro range.naps (lengthOf p lv) 0) :
    ∃ R s, ∃ limits : List ((ReactionID → ℝ) × (ReactionID → ℝ)),
      fromENDF K lib tables reactions initialBreitWigner initial neutronMass elementaryCharge
        incident target range = .ok R ∧ R.system = .shiftFactor s ∧
      List.Forall₂ (fun (st : GroupState) l =>
        SlowGroup .shiftFactor K lib st.group.channels st.group.table.resonances l.1 l.2) s limits ∧
      ∀ ε > 0, ∃ δ > 0, ∀ E, 0 < E → E < δ → ∃ m R', R.call K lib E = .ok (m, R') ∧
        (∀ id, |Real.sqrt E * (m (.inl id)).getD 0 - (limits.map fun l => l.1 id).sum| < ε) ∧
        |(m (.inl (.elastic (pairID incident target)))).getD 0
          - (limits.map fun l => l.2 (.elastic (pairID incident target))).sum| < ε := by
  obtain ⟨R, hR, -⟩ := C69_accepted (K := K) (lib := lib) (tables := tables) (reactions := reactions)
    (initialBreitWigner := initialBreitWigner) (initial := initial) (elementaryCharge := elementaryCharge)
    (incident := incident) (target := target) ht hp hr h
  obtain ⟨k1, k2, -, nro', k3, k4⟩ := C47_dispatch hR
  rw [radiusTable_of hr] at k3
  obtain rfl := Except.ok.inj k3
  rw [hp] at k4
  cases hs : R.system with
  | shiftFactor s =>
    rw [hs] at k4
    have hgr := (reichMoore_groups h k4).1
    have hsl := reichMoore_slow h hap hlv k4
    have hex : ∀ st ∈ s, ∃ l : (ReactionID → ℝ) × (ReactionID → ℝ),
        SlowGroup .shiftFactor K lib st.group.channels st.group.table.resonances l.1 l.2 := by
      intro st hst
      obtain ⟨-, hw, -, hres⟩ := hgr st hst
      refine slowGroup_exists (hsl st hst).1 hw ?_
      rintro r hr' ⟨h1, -⟩
      obtain ⟨lv, hlm, r', hr', e, -⟩ := hres r hr'
      exact h.energies lv hlm r' hr' (e.trans h1)
    obtain ⟨limits, hlim⟩ := forall₂_exists hex
    refine ⟨R, s, limits, hR, hs, hlim, fun ε hε => ?_⟩
    obtain ⟨δ, hδ, hall⟩ := C76_reconstructor (option := .shiftFactor) hs (fun st hst => (hgr st hst).1) hlim
      (by rw [k1, k2]; exact hE) hε
    refine ⟨δ, hδ, fun E h0 h1 => ?_⟩
    obtain ⟨m, R', h2, h3⟩ := hall E h0 h1
    exact ⟨m, R', h2, fun id => (h3 id).1, (h3 _).2 fun st hst => (hsl st hst).2⟩
  | constant s => rw [hs] at k4; exact k4.elim
  | singleLevel s => rw [hs] at k4; exact k4.elim
  | multiLevel s => rw [hs] at k4; exact k4.elim
  | unresolved s => rw [hs] at k4; exact k4.elim

open Example in
/-- C76 applies to the example of C69 if its range begins at zero energy. -/
example (K : Constants) (lib : CoulombLibrary) (tables : InterpolationLibrary) (reactions : ReactionLibrary)
    (initialBreitWigner : Channel → Verif.BreitWigner.Cache)
    (initial : (g : SpinGroup) → MatrixCache g.channels.length) (elementaryCharge : ℝ) (range : Range)
    (ht : range.type = 1 ∧ range.representation = 3) (hp : range.parameters = .reichMoore (evaluation 0))
    (hr : range.scatteringRadius = none) (hn : range.naps = 1) (hE : range.lower = 0 ∧ 0 < range.upper) :
    ∃ R, ∃ v : ReactionID → ℝ, fromENDF K lib tables reactions initialBreitWigner initial 1 elementaryCharge
        "n".toList "Cl35".toList range = .ok R ∧
      ∀ ε > 0, ∃ δ > 0, ∀ E, 0 < E → E < δ → ∃ m R', R.call K lib E = .ok (m, R') ∧
        ∀ id, |Real.sqrt E * (m (.inl id)).getD 0 - v id| < ε := by
  have around : ∀ {ap : ℝ}, 0 < ap → RadiiAround 1 35 none 1 ap 0 := fun h =>
    ⟨_, _, radii _ _, ⟨fun _ => _, continuousAt_const, Eventually.of_forall fun _ => rfl⟩, ⟨_, h, rfl⟩,
      ⟨fun _ => _, continuousAt_const, Eventually.of_forall fun _ => rfl⟩⟩
  obtain ⟨R, s, limits, h1, -, -, h2⟩ := C76_reich_moore (K := K) (lib := lib) (tables := tables)
    (reactions := reactions) (initialBreitWigner := initialBreitWigner) (initial := initial)
    (elementaryCharge := elementaryCharge) (incident := "n".toList) (target := "Cl35".toList) (nro := none)
    (neutronMass := 1) (A := 35) ht hp (by rw [hr]; exact .none) (by rw [hn]; exact physical)
    ⟨hE.1.le, hE.2⟩ (by rw [hn]; exact around (by norm_num [evaluation])) (by
      rw [hn]
      intro lv hlv
      refine around ?_
      simp only [evaluation, List.mem_cons, List.not_mem_nil, or_false] at hlv
      rcases hlv with rfl | rfl <;> norm_num [lengthOf, evaluation])
  refine ⟨R, fun id => (limits.map fun l => l.1 id).sum, h1, fun ε hε => ?_⟩
  obtain ⟨δ, hδ, h3⟩ := h2 ε hε
  refine ⟨δ, hδ, fun E h4 h5 => ?_⟩
  obtain ⟨m, R', h6, h7, -⟩ := h3 E h4 h5
  exact ⟨m, R', h6, h7⟩

end Endf

end Verif
