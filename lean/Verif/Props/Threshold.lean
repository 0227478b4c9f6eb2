import Verif.Lemmas.Threshold
import Verif.Lemmas.OneLevel
import Verif.Props.LowEnergy

/-!
# Property C81: cross sections just above the threshold of a reaction
-/

namespace Verif

open Filter Topology Complex

section

variable {option : BoundaryOption} {K : Constants} {lib : CoulombLibrary} {E₀ : ℝ} {id : ReactionID} {l : ℕ}

theorem group_threshold {g : SpinGroup} (hg : g.Built) {v : ℝ}
    (h : Spec.ThresholdLimit option K lib g.channels g.table.resonances E₀ id l v) :
    ∃ f : ℝ → ℝ, Tendsto (fun E => f E / Real.sqrt (E - E₀) ^ (2 * l + 1)) (𝓝[>] E₀) (𝓝 v) ∧
      ∀ᶠ E in 𝓝[>] E₀, ∀ cache start, ∃ m cache',
        g.evaluate option K lib E cache start = .ok (m, cache') ∧
        (m id).getD 0 = (start id).getD 0 + f E := by
  classical
  obtain ⟨hs, hid, P₀, S₀, w₀, phi₀, a, hev, ha, rfl⟩ := h
  have hch : ∀ i : Fin g.channels.length, ∃ P S phi, SmoothFunctions K lib g.channels[i] E₀ P S phi := fun i =>
    (hs _ (List.getElem_mem _)).functions (hev.penetrability i)
  choose P S phi hch using hch
  have hv := fun i => (hch i).values.self_of_nhds
  obtain rfl : P₀ = fun c => P c E₀ := by
    funext i; simpa using (hev.penetrability i).symm.trans (hv i).1
  have hden : Spec.levelDenominator option g.channels g.table.resonances E₀ (fun c => P c E₀) S₀
      = Spec.levelDenominator option g.channels g.table.resonances E₀ (fun c => P c E₀) (fun c => S c E₀) := by
    cases option with
    | shiftFactor => rfl
    | constant =>
      obtain rfl : S₀ = fun c => S c E₀ := by
        funext i; simpa using (hev.shiftFactor rfl i).symm.trans (hv i).2.1
      rfl
  have hdet := hden ▸ hev.invertible
  have hlim := threshold_limit (option := option) hs hch hev.noPole hdet hev.waveNumber ha hid
  obtain ⟨hdet', -⟩ := resonanceMatrix_tendsto (fun c hc => (hs c hc).massRatio) hch hev.noPole hdet
  refine ⟨fun E => Spec.contribution option K g.channels g.table.resonances E (fun c => P c E)
    (fun c => S c E) (fun _ => 0) (fun c => phi c E) id, ?_, ?_⟩
  · rw [Spec.resonanceMatrix, hden]
    exact hlim
  have hpole : ∀ᶠ E in 𝓝[>] E₀, ∀ r ∈ g.table.resonances.toFinset,
      ¬ (r.energy = E ∧ r.eliminated = 0) := by
    rw [Finset.eventually_all]
    intro r hr
    by_cases h0 : r.energy = E₀
    · filter_upwards [self_mem_nhdsWithin] with E hE h1
      rw [h0] at h1
      exact (Set.mem_Ioi.mp hE).ne h1.1
    · filter_upwards [nhdsWithin_le_nhds (continuousAt_id.eventually_ne (Ne.symm h0))] with E hE h1
      exact hE h1.1.symm
  have hvals : ∀ᶠ E in 𝓝[>] E₀, ∀ i, g.channels[i].penetrability K lib E = .ok (P i E) ∧
      g.channels[i].shiftFactor K lib E = .ok (S i E) ∧ g.channels[i].coulombPhaseShift K E = .ok 0 ∧
      g.channels[i].phaseShift K lib E = .ok (phi i E) ∧ 0 ≤ P i E := by
    rw [eventually_all]
    exact fun i => nhdsWithin_le_nhds (hch i).values
  obtain ⟨d, hd, hk⟩ := hev.waveNumber
  filter_upwards [hpole, hvals, hdet', nhdsWithin_le_nhds
    ((waveNumber_continuous K d).continuousAt.eventually_ne hk)] with E h1 h2 h3 h4 cache start
  have hev' : Spec.Evaluable option K lib g.channels g.table.resonances E (fun c => P c E) (fun c => S c E)
      (fun _ => 0) (fun c => phi c E) :=
    ⟨fun i => (h2 i).1, fun _ i => (h2 i).2.1, fun i => (h2 i).2.2.1, fun i => (h2 i).2.2.2.1,
      fun i => (h2 i).2.2.2.2, hev.widths, fun r hr => h1 r (List.mem_toFinset.mpr hr), h3, d, hd, h4⟩
  obtain ⟨⟨m, cache'⟩, hm⟩ := evaluate_ok_of hg hev' cache start
  obtain ⟨P', S', w', phi', hev'', hres⟩ := evaluate_ok hg hm
  refine ⟨m, cache', hm, ?_⟩
  rw [hres id]
  by_cases hid : id ∈ g.reactions
  · rw [if_pos hid, Option.getD_some, Evaluable_contribution hev'' hev']
  · rw [if_neg hid, contribution_absent hg hid, add_zero]

theorem near_of_tendsto {f : ℝ → ℝ} {v : ℝ} (h : Tendsto f (𝓝[>] E₀) (𝓝 v)) {p : ℝ → Prop}
    (hp : ∀ᶠ E in 𝓝[>] E₀, p E) {ε : ℝ} (hε : 0 < ε) :
    ∃ δ > 0, ∀ E, E₀ < E → E < E₀ + δ → p E ∧ |f E - v| < ε := by
  obtain ⟨u, hu, hall⟩ := mem_nhdsGT_iff_exists_Ioo_subset.mp (hp.and (Metric.tendsto_nhds.mp h ε hε))
  refine ⟨u - E₀, sub_pos.mpr hu, fun E h0 hE => ?_⟩
  obtain ⟨h1, h2⟩ := hall ⟨h0, by linarith⟩
  exact ⟨h1, by rwa [Real.dist_eq] at h2⟩

/-- C81 for a spin group that can be evaluated at the threshold of a reaction: it can be evaluated at all
energies just above it, whatever was evaluated before, and the quotient of the cross section and the power
`l + 1/2` of the energy above the threshold approaches the limit. -/
theorem C81_spin_group {g : SpinGroup} (hg : g.Built) {v : ℝ}
    (h : Spec.ThresholdLimit option K lib g.channels g.table.resonances E₀ id l v) {ε : ℝ} (hε : 0 < ε) :
    ∃ δ > 0, ∀ E, E₀ < E → E < E₀ + δ → ∀ cache, ∃ m cache',
      g.evaluate option K lib E cache (fun _ => none) = .ok (m, cache') ∧
        |(m id).getD 0 / Real.sqrt (E - E₀) ^ (2 * l + 1) - v| < ε := by
  obtain ⟨f, hf, hnear⟩ := group_threshold hg h
  obtain ⟨δ, hδ, hall⟩ := near_of_tendsto hf hnear hε
  refine ⟨δ, hδ, fun E h0 hE cache => ?_⟩
  obtain ⟨h1, h2⟩ := hall E h0 hE
  obtain ⟨m, cache', h3, h4⟩ := h1 cache fun _ => none
  refine ⟨m, cache', h3, ?_⟩
  rw [h4, Option.getD_none, zero_add]
  exact h2

theorem group_at_threshold {g : SpinGroup} (hg : g.Built) (hs : ∀ c ∈ g.channels, Spec.SmoothChannel c E₀)
    (hid : Spec.OpensAt g.channels E₀ id l) {cache cache' : MatrixCache g.channels.length}
    {start m : CrossSectionMap} (h : g.evaluate option K lib E₀ cache start = .ok (m, cache')) :
    (m id).getD 0 = (start id).getD 0 := by
  obtain ⟨P, S, w, phi, hev, hres⟩ := evaluate_ok hg h
  have hzero : ∀ c : Fin g.channels.length, g.channels[c].reaction = id → P c = 0 := by
    intro c hc
    have hmem : g.channels[c] ∈ g.channels := List.getElem_mem _
    obtain ⟨P', S', phi', hch⟩ := (hs _ hmem).functions (hev.penetrability c)
    obtain ⟨a, -, ha⟩ := (hs _ hmem).penetrability
    obtain ⟨h1, -⟩ := hch.opening (hid.threshold _ hmem hc) (hid.neutron _ hmem hc)
      (hid.reducedMass _ hmem hc) _ ha.self_of_nhds
    rw [← h1]
    simpa using (hev.penetrability c).symm.trans hch.values.self_of_nhds.1
  have hcon : Spec.contribution option K g.channels g.table.resonances E₀ P S w phi id = 0 := by
    unfold Spec.contribution
    refine Finset.sum_eq_zero fun c _ => ?_
    by_cases hc : g.channels[c].isIncident
    swap
    · rw [if_neg hc]
    rw [if_pos hc, if_neg hid.notCapture, add_zero]
    refine Finset.sum_eq_zero fun c' _ => ?_
    by_cases hr : g.channels[c'].reaction = id
    swap
    · rw [if_neg hr]
    have hcc : c ≠ c' := by
      rintro rfl
      exact hid.notIncident _ (List.getElem_mem _) hr hc
    rw [if_pos hr, partial_other hev.nonneg hcc, hzero c' hr]
    ring
  rw [hres id]
  split
  · rw [Option.getD_some, hcon, add_zero]
  · rfl

/-- C81: at the threshold itself the cross section is zero. -/
theorem C81_at_threshold {g : SpinGroup} (hg : g.Built) (hs : ∀ c ∈ g.channels, Spec.SmoothChannel c E₀)
    (hid : Spec.OpensAt g.channels E₀ id l) {cache cache' : MatrixCache g.channels.length}
    {m : CrossSectionMap} (h : g.evaluate option K lib E₀ cache (fun _ => none) = .ok (m, cache')) :
    (m id).getD 0 = 0 := group_at_threshold hg hs hid h

/-- C81: a spin group that can be evaluated at the threshold has such a limit. -/
theorem C81_limit_exists {g : SpinGroup} (hg : g.Built) (hs : ∀ c ∈ g.channels, Spec.SmoothChannel c E₀)
    (hid : Spec.OpensAt g.channels E₀ id l) (hspin : ∀ c ∈ g.channels, 0 ≤ c.spinFactor)
    {cache cache' : MatrixCache g.channels.length} {m : CrossSectionMap}
    (h : g.evaluate option K lib E₀ cache (fun _ => none) = .ok (m, cache')) :
    ∃ v, 0 ≤ v ∧ Spec.ThresholdLimit option K lib g.channels g.table.resonances E₀ id l v := by
  obtain ⟨P, S, w, phi, hev, -⟩ := evaluate_ok hg h
  have hr : ∀ i : Fin g.channels.length, ∃ a, g.channels[i].radii.penetrability E₀ = .ok a := by
    intro i
    obtain ⟨a, -, ha⟩ := (hs _ (List.getElem_mem (l := g.channels) i.isLt)).penetrability
    exact ⟨_, ha.self_of_nhds⟩
  choose a ha using hr
  refine ⟨_, ?_, hs, hid, P, S, w, phi, a, hev, ha, rfl⟩
  unfold Spec.thresholdReaction
  refine Finset.sum_nonneg fun c _ => ?_
  split
  swap
  · exact le_rfl
  refine Finset.sum_nonneg fun c' _ => ?_
  split
  swap
  · exact le_rfl
  rename_i hc
  have hmem : g.channels[c'] ∈ g.channels := List.getElem_mem _
  have ha0 : 0 ≤ a c' :=
    ((hs _ hmem).nonneg (hid.neutron _ hmem hc.1)).self_of_nhds _ (ha c')
  have hfac : 0 ≤ Spec.incidentFactor K g.channels E₀ := incidentFactor_nonneg hspin
  have hpen : 0 ≤ Spec.thresholdPenetrability K g.channels[c'] E₀ (a c') :=
    div_nonneg (pow_nonneg (mul_nonneg (waveNumber_nonneg K _ _) ha0) _) (sq_nonneg _)
  have := hev.nonneg c
  have := normSq_nonneg (Spec.resonanceMatrix option g.channels g.table.resonances E₀ P S c c')
  positivity

theorem system_threshold {s : CompoundSystem} (hg : ∀ st ∈ s, st.group.Built) {limits : List ℝ}
    (h : List.Forall₂ (fun (st : GroupState) v =>
      Spec.ThresholdLimit option K lib st.group.channels st.group.table.resonances E₀ id l v) s limits) :
    ∃ f : ℝ → ℝ, Tendsto (fun E => f E / Real.sqrt (E - E₀) ^ (2 * l + 1)) (𝓝[>] E₀) (𝓝 limits.sum) ∧
      ∀ᶠ E in 𝓝[>] E₀, ∀ s₁ : CompoundSystem, s₁.map GroupState.group = s.map GroupState.group →
        ∀ start, ∃ m s₂, CompoundSystem.evaluate option K lib E s₁ start = .ok (m, s₂) ∧
          (m id).getD 0 = (start id).getD 0 + f E := by
  induction h with
  | nil =>
    refine ⟨fun _ => 0, ?_, Eventually.of_forall fun E s₁ hs₁ start => ?_⟩
    · simp only [zero_div, List.sum_nil]
      exact tendsto_const_nhds
    · obtain rfl := List.map_eq_nil_iff.mp hs₁
      exact ⟨start, [], rfl, (add_zero _).symm⟩
  | @cons st v s limits h1 _ ih =>
    obtain ⟨f, hf, hnear⟩ := group_threshold (hg st List.mem_cons_self) h1
    obtain ⟨k, hk, hnear'⟩ := ih fun st hst => hg st (List.mem_cons_of_mem _ hst)
    refine ⟨fun E => f E + k E, ?_, ?_⟩
    · simp only [add_div, List.sum_cons]
      exact hf.add hk
    · filter_upwards [hnear, hnear'] with E h3 h4 s₁ hs₁ start
      cases s₁ with
      | nil => cases hs₁
      | cons st₁ rest₁ =>
        obtain ⟨g₁, cache₁⟩ := st₁
        simp only [List.map_cons, List.cons.injEq] at hs₁
        obtain ⟨rfl, hs₁⟩ := hs₁
        obtain ⟨m, c', h5, h6⟩ := h3 cache₁ start
        obtain ⟨m', s₂, h7, h8⟩ := h4 rest₁ hs₁ m
        refine ⟨_, _, evaluate_cons_ok.mpr ⟨_, _, _, h5, h7, rfl⟩, ?_⟩
        rw [h8, h6, add_assoc]

/-- C81 for a compound system: the limit is the sum of those of its spin groups. -/
theorem C81_system {s : CompoundSystem} (hg : ∀ st ∈ s, st.group.Built) {limits : List ℝ}
    (h : List.Forall₂ (fun (st : GroupState) v =>
      Spec.ThresholdLimit option K lib st.group.channels st.group.table.resonances E₀ id l v) s limits)
    {ε : ℝ} (hε : 0 < ε) :
    ∃ δ > 0, ∀ E, E₀ < E → E < E₀ + δ → ∀ s₁ : CompoundSystem,
      s₁.map GroupState.group = s.map GroupState.group → ∃ m s₂,
        CompoundSystem.evaluate option K lib E s₁ (fun _ => none) = .ok (m, s₂) ∧
        |(m id).getD 0 / Real.sqrt (E - E₀) ^ (2 * l + 1) - limits.sum| < ε := by
  obtain ⟨f, hf, hnear⟩ := system_threshold hg h
  obtain ⟨δ, hδ, hall⟩ := near_of_tendsto hf hnear hε
  refine ⟨δ, hδ, fun E h0 hE s₁ hs₁ => ?_⟩
  obtain ⟨h1, h2⟩ := hall E h0 hE
  obtain ⟨m, s₂, h3, h4⟩ := h1 s₁ hs₁ fun _ => none
  refine ⟨m, s₂, h3, ?_⟩
  rw [h4, Option.getD_none, zero_add]
  exact h2

/-- C81 for a reconstructor of a compound system whose range contains the threshold. -/
theorem C81_reconstructor {R : Reconstructor} {s : CompoundSystem} (hs : R.system = variantOf option s)
    (hg : ∀ st ∈ s, st.group.Built) {limits : List ℝ}
    (h : List.Forall₂ (fun (st : GroupState) v =>
      Spec.ThresholdLimit option K lib st.group.channels st.group.table.resonances E₀ id l v) s limits)
    (hE : R.lower ≤ E₀ ∧ E₀ < R.upper) {ε : ℝ} (hε : 0 < ε) :
    ∃ δ > 0, ∀ E, E₀ < E → E < E₀ + δ → ∃ m R', R.call K lib E = .ok (m, R') ∧
      |(m (.inl id)).getD 0 / Real.sqrt (E - E₀) ^ (2 * l + 1) - limits.sum| < ε := by
  obtain ⟨δ, hδ, hall⟩ := C81_system hg h hε
  refine ⟨min δ (R.upper - E₀), lt_min hδ (sub_pos.mpr hE.2), fun E h0 hE' => ?_⟩
  have h1 : E < E₀ + δ := hE'.trans_le (by linarith [min_le_left δ (R.upper - E₀)])
  have h2 : E < R.upper := hE'.trans_le (by linarith [min_le_right δ (R.upper - E₀)])
  obtain ⟨m, s₂, h3, h4⟩ := hall E h0 h1 s rfl
  refine ⟨.ofCrossSections m, { R with system := variantOf option s₂ }, ?_, h4⟩
  unfold Reconstructor.call
  rw [if_pos (by exact ⟨by linarith [hE.1], h2.le⟩), hs]
  cases option <;>
  · simp only [variantOf, SystemVariant.evaluate, h3]
    rfl

theorem resonanceMatrix_one {channels : List Channel} {r : Resonance} {P S : Fin channels.length → ℝ}
    (hpole : ¬ (r.energy = E₀ ∧ r.eliminated = 0))
    (hdet : (Spec.levelDenominator option channels [r] E₀ P S).det ≠ 0) (c c' : Fin channels.length) :
    normSq (Spec.resonanceMatrix option channels [r] E₀ P S c c')
      = (Spec.amplitude channels E₀ r c * Spec.amplitude channels E₀ r c') ^ 2
        / ((Spec.shiftedEnergy channels r E₀ option S - E₀) ^ 2 + (Spec.totalWidth channels r E₀ P / 2) ^ 2) := by
  have hD := denominator_nonzero hpole
  have hR := rMatrix_single (channels := channels) (r := r) (E := E₀)
  unfold Spec.levelDenominator at hdet
  rw [hR] at hdet
  obtain ⟨-, h2⟩ := rankOne_level hD (fun c => (Spec.amplitude channels E₀ r c : ℂ)) _ hdet
  rw [oneLevel_denominator] at h2
  unfold Spec.resonanceMatrix Spec.levelDenominator
  rw [hR, h2, Matrix.of_apply, normSq_div, normSq_denominator, ← ofReal_mul, normSq_ofReal, ← pow_two]

/-- C81: the limit is positive for a single resonance with widths in an open incident channel and in a channel
that opens with the angular momentum `l`, so that the power of the energy is the right one. -/
theorem C81_positive {channels : List Channel} {r : Resonance} {v : ℝ}
    (h : Spec.ThresholdLimit option K lib channels [r] E₀ id l v) (hspin : ∀ c ∈ channels, 0 < c.spinFactor)
    {c c' : Fin channels.length} (hc : channels[c].isIncident) {p a : ℝ}
    (hp : channels[c].penetrability K lib E₀ = .ok p) (hp0 : 0 < p) (hopen : ¬ channels[c].belowThreshold E₀)
    (hcw : r.width c ≠ 0) (hid : channels[c'].reaction = id) (hl : channels[c'].numbers.l = l)
    (ha : channels[c'].radii.penetrability E₀ = .ok a) (ha0 : 0 < a) (hcw' : r.width c' ≠ 0) : 0 < v := by
  obtain ⟨hs, ho, P, S, w, phi, a', hev, ha', rfl⟩ := h
  obtain rfl : P c = p := Except.ok.inj ((hev.penetrability c).symm.trans hp)
  obtain rfl : a' c' = a := Except.ok.inj ((ha' c').symm.trans ha)
  have hmem : channels[c'] ∈ channels := List.getElem_mem _
  have hpole := hev.noPole r List.mem_cons_self
  have hfac : 0 < Spec.incidentFactor K channels E₀ := by
    obtain ⟨d, hd, hk⟩ := hev.waveNumber
    unfold Spec.incidentFactor
    rw [hd]
    have h1 := hspin d (List.mem_of_find?_eq_some hd)
    have h2 : (0 : ℝ) < (d.spinFactor : ℝ) := by exact_mod_cast h1
    have h3 := (waveNumber_nonneg K d E₀).lt_of_ne' hk
    have := Real.pi_pos
    simp only
    positivity
  have hamp : Spec.amplitude channels E₀ r c = r.width c := if_neg hopen
  have hamp' : Spec.amplitude channels E₀ r c' = r.width c' := if_neg (by
    have := ho.threshold _ hmem hid
    unfold Spec.AtThreshold at this
    unfold Channel.belowThreshold
    rw [this]
    exact lt_irrefl 0)
  have hM : ∀ d d', 0 ≤ normSq (Spec.resonanceMatrix option channels [r] E₀ P S d d') := fun d d' => normSq_nonneg _
  have hMpos : 0 < normSq (Spec.resonanceMatrix option channels [r] E₀ P S c c') := by
    rw [resonanceMatrix_one hpole hev.invertible, hamp, hamp']
    have h1 := (tMatrix_oneLevel hpole hev.invertible).1
    rw [← normSq_pos, normSq_denominator] at h1
    have := mul_ne_zero hcw hcw'
    positivity
  have hk1 : 0 < channels[c'].waveNumber K (E₀ + 1) := waveNumber_pos (ho.reducedMass _ hmem hid) (by
    have h1 := ho.threshold _ hmem hid
    have h2 := (hs _ hmem).massRatio
    unfold Spec.AtThreshold at h1
    have : channels[c'].incident.massRatio * (E₀ + 1) + channels[c'].q = channels[c'].incident.massRatio := by
      linear_combination h1
    rw [this]
    exact h2.ne')
  have hpen : ∀ d : Fin channels.length, channels[d].reaction = id →
      0 ≤ Spec.thresholdPenetrability K channels[d] E₀ (a' d) := by
    intro d hd
    have hmem' : channels[d] ∈ channels := List.getElem_mem _
    have : 0 ≤ a' d := ((hs _ hmem').nonneg (ho.neutron _ hmem' hd)).self_of_nhds _ (ha' d)
    exact div_nonneg (pow_nonneg (mul_nonneg (waveNumber_nonneg K _ _) this) _) (sq_nonneg _)
  have hpen' : 0 < Spec.thresholdPenetrability K channels[c'] E₀ (a' c') := by
    unfold Spec.thresholdPenetrability
    have : 0 < (Nat.doubleFactorial (2 * channels[c'].numbers.l - 1) : ℝ) := by
      exact_mod_cast Nat.doubleFactorial_pos _
    positivity
  have hterm : ∀ d d', (0 : ℝ) ≤ if channels[d'].reaction = id ∧ channels[d'].numbers.l = l then
      Spec.incidentFactor K channels E₀ * (4 * P d * (Spec.thresholdPenetrability K channels[d'] E₀ (a' d')
        * normSq (Spec.resonanceMatrix option channels [r] E₀ P S d d'))) else 0 := by
    intro d d'
    split
    · rename_i hd
      have := hev.nonneg d
      have := hM d d'
      have := hpen d' hd.1
      positivity
    · exact le_rfl
  unfold Spec.thresholdReaction
  refine Finset.sum_pos' (fun d _ => ?_) ⟨c, Finset.mem_univ _, ?_⟩
  · split
    · exact Finset.sum_nonneg fun d' _ => hterm d d'
    · exact le_rfl
  · rw [if_pos hc]
    refine Finset.sum_pos' (fun d' _ => hterm c d') ⟨c', Finset.mem_univ _, ?_⟩
    rw [if_pos ⟨hid, hl⟩]
    positivity

end

namespace Example

/-- The channels of the example with the first resonance only. -/
noncomputable def oneTable : ResonanceTable := ⟨channels.map Channel.id, [⟨1, [1 / 2, 1 / 3, 1 / 5], 1 / 10⟩]⟩

theorem radius_smooth (E : ℝ) : Spec.ContinuousRadius (fun _ => (.ok 1 : Outcome ℝ)) E :=
  ⟨fun _ => 1, continuousAt_const, Eventually.of_forall fun _ => rfl⟩

theorem channels_smooth (E : ℝ) : ∀ c ∈ channels, Spec.SmoothChannel c E := by
  intro c hc
  have hn : ∀ {c : Channel}, c.radii = radii → c.type = .neutron →
      ∀ᶠ E in nhds E, ∀ a, c.radii.penetrability E = .ok a → 0 ≤ a := by
    intro c hr _
    refine Eventually.of_forall fun _ a ha => ?_
    rw [hr] at ha
    obtain rfl : (1 : ℝ) = a := Except.ok.inj ha
    exact zero_le_one
  simp only [channels, List.mem_cons, List.not_mem_nil, or_false] at hc
  rcases hc with rfl | rfl | rfl <;>
  exact ⟨by decide, radius_smooth E, hn rfl, radius_smooth E, radius_smooth E,
    by norm_num [elastic, inelastic, fission, makeChannel, pair]⟩

/-- Inelastic scattering opens at the energy 20. -/
theorem inelastic_opens : Spec.OpensAt channels 20 inelastic.reaction 0 := by
  have h : ∀ c ∈ channels, c.reaction = inelastic.reaction → c = inelastic := by
    intro c hc
    simp only [channels, List.mem_cons, List.not_mem_nil, or_false] at hc
    rcases hc with rfl | rfl | rfl
    · exact fun h => absurd h (by decide)
    · exact fun _ => rfl
    · exact fun h => absurd h (by decide)
  refine ⟨by decide, ?_, ?_, ?_, ?_, ?_⟩ <;> intro c hc hr <;> rw [h c hc hr]
  · rfl
  · decide
  · norm_num [Spec.AtThreshold, inelastic, makeChannel, pair]
  · norm_num [inelastic, makeChannel, excited]
  · exact Nat.zero_le _

theorem neutron_values (lib : CoulombLibrary) {c : Channel} (ht : c.type = .neutron) (hl : c.numbers.l = 0)
    (hr : c.radii = radii) (E : ℝ) :
    c.penetrability constants lib E = .ok (c.waveNumber constants E * 1) ∧
      (∃ s, c.shiftFactor constants lib E = .ok s) ∧
      c.coulombPhaseShift constants E = .ok 0 ∧ ∃ phi, c.phaseShift constants lib E = .ok phi := by
  have heta : c.eta constants E = .ok 0 := if_neg (by rw [ht]; decide)
  have h1 : c.radii.penetrability E = .ok 1 := by rw [hr]; rfl
  have h2 : c.radii.shiftFactor E = .ok 1 := by rw [hr]; rfl
  have h3 : c.radii.phaseShift E = .ok 1 := by rw [hr]; rfl
  simp only [Channel.penetrability, Channel.shiftFactor, Channel.phaseShift,
    Channel.coulombPhaseShift, heta, h1, h2, h3, ht, hl]
  have h0 : (0 : ℕ) ≤ 4 := Nat.zero_le _
  exact ⟨calculatePenetrability_eq lib h0 _ 0, ⟨_, calculateShiftFactor_eq lib h0
    (c.waveNumber constants E * 1) 0⟩, rfl, _, calculatePhaseShift_eq lib h0 (c.waveNumber constants E * 1) 0⟩

theorem values_at (lib : CoulombLibrary) (E : ℝ) : ∀ c ∈ channels,
    (∃ p, 0 ≤ p ∧ c.penetrability constants lib E = .ok p) ∧ (∃ s, c.shiftFactor constants lib E = .ok s) ∧
      (∃ w, c.coulombPhaseShift constants E = .ok w) ∧ ∃ phi, c.phaseShift constants lib E = .ok phi := by
  intro c hc
  simp only [channels, List.mem_cons, List.not_mem_nil, or_false] at hc
  rcases hc with rfl | rfl | rfl
  · obtain ⟨h1, h2, h3, h4⟩ := neutron_values lib (c := elastic) rfl rfl rfl E
    exact ⟨⟨_, mul_nonneg (waveNumber_nonneg _ _ _) zero_le_one, h1⟩, h2, ⟨_, h3⟩, h4⟩
  · obtain ⟨h1, h2, h3, h4⟩ := neutron_values lib (c := inelastic) rfl rfl rfl E
    exact ⟨⟨_, mul_nonneg (waveNumber_nonneg _ _ _) zero_le_one, h1⟩, h2, ⟨_, h3⟩, h4⟩
  · exact ⟨⟨1, zero_le_one, rfl⟩, ⟨0, rfl⟩, ⟨0, rfl⟩, ⟨0, rfl⟩⟩

/-- In the example the cross section for inelastic scattering is proportional to the square root of the
energy above the threshold. -/
example (lib : CoulombLibrary) : ∃ g : SpinGroup, g.Built ∧ g.channels = channels ∧ ∃ v > 0, ∀ ε > 0,
    ∃ δ > 0, ∀ E, 20 < E → E < 20 + δ → ∀ cache, ∃ m cache',
      g.evaluate .shiftFactor constants lib E cache (fun _ => none) = .ok (m, cache') ∧
        |(m inelastic.reaction).getD 0 / Real.sqrt (E - 20) - v| < ε := by
  obtain ⟨g, hg⟩ := (C24_accepted channels oneTable).mpr
    ⟨consistent.nonempty, consistent.sameIncident, consistent.uniqueIDs, consistent.sameJpi,
      consistent.hasIncident, rfl⟩
  obtain ⟨h1, h2, -⟩ := C24_contents hg
  have hb := (SpinGroup.Built.of_make hg).1
  obtain ⟨chs, rx, inc, tab⟩ := g
  obtain rfl : chs = channels := h1
  obtain rfl : tab = oneTable := h2
  refine ⟨_, hb, rfl, ?_⟩
  have hv := fun i : Fin channels.length => values_at lib 20 channels[i] (List.getElem_mem _)
  choose P hP using fun i => (hv i).1
  choose S hS using fun i => (hv i).2.1
  choose w hw using fun i => (hv i).2.2.1
  choose phi hphi using fun i => (hv i).2.2.2
  obtain ⟨⟨⟨m, cache'⟩, hm⟩, -⟩ := C19_evaluation_succeeds (option := .shiftFactor) hb (fun i => (hP i).2)
    (fun _ => hS) hw hphi (fun i => (hP i).1) (fun h => by cases h)
    (fun r hr => by obtain rfl := List.mem_singleton.mp hr; rfl)
    (fun r hr => by obtain rfl := List.mem_singleton.mp hr; norm_num)
    (by
      intro c hc hi
      have hc' : c ∈ channels := hc
      simp only [channels, List.mem_cons, List.not_mem_nil, or_false] at hc'
      rcases hc' with rfl | rfl | rfl
      · exact (waveNumber_pos (by norm_num [elastic, makeChannel, pair])
          (by norm_num [elastic, makeChannel, pair])).ne'
      · exact absurd hi (by decide)
      · exact absurd hi (by decide)) (.initial 0 0) (fun _ => none) (fun _ => none)
  obtain ⟨v, -, hlim⟩ := C81_limit_exists hb (channels_smooth 20) inelastic_opens spinFactor_nonneg hm
  have hk : 0 < elastic.waveNumber constants 20 := waveNumber_pos (by norm_num [elastic, makeChannel, pair])
    (by norm_num [elastic, makeChannel, pair])
  refine ⟨v, C81_positive (channels := channels) hlim (c := ⟨0, by decide⟩) (c' := ⟨1, by decide⟩) (a := 1) ?_ rfl
    (neutron_values lib (c := elastic) rfl rfl rfl 20).1 (mul_pos hk one_pos) ?_ ?_ rfl rfl rfl one_pos ?_,
    fun ε hε => ?_⟩
  · intro c hc
    simp only [channels, List.mem_cons, List.not_mem_nil, or_false] at hc
    rcases hc with rfl | rfl | rfl <;>
      norm_num [elastic, inelastic, fission, makeChannel, statisticalSpinFactor, pair, excited,
        fissionPair, neutron, target]
  · show ¬ elastic.belowThreshold 20
    norm_num [Channel.belowThreshold, elastic, makeChannel, pair]
  · norm_num [Resonance.width]
  · norm_num [Resonance.width]
  · simpa using C81_spin_group hb hlim hε

end Example

end Verif
