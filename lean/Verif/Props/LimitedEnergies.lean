import Verif.Lemmas.CaptureDet
import Verif.Props.UnitarityLimited
import Verif.Props.ContinuityRMatrix
import Verif.Props.LowEnergy
import Verif.Props.Threshold

/-!
# Properties C76 and C81 for R-matrix-limited ranges
-/

namespace Verif

open Filter Topology

/-- A neutron channel that at the energy is closed, or at its threshold with the boundary condition of the
threshold, or open. -/
def Settled (c : Channel) (E : ℝ) : Prop :=
  c.belowThreshold E ∨ (Spec.AtThreshold c E ∧ c.boundary = -(c.numbers.l : ℝ)) ∨
    (c.incident.massRatio * E + c.q ≠ 0 ∧ 0 < c.pair.reducedMass ∧ ∃ a, 0 < a ∧ c.radii.penetrability E = .ok a)

/-- The level matrices of such channels have inverses. -/
theorem settled_det {option : BoundaryOption} {K : Constants} {lib : CoulombLibrary} {E : ℝ}
    {channels : List Channel} {rs : List Resonance} {P S : Fin channels.length → ℝ}
    (hn : ∀ c ∈ channels, c.type ≠ .charged ∧ (c.type = .neutron → c.numbers.l ≤ 4))
    (hr : ∀ c ∈ channels, (∃ a, c.radii.penetrability E = .ok a) ∧ ∃ a, c.radii.shiftFactor E = .ok a)
    (hP : ∀ i : Fin channels.length, channels[i].penetrability K lib E = .ok (P i))
    (hS : ∀ i : Fin channels.length, channels[i].shiftFactor K lib E = .ok (S i))
    (hnn : ∀ i, 0 ≤ P i)
    (hb : option = .constant → ∀ c ∈ channels, c.type = .neutron → Settled c E) :
    (Spec.levelDenominator option channels rs E P S).det ≠ 0 := by
  rw [Spec.levelDenominator, logDerivative_eq]
  refine level_det_ne_zero _ _ hnn (imForm_rMatrix_nonneg _ _ _) fun i hPi0 => ?_
  cases option with
  | shiftFactor => exact .inl rfl
  | constant =>
  obtain ⟨hneutral, hl⟩ := hn channels[i] (List.getElem_mem _)
  have hPi := hP i
  have hSi := hS i
  rw [hPi0] at hPi
  have heta : channels[i].eta K E = .ok 0 := if_neg hneutral
  obtain ⟨⟨a, ha⟩, d, hd⟩ := hr channels[i] (List.getElem_mem _)
  simp only [Channel.penetrability, Channel.shiftFactor, heta, ha, hd, Bind.bind, Except.bind] at hPi hSi
  cases ht : channels[i].type with
  | charged => exact absurd ht hneutral
  | photon =>
    rw [ht] at hPi
    simp [calculatePenetrability] at hPi
  | fission =>
    rw [ht] at hPi
    simp [calculatePenetrability] at hPi
  | neutron =>
    have hl := hl ht
    rw [ht] at hPi hSi
    rw [calculatePenetrability_eq lib hl] at hPi
    rw [calculateShiftFactor_eq lib hl] at hSi
    rcases hb rfl channels[i] (List.getElem_mem _) ht with hc | ⟨hq, hc⟩ | ⟨hq, hm, a', ha', hra'⟩
    · exact .inr (rMatrix_closed _ _ _ _ hc)
    · left
      rw [waveNumber_threshold K hq, zero_mul, hsS_at_zero hl] at hSi
      show S i - channels[i].boundary = 0
      rw [hc, ← Except.ok.inj hSi]
      ring
    · exfalso
      have hk : 0 < channels[i].waveNumber K E := waveNumber_pos hm hq
      rw [ha] at hra'
      obtain rfl := Except.ok.inj hra'
      have hρ := mul_pos hk ha'
      have h0 := Except.ok.inj hPi
      generalize channels[i].waveNumber K E * a = ρ at hρ h0
      generalize channels[i].numbers.l = l at hl h0
      have : 0 < hsP l ρ := by
        interval_cases l <;> simp only [hsP] <;> positivity
      exact this.ne' h0

/-- There are limits with both kinds of boundary conditions. -/
theorem slowGroup_settled {option : BoundaryOption} {K : Constants} {lib : CoulombLibrary}
    {channels : List Channel} {rs : List Resonance} (h : ∀ c ∈ channels, Spec.SlowChannel c)
    (hb : option = .constant → ∀ c ∈ channels, c.type = .neutron → Settled c 0)
    (hw : ∀ r ∈ rs, r.widths.length = channels.length)
    (hp : ∀ r ∈ rs, ¬ (r.energy = 0 ∧ r.eliminated = 0)) :
    ∃ l : (ReactionID → ℝ) × (ReactionID → ℝ), Spec.SlowGroup option K lib channels rs l.1 l.2 := by
  have hch : ∀ i : Fin channels.length, ∃ P S phi, SlowFunctions K lib channels[i] P S phi := fun i =>
    (h _ (List.getElem_mem _)).functions
  choose P S phi hch using hch
  have hv := fun i => (hch i).values.self_of_nhds
  have hr : ∀ i : Fin channels.length, ∃ a b, channels[i].radii.penetrability 0 = .ok a ∧
      channels[i].radii.phaseShift 0 = .ok b := by
    intro i
    obtain ⟨a, -, ha⟩ := (h channels[i] (List.getElem_mem _)).penetrability
    obtain ⟨b, -, hb⟩ := (h channels[i] (List.getElem_mem _)).phaseShift
    exact ⟨_, _, ha.self_of_nhds, hb.self_of_nhds⟩
  choose a b hr using hr
  refine ⟨⟨_, _⟩, _, _, a, b, ⟨h, fun i => (hv i).1, fun i => (hv i).2.1, fun i => (hr i).1,
    fun i => (hr i).2, hw, hp, fun _ => ?_⟩, rfl, rfl⟩
  refine settled_det (fun c hc => ⟨(h c hc).neutral, (h c hc).momentum⟩) (fun c hc => ?_)
    (fun i => (hv i).1) (fun i => (hv i).2.1) (fun i => (hv i).2.2.2.2) hb
  obtain ⟨a, -, ha⟩ := (h c hc).penetrability
  obtain ⟨b, -, hb⟩ := (h c hc).shiftFactor
  exact ⟨⟨_, ha.self_of_nhds⟩, _, hb.self_of_nhds⟩

namespace Endf

open Spec

variable {K : Constants} {lib : CoulombLibrary} {tables : InterpolationLibrary} {E₀ : ℝ}
  {initialBreitWigner : Channel → Verif.BreitWigner.Cache} {neutronMass : ℝ} {incident target : Str}
  {reactions : ReactionLibrary} {initial : (g : SpinGroup) → MatrixCache g.channels.length}
  {elementaryCharge : ℝ} {range : Range} {p : RMatrixLimited} {s : CompoundSystem}
  {pairs : List ParticlePair} {pair : ParticlePair} {R R' : Reconstructor} {m : ReactionMap}

/-- The boundary conditions of the evaluation are used: the flag SHF of its first particle pair is not
zero. -/
def UsesBoundary (p : RMatrixLimited) : Prop :=
  ∃ first, p.pairs.head? = some first ∧ first.shiftFactorFlag ≠ 0

/-- The channels of neutral particles that open at the energy have the boundary conditions of the threshold, if
boundary conditions are used. -/
def SettledThresholds (p : RMatrixLimited) (massRatio E : ℝ) : Prop :=
  UsesBoundary p → ∀ record ∈ p.spinGroups, ∀ row ∈ record.channels, ∀ pairRow,
    p.pairs[row.pairNumber - 1]? = some pairRow → massRatio * E + pairRow.q = 0 → Emits pairRow.mt →
      row.boundary = -(row.l : ℝ)

/-- All resonances of the evaluation have a capture width. -/
def AllCapture (p : RMatrixLimited) : Prop :=
  ∀ record ∈ p.spinGroups, ∀ v ∈ record.resonances, ∃ (i : ℕ) (row : ChannelRow) (width : ℝ),
    record.channels[i]? = some row ∧ Captures p row ∧ v.2[i]? = some width ∧ width ≠ 0

namespace PhysicalRMatrix

open AdmissibleRMatrix (channel_of charge_of_type emits_of_type)

/-- What is needed about the channels of the system of an evaluation. -/
structure Facts (p : RMatrixLimited) (pairs : List ParticlePair) (pair : ParticlePair) (c : Channel) : Prop
    where
  neutral : c.type ≠ .charged
  massRatio : 0 < c.incident.massRatio
  incident : c.incident = pair
  reaction : c.reaction = makeReactionID pair.id c.pair.id
  factor : 0 ≤ c.spinFactor
  row : ∃ record ∈ p.spinGroups, ∃ row ∈ record.channels, ∃ pairRow,
    IsChannel pair pairs p.pairs record.spin record.parity row c ∧
    p.pairs[row.pairNumber - 1]? = some pairRow ∧ c.q = pairRow.q ∧ IsType c.pair pairRow.mt c.type ∧
    (Emits pairRow.mt → c.type = .neutron ∧ 0 < c.pair.reducedMass ∧ row.l ≤ 4 ∧ 0 < row.trueRadius)

theorem pair_positive
    (h : PhysicalRMatrix reactions neutronMass elementaryCharge incident target p pairs pair)
    {i : ℕ} {r : ParticlePairRow} {q : ParticlePair} (hr : p.pairs[i]? = some r) (hq : pairs[i]? = some q)
    (he : Emits r.mt) : 0 < q.massRatio ∧ 0 < q.reducedMass := by
  have hp := forall₂_index h.described hr hq
  obtain ⟨h1, h2⟩ := h.masses r (List.mem_of_getElem? hr) he
  rw [hp.ratio, hp.reduced, hp.masses.1, hp.masses.2]
  exact ⟨by positivity, by positivity⟩

theorem facts
    (h : PhysicalRMatrix reactions neutronMass elementaryCharge incident target p pairs pair)
    (hs : makeRMatrixCompoundSystem K lib initial reactions neutronMass elementaryCharge incident target p
      = .ok s) {st : GroupState} (hst : st ∈ s) {c : Channel} (hc : c ∈ st.group.channels) :
    Facts p pairs pair c := by
  obtain ⟨record, hrec, row, hrow, hic⟩ := (system_channels h hs st hst).2 c hc
  obtain ⟨i, prow, pair', data, consolidated, -, -, -, l1, l2, l3, l4⟩ := limited_system h.described hs
  obtain ⟨record', row', hfrom⟩ := system_rows l1 l2 l3 l4 st hst c hc
  obtain ⟨pairRow, h1, h2, h3⟩ := hic.reaction
  have hmem := List.mem_of_getElem? h1
  have hpair := forall₂_index h.described h1 hic.pair
  have hcharge : c.type ≠ .charged := by
    intro hch
    rw [hch] at h3
    have h4 := charge_of_type h3
    rw [hpair.charges.1, h.neutral _ hmem, zero_mul] at h4
    exact lt_irrefl _ h4
  obtain ⟨j, r, e1, e2, e3⟩ := h.elastic
  refine ⟨hcharge, ?_, hic.incident, ?_, factor_nonneg hfrom (spins_nonneg h.described), record, hrec, row, hrow, pairRow, hic, h1, h2, h3, fun he => ?_⟩
  · rw [hic.incident]
    exact (pair_positive h e1 e3 (by rw [e2]; unfold Emits; decide)).1
  · rw [hfrom.reaction_eq, ← hfrom.incident_eq, hic.incident]
  · obtain ⟨k1, k2⟩ := h.particles record hrec row hrow pairRow h1 he
    refine ⟨?_, (pair_positive h h1 hic.pair he).2, k1, k2⟩
    unfold Emits at he
    generalize c.type = t at h3 hcharge ⊢
    generalize pairRow.mt = mt at h3 he
    cases h3 with
    | neutral => rfl
    | charged => exact absurd rfl hcharge
    | capture => exact absurd he (by simp)
    | fission hf => exact absurd (List.mem_cons_of_mem _ hf) he

/-- Channels of the same pair refer to the same row. -/
theorem pair_row
    (h : PhysicalRMatrix reactions neutronMass elementaryCharge incident target p pairs pair)
    {i j : ℕ} {q q' : ParticlePair} (hi : pairs[i]? = some q) (hj : pairs[j]? = some q')
    (hid : q.id = q'.id) : i = j := by
  obtain ⟨l1, g1⟩ := List.getElem?_eq_some_iff.mp hi
  obtain ⟨l2, g2⟩ := List.getElem?_eq_some_iff.mp hj
  have := (List.nodup_iff_injective_get.mp h.distinct)
    (a₁ := ⟨i, by simpa using l1⟩) (a₂ := ⟨j, by simpa using l2⟩) (by simp [g1, g2, hid])
  exact Fin.mk.inj_iff.mp this

theorem constant_radius {f : ℝ → Outcome ℝ} {a : ℝ} (hf : ∀ E, f E = .ok a) : ContinuousRadius f E₀ :=
  ⟨fun _ => _, continuousAt_const, Eventually.of_forall hf⟩

theorem Facts.nonneg {c : Channel} (hc : Facts p pairs pair c) (ht : c.type = .neutron) :
    ∀ᶠ E in 𝓝 E₀, ∀ a, c.radii.penetrability E = .ok a → 0 ≤ a := by
  obtain ⟨record, -, row, -, pairRow, hic, -, -, h4, h5⟩ := hc.row
  rw [ht] at h4
  obtain ⟨-, -, -, hr⟩ := h5 (emits_of_type h4)
  refine Eventually.of_forall fun E a ha => ?_
  rw [(hic.radii E).1] at ha
  exact (Except.ok.inj ha) ▸ hr.le

/-- The functions of the channels exist at all energies. -/
theorem Facts.values {c : Channel} (hc : Facts p pairs pair c) : ∃ P S w phi,
    c.penetrability K lib E₀ = .ok P ∧ c.shiftFactor K lib E₀ = .ok S ∧ c.coulombPhaseShift K E₀ = .ok w ∧
      c.phaseShift K lib E₀ = .ok phi ∧ 0 ≤ P := by
  obtain ⟨record, -, row, -, pairRow, hic, -, -, h4, h5⟩ := hc.row
  have heta : c.eta K E₀ = .ok 0 := if_neg hc.neutral
  obtain ⟨ha, hb, hd⟩ := hic.radii E₀
  simp only [Channel.penetrability, Channel.shiftFactor, Channel.phaseShift,
    Channel.coulombPhaseShift, heta, ha, hb, hd, Bind.bind, Except.bind]
  cases ht : c.type with
  | charged => exact absurd ht hc.neutral
  | photon => exact ⟨_, _, _, _, rfl, rfl, rfl, rfl, zero_le_one⟩
  | fission => exact ⟨_, _, _, _, rfl, rfl, rfl, rfl, zero_le_one⟩
  | neutron =>
    rw [ht] at h4
    obtain ⟨-, -, hl, hr⟩ := h5 (emits_of_type h4)
    rw [← hic.l] at hl
    rw [calculatePenetrability_eq lib hl, calculateShiftFactor_eq lib hl, calculatePhaseShift_eq lib hl]
    refine ⟨_, _, _, _, rfl, rfl, rfl, rfl, ?_⟩
    have hρ : 0 ≤ c.waveNumber K E₀ * row.trueRadius := mul_nonneg (Verif.waveNumber_nonneg K _ _) hr.le
    generalize c.waveNumber K E₀ * row.trueRadius = ρ at hρ
    generalize c.numbers.l = l at hl
    interval_cases l <;> simp only [hsP] <;> positivity

/-- The channels at the energy zero, if elastic scattering has no threshold. -/
theorem facts_slow
    (h : PhysicalRMatrix reactions neutronMass elementaryCharge incident target p pairs pair)
    (hel : ∀ row ∈ p.pairs, row.mt = 2 → row.q = 0) {c : Channel} (hc : Facts p pairs pair c) :
    SlowChannel c := by
  obtain ⟨record, -, row, -, pairRow, hic, h2, h3, h4, h5⟩ := hc.row
  refine ⟨hc.neutral, fun ht => ?_, constant_radius fun E => (hic.radii E).1, hc.nonneg,
    constant_radius fun E => (hic.radii E).2.1, constant_radius fun E => (hic.radii E).2.2, hc.massRatio,
    fun hinc => ?_⟩
  · rw [ht] at h4
    rw [hic.l]
    exact (h5 (emits_of_type h4)).2.2.1
  · obtain ⟨j, r, e1, e2, e3⟩ := h.elastic
    have hid : c.pair.id = pair.id := by
      rw [← hc.incident]
      exact beq_iff_eq.mp hinc
    have := pair_row h hic.pair e3 hid
    rw [this, e1] at h2
    obtain rfl := Option.some.inj h2
    obtain ⟨k1, k2, -⟩ := h5 (by rw [e2]; unfold Emits; decide)
    exact ⟨k1, by rw [h3]; exact hel _ (List.mem_of_getElem? e1) e2, k2⟩

theorem facts_settled
    (hb : ∀ record ∈ p.spinGroups, ∀ row ∈ record.channels, ∀ pairRow,
      p.pairs[row.pairNumber - 1]? = some pairRow → pair.massRatio * E₀ + pairRow.q = 0 → Emits pairRow.mt →
        row.boundary = -(row.l : ℝ))
    {c : Channel} (hc : Facts p pairs pair c) (ht : c.type = .neutron) : Settled c E₀ := by
  obtain ⟨record, hrec, row, hrow, pairRow, hic, h2, h3, h4, h5⟩ := hc.row
  rw [ht] at h4
  have he := emits_of_type h4
  obtain ⟨-, k1, -, k2⟩ := h5 he
  by_cases hq : c.incident.massRatio * E₀ + c.q = 0
  · refine .inr (.inl ⟨hq, ?_⟩)
    rw [hic.boundary, hic.l]
    refine hb record hrec row hrow pairRow h2 ?_ he
    rw [← h3, ← hc.incident]
    exact hq
  · exact .inr (.inr ⟨hq, k1, _, k2, (hic.radii E₀).1⟩)

/-- Elastic scattering leads to no other channels than the incident ones. -/
theorem facts_scatters {channels : List Channel} (hc : ∀ c ∈ channels, Facts p pairs pair c) :
    Scatters channels (.elastic pair.id) := by
  refine ⟨fun c hcm hid => ?_, ?_⟩
  · have h1 := hc c hcm
    rw [h1.reaction, makeReactionID] at hid
    split at hid
    · rename_i e
      refine beq_iff_eq.mpr ?_
      rw [h1.incident]
      exact e.symm
    · cases hid
  · unfold captureID
    cases channels.head? <;> simp

end PhysicalRMatrix

/-- The system of a range. -/
theorem limited_option
    (hR : fromENDF K lib tables reactions initialBreitWigner initial neutronMass elementaryCharge incident
      target range = .ok R)
    (hp : range.parameters = .rmatrixLimited p) :
    ∃ option s, R.system = variantOf option s ∧
      makeRMatrixCompoundSystem K lib initial reactions neutronMass elementaryCharge incident target p
        = .ok s ∧ (option = .constant → UsesBoundary p) := by
  obtain ⟨-, -, hsup, nro, -, k4⟩ := C47_dispatch hR
  rw [hp] at k4
  cases hs : R.system with
  | shiftFactor s =>
    rw [hs] at k4
    exact ⟨.shiftFactor, s, rfl, k4, fun h => by cases h⟩
  | constant s =>
    rw [hs] at k4 hsup
    refine ⟨.constant, s, rfl, k4, fun _ => ?_⟩
    generalize hf : formalismOf (.constant s) = f at hsup
    cases hsup with
    | constant _ _ b3 _ b5 b6 =>
      rw [hp] at b3
      cases b3
      exact ⟨_, by rw [b5]; rfl, b6⟩
    | _ => cases hf
  | singleLevel s => rw [hs] at k4; exact k4.elim
  | multiLevel s => rw [hs] at k4; exact k4.elim
  | unresolved s => rw [hs] at k4; exact k4.elim

/-- Evaluation at energies where channels open, except elastic ones: the channels have the boundary conditions of
the threshold, or all resonances have a capture width. -/
theorem C70_thresholds
    (hR : fromENDF K lib tables reactions initialBreitWigner initial neutronMass elementaryCharge incident
      target range = .ok R)
    (hp : range.parameters = .rmatrixLimited p)
    (h : PhysicalRMatrix reactions neutronMass elementaryCharge incident target p pairs pair)
    (hel : ∀ row ∈ p.pairs, row.mt = 2 → pair.massRatio * E₀ + row.q ≠ 0)
    (hb : SettledThresholds p pair.massRatio E₀ ∨ AllCapture p)
    (hpole : ∀ record ∈ p.spinGroups, ∀ v ∈ record.resonances, v.1 = E₀ →
      ∃ (i : ℕ) (row : ChannelRow) (width : ℝ), record.channels[i]? = some row ∧ Captures p row ∧
        v.2[i]? = some width ∧ width ≠ 0) :
    ∃ v, R.call K lib E₀ = .ok v := by
  obtain ⟨option, s, hs, hmade, huse⟩ := limited_option hR hp
  have hev : ∃ v, CompoundSystem.evaluate option K lib E₀ s (fun _ => none) = .ok v := by
    refine evaluate_system_exists (fun st hst => ?_) _
    obtain ⟨hbuilt, hw, -, hr⟩ :=
      AdmissibleRMatrix.system_states (PhysicalRMatrix.admissible h) hmade hst
    have hfacts := fun c (hc : c ∈ st.group.channels) => PhysicalRMatrix.facts h hmade hst hc
    have hv := fun i : Fin st.group.channels.length =>
      (hfacts st.group.channels[i] (List.getElem_mem _)).values (K := K) (lib := lib) (E₀ := E₀)
    choose P S w phi hv using hv
    have hnn := fun i => (hv i).2.2.2.2
    have hdet : (Spec.levelDenominator option st.group.channels st.group.table.resonances E₀ P S).det ≠ 0 := by
     rcases hb with hb | hb
     swap
     · refine capture_det hnn fun v hv => ?_
       obtain ⟨record, hrec, u, hu, -, k⟩ := hr v hv
       exact k (hb record hrec u hu)
     exact settled_det (option := option) (rs := st.group.table.resonances) (fun c hc =>
        ⟨(hfacts c hc).neutral, fun ht => by
          obtain ⟨record, -, row, -, pairRow, hic, -, -, h4, h5⟩ := (hfacts c hc).row
          rw [ht] at h4
          rw [hic.l]
          exact (h5 (AdmissibleRMatrix.emits_of_type h4)).2.2.1⟩) (fun c hc => by
        obtain ⟨record, -, row, -, pairRow, hic, -⟩ := (hfacts c hc).row
        exact ⟨⟨_, (hic.radii E₀).1⟩, _, (hic.radii E₀).2.1⟩) (fun i => (hv i).1) (fun i => (hv i).2.1) hnn
      fun ho c hc ht => PhysicalRMatrix.facts_settled (hb (huse ho)) (hfacts c hc) ht
    refine evaluate_ok_of hbuilt ⟨fun i => (hv i).1, fun _ i => (hv i).2.1, fun i => (hv i).2.2.1,
      fun i => (hv i).2.2.2.1, hnn, hw, ?_, hdet, ?_⟩ _ _
    · rintro v hv ⟨he, h0⟩
      obtain ⟨record, hrec, u, hu, hue, k⟩ := hr v hv
      exact k (hpole record hrec u hu (hue.trans he)) h0
    · obtain ⟨c, hc, hinc⟩ := ((C24_accepted _ _).mp ⟨_, hbuilt⟩).hasIncident
      cases hf : st.group.channels.find? Channel.isIncident with
      | none =>
        have := List.find?_eq_none.mp hf c hc
        simp [Channel.isIncident, hinc] at this
      | some d =>
        have hd := hfacts d (List.mem_of_find?_eq_some hf)
        have hid : d.pair.id = pair.id := by
          rw [← hd.incident]
          have := List.find?_some hf
          exact beq_iff_eq.mp this
        obtain ⟨record, -, row, -, pairRow, hic, h2, h3, -, h5⟩ := hd.row
        obtain ⟨j, r, e1, e2, e3⟩ := h.elastic
        rw [PhysicalRMatrix.pair_row h hic.pair e3 hid, e1] at h2
        obtain rfl := Option.some.inj h2
        obtain ⟨-, k2, -⟩ := h5 (by rw [e2]; unfold Emits; decide)
        refine ⟨d, rfl, (Verif.waveNumber_pos k2 ?_).ne'⟩
        rw [hd.incident, h3]
        exact hel _ (List.mem_of_getElem? e1) e2
  obtain ⟨⟨m, s'⟩, hv⟩ := hev
  unfold Reconstructor.call
  split
  · rw [hs]
    refine ⟨(.ofCrossSections m, { R with system := variantOf option s' }), ?_⟩
    cases option <;>
    · simp only [variantOf, SystemVariant.evaluate, hv]
      rfl
  · exact ⟨_, rfl⟩

/-- C76 for R-matrix-limited ranges that begin at zero energy or below: elastic scattering has no threshold,
no resonance lies at the energy zero, and the channels that open there have the boundary conditions of the
threshold, if boundary conditions are used. -/
theorem C76_rmatrix_limited
    (hR : fromENDF K lib tables reactions initialBreitWigner initial neutronMass elementaryCharge incident
      target range = .ok R)
    (hp : range.parameters = .rmatrixLimited p)
    (h : PhysicalRMatrix reactions neutronMass elementaryCharge incident target p pairs pair)
    (hE : range.lower ≤ 0 ∧ 0 < range.upper) (hel : ∀ row ∈ p.pairs, row.mt = 2 → row.q = 0)
    (hres : ∀ record ∈ p.spinGroups, ∀ v ∈ record.resonances, v.1 ≠ 0)
    (hb : SettledThresholds p pair.massRatio 0) :
    ∃ option s, ∃ limits : List ((ReactionID → ℝ) × (ReactionID → ℝ)), R.system = variantOf option s ∧
      List.Forall₂ (fun (st : GroupState) l =>
        SlowGroup option K lib st.group.channels st.group.table.resonances l.1 l.2) s limits ∧
      ∀ ε > 0, ∃ δ > 0, ∀ E, 0 < E → E < δ → ∃ m R', R.call K lib E = .ok (m, R') ∧
        (∀ id, |Real.sqrt E * (m (.inl id)).getD 0 - (limits.map fun l => l.1 id).sum| < ε) ∧
        |(m (.inl (.elastic pair.id))).getD 0 - (limits.map fun l => l.2 (.elastic pair.id)).sum| < ε := by
  obtain ⟨k1, k2, -⟩ := C47_dispatch hR
  obtain ⟨option, s, hs, hmade, huse⟩ := limited_option hR hp
  have hst := fun st (hst : st ∈ s) =>
    AdmissibleRMatrix.system_states (PhysicalRMatrix.admissible h) hmade hst
  have hfacts := fun st (hst : st ∈ s) c (hc : c ∈ st.group.channels) =>
    PhysicalRMatrix.facts h hmade hst hc
  have hex : ∀ st ∈ s, ∃ l : (ReactionID → ℝ) × (ReactionID → ℝ),
      SlowGroup option K lib st.group.channels st.group.table.resonances l.1 l.2 := by
    intro st hmem
    obtain ⟨-, hw, -, hrs⟩ := hst st hmem
    refine slowGroup_settled (fun c hc => PhysicalRMatrix.facts_slow h hel (hfacts st hmem c hc))
      (fun ho c hc => PhysicalRMatrix.facts_settled (hb (huse ho)) (hfacts st hmem c hc)) hw ?_
    rintro v hv ⟨h1, -⟩
    obtain ⟨record, hrec, u, hu, e, -⟩ := hrs v hv
    exact hres record hrec u hu (e.trans h1)
  obtain ⟨limits, hlim⟩ := forall₂_exists hex
  refine ⟨option, s, limits, hs, hlim, fun ε hε => ?_⟩
  obtain ⟨δ, hδ, hall⟩ := C76_reconstructor hs (fun st hmem => (hst st hmem).1) hlim
    (by rw [k1, k2]; exact hE) hε
  refine ⟨δ, hδ, fun E h0 h1 => ?_⟩
  obtain ⟨m, R', h2, h3⟩ := hall E h0 h1
  exact ⟨m, R', h2, fun id => (h3 id).1, (h3 _).2 fun st hmem =>
    PhysicalRMatrix.facts_scatters (hfacts st hmem)⟩

/-! ## Thresholds -/

/-- Where a compound system can be evaluated, each of its spin groups can. -/
theorem groups_evaluate {option : BoundaryOption} {E : ℝ} {m m' : CrossSectionMap} {s' : CompoundSystem}
    (hg : ∀ st ∈ s, st.group.Built)
    (h : CompoundSystem.evaluate option K lib E s m = .ok (m', s')) :
    ∀ st ∈ s, ∃ r, st.group.evaluate option K lib E st.cache (fun _ => none) = .ok r := by
  induction s generalizing m m' s' with
  | nil => simp
  | cons st rest ih =>
    obtain ⟨m₁, c₁, rest', h1, h2, -⟩ := evaluate_cons_ok.mp h
    intro st' hst
    rcases List.mem_cons.mp hst with rfl | hst
    · have hb := hg _ List.mem_cons_self
      obtain ⟨P, S, w, phi, hev, -⟩ := evaluate_ok hb h1
      exact evaluate_ok_of hb hev _ _
    · exact ih (fun st hst => hg st (List.mem_cons_of_mem _ hst)) h2 st' hst

/-- At the threshold itself the cross section of a compound system is zero. -/
theorem system_at_threshold {option : BoundaryOption} {id : ReactionID} {l : ℕ} {m m' : CrossSectionMap}
    {s' : CompoundSystem} (hg : ∀ st ∈ s, st.group.Built)
    (hs : ∀ st ∈ s, ∀ c ∈ st.group.channels, SmoothChannel c E₀)
    (hid : ∀ st ∈ s, OpensAt st.group.channels E₀ id l)
    (h : CompoundSystem.evaluate option K lib E₀ s m = .ok (m', s')) : (m' id).getD 0 = (m id).getD 0 := by
  induction s generalizing m m' s' with
  | nil =>
    cases h
    rfl
  | cons st rest ih =>
    obtain ⟨m₁, c₁, rest', h1, h2, -⟩ := evaluate_cons_ok.mp h
    rw [ih (fun st hst => hg st (List.mem_cons_of_mem _ hst)) (fun st hst => hs st (List.mem_cons_of_mem _ hst))
      (fun st hst => hid st (List.mem_cons_of_mem _ hst)) h2]
    exact group_at_threshold (hg _ List.mem_cons_self) (hs _ List.mem_cons_self) (hid _ List.mem_cons_self) h1

namespace PhysicalRMatrix

open AdmissibleRMatrix (emits_of_type)

theorem Facts.smooth {c : Channel} (hc : Facts p pairs pair c) : SmoothChannel c E₀ := by
  obtain ⟨record, -, row, -, pairRow, hic, -⟩ := hc.row
  exact ⟨hc.neutral, constant_radius fun E => (hic.radii E).1, hc.nonneg,
    constant_radius fun E => (hic.radii E).2.1, constant_radius fun E => (hic.radii E).2.2, hc.massRatio⟩

/-- The identifiers of pairs that are not those of fission contain a comma. -/
theorem name_ne_capture {mt : ℤ} {a b : Str} {id : PairID} (h : IsName reactions incident target mt a b id) :
    id ≠ "capture".toList := by
  unfold IsName at h
  split at h
  · rw [h.2.2]
    exact (pairID_ne_of_not_mem (by decide)).symm
  split at h
  · rw [h.2.2]
    decide
  · rw [h.2]
    exact (pairID_ne_of_not_mem (by decide)).symm

theorem facts_opens
    (h : PhysicalRMatrix reactions neutronMass elementaryCharge incident target p pairs pair)
    {i L : ℕ} {row : ParticlePairRow} {other : ParticlePair} (hi : p.pairs[i]? = some row)
    (hi' : pairs[i]? = some other) (he : Emits row.mt)
    (hthr : pair.massRatio * E₀ + row.q = 0)
    (hL : ∀ record ∈ p.spinGroups, ∀ r ∈ record.channels, r.pairNumber = i + 1 → L ≤ r.l)
    {channels : List Channel} (hc : ∀ c ∈ channels, Facts p pairs pair c) :
    OpensAt channels E₀ (.transition pair.id other.id) L := by
  have key : ∀ c ∈ channels, c.reaction = .transition pair.id other.id →
      c.pair.id ≠ pair.id ∧ c.type = .neutron ∧ 0 < c.pair.reducedMass ∧ AtThreshold c E₀ ∧
      L ≤ c.numbers.l := by
    intro c hcm hid
    have hf := hc c hcm
    rw [hf.reaction, makeReactionID] at hid
    split at hid
    · cases hid
    rename_i hn
    injection hid with _ hid
    obtain ⟨record, hrec, r, hr, pairRow, hic, h2, h3, h4, h5⟩ := hf.row
    have hij := pair_row h hic.pair hi' hid
    rw [hij, hi] at h2
    obtain rfl := Option.some.inj h2
    obtain ⟨k1, k2, -⟩ := h5 he
    refine ⟨fun e => hn e.symm, k1, k2, ?_, ?_⟩
    · unfold AtThreshold
      rw [hf.incident, h3]
      exact hthr
    · rw [hic.l]
      refine hL record hrec r hr ?_
      have := hic.number
      omega
  refine ⟨?_, fun c h1 h2 => (key c h1 h2).2.1, fun c h1 h2 h3 => ?_, fun c h1 h2 => (key c h1 h2).2.2.2.1,
    fun c h1 h2 => (key c h1 h2).2.2.1, fun c h1 h2 => (key c h1 h2).2.2.2.2⟩
  · unfold captureID
    cases hh : channels.head? with
    | none => simp
    | some c =>
      simp only [Option.map_some, ne_eq, Option.some.injEq, ReactionID.transition.injEq, not_and]
      intro _ e
      exact name_ne_capture (forall₂_index h.described hi hi').name e.symm
  · refine (key c h1 h2).1 ?_
    rw [beq_iff_eq.mp h3, (hc c h1).incident]

end PhysicalRMatrix

/-- C81 for R-matrix-limited ranges: the cross section of a reaction that emits a neutral particle vanishes at
its threshold and increases from there as the power `l + 1/2` of the energy above the threshold, if `l` is
not more than the angular momenta of its channels. The range must have cross sections at the threshold. -/
theorem C81_rmatrix_limited
    (hR : fromENDF K lib tables reactions initialBreitWigner initial neutronMass elementaryCharge incident
      target range = .ok R)
    (hp : range.parameters = .rmatrixLimited p)
    (h : PhysicalRMatrix reactions neutronMass elementaryCharge incident target p pairs pair)
    {i L : ℕ} {row : ParticlePairRow} {other : ParticlePair} (hi : p.pairs[i]? = some row)
    (hi' : pairs[i]? = some other) (he : Emits row.mt)
    (hthr : pair.massRatio * E₀ + row.q = 0)
    (hL : ∀ record ∈ p.spinGroups, ∀ r ∈ record.channels, r.pairNumber = i + 1 → L ≤ r.l)
    (hE : range.lower ≤ E₀ ∧ E₀ < range.upper) (hm : R.call K lib E₀ = .ok (m, R')) :
    (m (.inl (.transition pair.id other.id))).getD 0 = 0 ∧
    ∃ option s, ∃ limits : List ℝ, R.system = variantOf option s ∧
      List.Forall₂ (fun (st : GroupState) v => 0 ≤ v ∧ ThresholdLimit option K lib st.group.channels
        st.group.table.resonances E₀ (.transition pair.id other.id) L v) s limits ∧
      ∀ ε > 0, ∃ δ > 0, ∀ E, E₀ < E → E < E₀ + δ → ∃ m R', R.call K lib E = .ok (m, R') ∧
        |(m (.inl (.transition pair.id other.id))).getD 0 / Real.sqrt (E - E₀) ^ (2 * L + 1)
          - limits.sum| < ε := by
  obtain ⟨k1, k2, -⟩ := C47_dispatch hR
  obtain ⟨option, s, hs, hmade, -⟩ := limited_option hR hp
  have hbuilt := fun st (hst : st ∈ s) => (PhysicalRMatrix.system_channels h hmade st hst).1
  have hfacts := fun st (hst : st ∈ s) c (hc : c ∈ st.group.channels) =>
    PhysicalRMatrix.facts h hmade hst hc
  have hsmooth := fun st (hst : st ∈ s) c (hc : c ∈ st.group.channels) =>
    (hfacts st hst c hc).smooth (E₀ := E₀)
  have hopens := fun st (hst : st ∈ s) =>
    PhysicalRMatrix.facts_opens h hi hi' he hthr hL (hfacts st hst)
  have hcall : ∃ m₁ s₂, CompoundSystem.evaluate option K lib E₀ s (fun _ => none) = .ok (m₁, s₂) ∧
      m = .ofCrossSections m₁ := by
    unfold Reconstructor.call at hm
    rw [if_pos (by rw [k1, k2]; exact ⟨hE.1, hE.2.le⟩), hs] at hm
    cases option <;> unfold variantOf SystemVariant.evaluate at hm <;>
    · simp only [Bind.bind, Except.bind] at hm
      cases h1 : CompoundSystem.evaluate _ K lib E₀ s fun _ => none with
      | error e => simp [h1] at hm
      | ok v =>
        obtain ⟨m₁, s₁⟩ := v
        simp only [h1, pure, Except.pure, Except.ok.injEq, Prod.mk.injEq] at hm
        exact ⟨_, _, rfl, hm.1.symm⟩
  obtain ⟨m₁, s₂, hev, rfl⟩ := hcall
  refine ⟨system_at_threshold hbuilt hsmooth hopens hev, ?_⟩
  have hex : ∀ st ∈ s, ∃ v, 0 ≤ v ∧ ThresholdLimit option K lib st.group.channels
      st.group.table.resonances E₀ (.transition pair.id other.id) L v := by
    intro st hst
    obtain ⟨⟨m₂, c₂⟩, h1⟩ := groups_evaluate hbuilt hev st hst
    exact C81_limit_exists (hbuilt st hst) (hsmooth st hst) (hopens st hst)
      (fun c hc => (hfacts st hst c hc).factor) h1
  obtain ⟨limits, hlim⟩ := forall₂_exists hex
  refine ⟨option, s, limits, hs, hlim, fun ε hε => ?_⟩
  exact C81_reconstructor hs hbuilt (hlim.imp fun _ _ h => h.2) (by rw [k1, k2]; exact hE) hε

namespace Example

/-- What the reaction library knows: capture and inelastic scattering. -/
def levelLibrary : ReactionLibrary := fun _ _ mt =>
  if mt = 51 then .ok ("n".toList, "Cl35_e1".toList) else .ok ("g".toList, "Cl36".toList)

/-- Photon and Cl36, neutron and Cl35, neutron and excited Cl35 with a threshold at 36. -/
noncomputable def levelRows (flag : ℤ) : List ParticlePairRow :=
  [⟨0, 36, 0, 17, 1, 2, 1, 1, 8000000, flag, 102⟩, ⟨1, 35, 0, 17, 1 / 2, 3 / 2, 1, 1, 0, flag, 2⟩,
    ⟨1, 35, 0, 17, 1 / 2, 3 / 2, 1, 1, -35, flag, 51⟩]

noncomputable def excitedPair : ParticlePair :=
  ⟨⟨"n".toList, 1, 0, 1 / 2, 1⟩, ⟨"Cl35_e1".toList, 35, 17, 3 / 2, 1⟩, "n,Cl35_e1".toList, 35 / 36, 35 / 36⟩

/-- An s-wave resonance with J = 2 at the energy 10. -/
noncomputable def levelRecord : SpinGroupRecord :=
  ⟨2, 0, [⟨1, 0, 2, 0, 1 / 2, 1 / 2⟩, ⟨2, 0, 2, 0, 1 / 2, 1 / 2⟩, ⟨3, 0, 2, 0, 1 / 2, 1 / 2⟩], 1,
    [(10, [1, 1, 1])]⟩

noncomputable def levelEvaluation (flag : ℤ) : RMatrixLimited := ⟨3, 1, levelRows flag, [levelRecord]⟩

/-- Its range. -/
noncomputable def levelRange (flag : ℤ) : Range :=
  ⟨0, 100, 1, 7, 0, none, .rmatrixLimited (levelEvaluation flag)⟩

theorem level_pairs (flag : ℤ) : makeParticlePairs levelLibrary 1 1 "n".toList "Cl35".toList (levelRows flag)
    = .ok [photonPair, neutronPair, excitedPair] := by
  unfold makeParticlePairs
  rw [mapM_ok]
  refine .cons ?_ (.cons ?_ (.cons ?_ .nil))
  · norm_num [makeParticleIDs, makeParticle, makeParticlePair, parityOf, Bind.bind, Except.bind, pure,
      Except.pure, pairID, levelLibrary, photonPair]
    rfl
  · norm_num [makeParticleIDs, makeParticle, makeParticlePair, parityOf, Bind.bind, Except.bind, pure,
      Except.pure, pairID, levelLibrary, neutronPair]
    rfl
  · norm_num [makeParticleIDs, makeParticle, makeParticlePair, parityOf, Bind.bind, Except.bind, pure,
      Except.pure, pairID, levelLibrary, excitedPair]
    rfl

theorem levelRecord_ordered (flag : ℤ) :
    Ordered [photonPair, neutronPair, excitedPair] (levelEvaluation flag) levelRecord where
  count := by simp [levelRecord, levelEvaluation, levelRows]
  number := by
    intro row hrow
    simp only [levelRecord, List.mem_cons, List.not_mem_nil, or_false] at hrow
    rcases hrow with rfl | rfl | rfl <;> simp [levelEvaluation, levelRows]
  type := by
    intro i row hi pair here there h1 h2 h3
    have : row.pairNumber = i + 1 := by
      match i with
      | 0 => cases hi; rfl
      | 1 => cases hi; rfl
      | 2 => cases hi; rfl
      | i + 3 => simp [levelRecord] at hi
    rw [this] at h3
    obtain rfl : here = there := Option.some.inj (h1.symm.trans h3)
    exact ⟨_, isType_channelType _ _, isType_channelType _ _⟩
  capture := by
    have h : ∀ (i : ℕ) row, levelRecord.channels[i]? = some row → Captures (levelEvaluation flag) row →
        i = 0 := by
      intro i row hi hc
      match i with
      | 0 => rfl
      | 1 =>
        cases hi
        obtain ⟨pr, h1, h2⟩ := hc
        cases h1
        norm_num at h2
      | 2 =>
        cases hi
        obtain ⟨pr, h1, h2⟩ := hc
        cases h1
        norm_num at h2
      | i + 3 => simp [levelRecord] at hi
    intro i j x y hi hj hx hy
    rw [h i x hi hx, h j y hj hy]
  energies := by simp [levelRecord]
  resonances := by simp [levelRecord]

theorem level_physical (flag : ℤ) : PhysicalRMatrix levelLibrary 1 1 "n".toList "Cl35".toList
    (levelEvaluation flag) [photonPair, neutronPair, excitedPair] neutronPair where
  formalism := rfl
  described := isPairs_of (p := levelEvaluation flag) (level_pairs flag)
  distinct := by simp [photonPair, neutronPair, excitedPair]
  neutral := by
    intro row hrow
    simp only [levelEvaluation, levelRows, List.mem_cons, List.not_mem_nil, or_false] at hrow
    rcases hrow with rfl | rfl | rfl <;> rfl
  masses := by
    intro row hrow he
    simp only [levelEvaluation, levelRows, List.mem_cons, List.not_mem_nil, or_false] at hrow
    rcases hrow with rfl | rfl | rfl
    · simp [Emits] at he
    · norm_num
    · norm_num
  elastic := ⟨1, _, rfl, rfl, rfl⟩
  capture := ⟨_, List.mem_cons_self, rfl⟩
  some := by simp [levelEvaluation]
  ordered := by
    intro record hr
    obtain rfl := List.mem_singleton.mp hr
    exact levelRecord_ordered flag
  groups := List.pairwise_singleton _ _
  spins := by
    intro record hr
    obtain rfl := List.mem_singleton.mp hr
    refine ⟨⟨4, by norm_num [levelRecord]⟩, fun row hrow => ⟨4, ?_⟩⟩
    simp only [levelRecord, List.mem_cons, List.not_mem_nil, or_false] at hrow
    rcases hrow with rfl | rfl | rfl <;> norm_num
  entrance := by
    intro record hr
    obtain rfl := List.mem_singleton.mp hr
    exact ⟨_, List.mem_cons_of_mem _ List.mem_cons_self, _, rfl, rfl⟩
  channels := by
    intro record hr
    obtain rfl := List.mem_singleton.mp hr
    simp [levelRecord]
  widths := by
    intro record hr v hv
    obtain rfl := List.mem_singleton.mp hr
    obtain rfl := List.mem_singleton.mp hv
    simp [levelRecord]
  particles := by
    intro record hr row hrow pr h1 he
    obtain rfl := List.mem_singleton.mp hr
    simp only [levelRecord, List.mem_cons, List.not_mem_nil, or_false] at hrow
    rcases hrow with rfl | rfl | rfl <;> norm_num
  thresholds := by
    intro h
    simp [levelEvaluation] at h

theorem level_settled (flag : ℤ) (massRatio E : ℝ) : SettledThresholds (levelEvaluation flag) massRatio E := by
  intro _ record hr row hrow _ _ _ _
  obtain rfl := List.mem_singleton.mp hr
  simp only [levelRecord, List.mem_cons, List.not_mem_nil, or_false] at hrow
  rcases hrow with rfl | rfl | rfl <;> simp

/-- C76 and C81 apply to this range with both kinds of boundary conditions: the inelastic cross section has
the threshold 36. -/
example (K : Constants) (lib : CoulombLibrary) (tables : InterpolationLibrary)
    (initialBreitWigner : Channel → Verif.BreitWigner.Cache)
    (initial : (g : SpinGroup) → MatrixCache g.channels.length) (flag : ℤ) :
    ∃ R, fromENDF K lib tables levelLibrary initialBreitWigner initial 1 1 "n".toList "Cl35".toList
        (levelRange flag) = .ok R ∧
      (∃ v : ReactionID → ℝ, ∃ u : ℝ, ∀ ε > 0, ∃ δ > 0, ∀ E, 0 < E → E < δ → ∃ m R',
        R.call K lib E = .ok (m, R') ∧ (∀ id, |Real.sqrt E * (m (.inl id)).getD 0 - v id| < ε) ∧
        |(m (.inl (.elastic "n,Cl35".toList))).getD 0 - u| < ε) ∧
      ∃ v : ℝ, 0 ≤ v ∧ ∀ ε > 0, ∃ δ > 0, ∀ E, 36 < E → E < 36 + δ → ∃ m R',
        R.call K lib E = .ok (m, R') ∧
        |(m (.inl (.transition "n,Cl35".toList "n,Cl35_e1".toList))).getD 0 / Real.sqrt (E - 36) - v| < ε := by
  have hp := level_physical flag
  obtain ⟨R, hR, -⟩ := C70_accepted (K := K) (lib := lib) (tables := tables)
    (initialBreitWigner := initialBreitWigner) (initial := initial) (range := levelRange flag) ⟨rfl, rfl⟩ rfl
    rfl hp
  refine ⟨R, hR, ?_, ?_⟩
  · obtain ⟨option, s, limits, -, -, h⟩ := C76_rmatrix_limited hR rfl hp (by norm_num [levelRange]) (by
        intro row hrow hmt
        simp only [levelEvaluation, levelRows, List.mem_cons, List.not_mem_nil, or_false] at hrow
        rcases hrow with rfl | rfl | rfl
        · norm_num at hmt
        · rfl
        · norm_num at hmt) (by
        intro record hr v hv
        obtain rfl := List.mem_singleton.mp hr
        obtain rfl := List.mem_singleton.mp hv
        norm_num) (level_settled flag _ _)
    exact ⟨_, _, h⟩
  · obtain ⟨⟨m, R'⟩, hm⟩ := C70_thresholds (E₀ := 36) hR rfl hp (by
        intro row hrow hmt
        simp only [levelEvaluation, levelRows, List.mem_cons, List.not_mem_nil, or_false] at hrow
        rcases hrow with rfl | rfl | rfl
        · norm_num at hmt
        · norm_num [neutronPair]
        · norm_num at hmt) (.inl (level_settled flag _ _)) (by
        intro record hr v hv h0
        obtain rfl := List.mem_singleton.mp hr
        obtain rfl := List.mem_singleton.mp hv
        norm_num at h0)
    obtain ⟨-, option, s, limits, -, hlim, h⟩ := C81_rmatrix_limited (i := 2) (L := 0) hR rfl hp rfl rfl
      (by simp [Emits]) (by norm_num [neutronPair]) (fun _ _ _ _ _ => Nat.zero_le _)
      (by norm_num [levelRange]) hm
    refine ⟨limits.sum, List.sum_nonneg fun v hv => ?_, fun ε hε => ?_⟩
    · obtain ⟨st, -, h0, -⟩ := forall₂_mem_right hlim hv
      exact h0
    · obtain ⟨δ, hδ, h1⟩ := h ε hε
      refine ⟨δ, hδ, fun E h2 h3 => ?_⟩
      obtain ⟨m, R', h4, h5⟩ := h1 E h2 h3
      refine ⟨m, R', h4, ?_⟩
      rw [mul_zero, zero_add, pow_one] at h5
      exact h5

end Example

end Endf

end Verif
