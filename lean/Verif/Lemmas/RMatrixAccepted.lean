import Verif.Lemmas.RMatrixSystem

/-!
# Acceptance of R-matrix-limited evaluations
-/

namespace Verif.Endf

open Spec Complex

variable {K : Constants} {lib : CoulombLibrary} {reactions : ReactionLibrary}
  {neutronMass elementaryCharge E : ℝ} {incident target : Str} {p : RMatrixLimited}
  {pairs : List ParticlePair} {pair : ParticlePair} {q : ℝ} {record : SpinGroupRecord}
  {initial : (g : SpinGroup) → MatrixCache g.channels.length} {option : BoundaryOption}
  {s s' : CompoundSystem} {m : CrossSectionMap}

/-! ## Pairs -/

theorem pair_made {row : ParticlePairRow}
    (h : IsPair reactions neutronMass elementaryCharge incident target row pair) :
    (do
      let (a, b, id) ← makeParticleIDs reactions incident target row.mt
      let particle ← makeParticle a (row.massA * neutronMass) (row.chargeA * elementaryCharge) |row.spinA|
        (parityOf row.spinA row.parityA)
      let residual ← makeParticle b (row.massB * neutronMass) (row.chargeB * elementaryCharge) |row.spinB|
        (parityOf row.spinB row.parityB)
      makeParticlePair particle residual id) = .ok pair := by
  have hids : makeParticleIDs reactions incident target row.mt
      = .ok (pair.particle.id, pair.residual.id, pair.id) := by
    have hn := h.name
    unfold IsName at hn
    unfold makeParticleIDs
    by_cases h2 : row.mt = 2
    · rw [if_pos h2] at hn ⊢
      rw [hn.1, hn.2.1, hn.2.2]
      rfl
    rw [if_neg h2] at hn ⊢
    by_cases h18 : row.mt = 18
    · rw [if_pos h18] at hn ⊢
      rw [hn.1, hn.2.1, hn.2.2]
    rw [if_neg h18] at hn ⊢
    rw [hn.1, hn.2]
    rfl
  have hmade : ∃ pair', (do
      let (a, b, id) ← makeParticleIDs reactions incident target row.mt
      let particle ← makeParticle a (row.massA * neutronMass) (row.chargeA * elementaryCharge) |row.spinA|
        (parityOf row.spinA row.parityA)
      let residual ← makeParticle b (row.massB * neutronMass) (row.chargeB * elementaryCharge) |row.spinB|
        (parityOf row.spinB row.parityB)
      makeParticlePair particle residual id) = .ok pair' := by
    obtain ⟨n1, n2, n3, n4⟩ := h.notNegative
    have ht := h.total
    rw [h.masses.1] at n1 ht
    rw [h.masses.2] at n2 ht
    rw [h.charges.1] at n3
    rw [h.charges.2] at n4
    rw [hids]
    simp only [bind, Except.bind]
    unfold makeParticle
    rw [if_neg (not_lt.mpr n1), if_neg (not_lt.mpr n3), if_neg (not_lt.mpr n2), if_neg (not_lt.mpr n4)]
    unfold makeParticlePair
    dsimp only
    rw [if_neg ht]
    exact ⟨_, rfl⟩
  obtain ⟨pair', hp'⟩ := hmade
  rw [hp', isPair_unique (isPair_of hp') h]

theorem pairs_made (h : List.Forall₂ (IsPair reactions neutronMass elementaryCharge incident target) p.pairs
    pairs) : makeParticlePairs reactions neutronMass elementaryCharge incident target p.pairs = .ok pairs := by
  unfold makeParticlePairs
  rw [mapM_ok]
  exact h.imp fun _ _ h => pair_made h

/-! ## Channels -/

/-- A channel whose functions are defined at an energy. -/
structure WorksAt (K : Constants) (lib : CoulombLibrary) (E : ℝ) (c : Channel) : Prop where
  values : (∃ p, 0 < p ∧ c.penetrability K lib E = .ok p) ∧ (∃ s, c.shiftFactor K lib E = .ok s) ∧
    (∃ w, c.coulombPhaseShift K E = .ok w) ∧ ∃ phi, c.phaseShift K lib E = .ok phi
  neutron : c.type = .neutron → 0 < c.pair.reducedMass ∧ c.incident.massRatio * E + c.q ≠ 0

theorem WorksAt.of_neutral {c : Channel} (hc : c.type ≠ .charged)
    (hr : ∃ a b d, c.radii.penetrability E = .ok a ∧ c.radii.shiftFactor E = .ok b ∧
      c.radii.phaseShift E = .ok d ∧ (c.type = .neutron → 0 < a))
    (hn : c.type = .neutron → c.numbers.l ≤ 4 ∧ 0 < c.pair.reducedMass ∧
      c.incident.massRatio * E + c.q ≠ 0) : WorksAt K lib E c := by
  refine ⟨?_, fun ht => (hn ht).2⟩
  obtain ⟨a, b, d, hra, hrb, hrd, ha⟩ := hr
  have heta : c.eta K E = .ok 0 := if_neg hc
  cases ht : c.type with
  | charged => exact absurd ht hc
  | photon =>
    simp only [Channel.penetrability, Channel.shiftFactor, Channel.phaseShift,
      Channel.coulombPhaseShift, heta, hra, hrb, hrd, bind, Except.bind, ht]
    exact ⟨⟨1, one_pos, rfl⟩, ⟨_, rfl⟩, ⟨_, rfl⟩, ⟨_, rfl⟩⟩
  | fission =>
    simp only [Channel.penetrability, Channel.shiftFactor, Channel.phaseShift,
      Channel.coulombPhaseShift, heta, hra, hrb, hrd, bind, Except.bind, ht]
    exact ⟨⟨1, one_pos, rfl⟩, ⟨_, rfl⟩, ⟨_, rfl⟩, ⟨_, rfl⟩⟩
  | neutron =>
    obtain ⟨h1, h2, h3⟩ := hn ht
    exact NeutralAt.values ⟨hc, fun _ => h1, fun _ => h2, h3, ⟨a, ha ht, hra⟩, ⟨b, hrb⟩, ⟨d, hrd⟩⟩

theorem WorksAt.of_charged {c : Channel} {a b η : ℝ} (hc : c.type = .charged)
    (hra : c.radii.penetrability E = .ok a) (hrs : c.radii.shiftFactor E = .ok a)
    (hrb : c.radii.phaseShift E = .ok b) (ha : 0 < a) (hm : 0 < c.pair.reducedMass)
    (hE : c.incident.massRatio * E + c.q ≠ 0)
    (hη : η = c.pair.particle.charge * c.pair.residual.charge * c.pair.reducedMass
      / (4 * Real.pi * K.epsilon0 * K.hbar ^ 2 * c.waveNumber K E))
    (hw : ∃ w, lib c.numbers.l (c.waveNumber K E * a) η = .ok w ∧ ¬ (w.F = 0 ∧ w.G = 0))
    (hw' : ∃ w, lib c.numbers.l (c.waveNumber K E * b) η = .ok w)
    (ht : ∀ n : ℕ, 1 ≤ n → n ≤ c.numbers.l → Real.tan (η / n) ≠ 0) : WorksAt K lib E c := by
  have hk := waveNumber_pos (K := K) hm hE
  have heta : c.eta K E = .ok η := by
    have e0 := K.epsilon0_pos
    have e1 := K.hbar_pos
    unfold Channel.eta
    rw [if_pos hc]
    unfold Channel.sommerfeldParameter
    dsimp only
    by_cases hz : c.pair.particle.charge * c.pair.residual.charge = 0
    · rw [if_pos hz, hη, hz, zero_mul, zero_div]
    · rw [if_neg hz, if_neg (not_or.mpr ⟨hm.ne', hk.ne'⟩), hη]
      refine congrArg _ ?_
      field_simp
  obtain ⟨w, h1, h2⟩ := hw
  obtain ⟨w', h3⟩ := hw'
  refine ⟨?_, fun h => by rw [hc] at h; cases h⟩
  simp only [Channel.penetrability, Channel.shiftFactor, Channel.phaseShift, Channel.coulombPhaseShift, heta,
    hra, hrs, hrb, bind, Except.bind, hc, calculatePenetrability, calculateShiftFactor, calculatePhaseShift,
    calculateCoulombPhaseShift, h1, h3]
  refine ⟨⟨c.waveNumber K E * a / (w.F * w.F + w.G * w.G), ?_, by rw [if_neg h2]; rfl⟩, ⟨_, rfl⟩, ?_, ⟨_, rfl⟩⟩
  · have : 0 < w.F * w.F + w.G * w.G := by
      rcases not_and_or.mp h2 with h | h
      · have := mul_self_pos.mpr h; nlinarith [mul_self_nonneg w.G]
      · have := mul_self_pos.mpr h; nlinarith [mul_self_nonneg w.F]
    positivity
  · rw [if_neg]
    · exact ⟨_, rfl⟩
    · rintro ⟨n, hn, h0⟩
      exact ht (n + 1) (by omega) (by have := List.mem_range.mp hn; omega) (by exact_mod_cast h0)

theorem channelWidths_of {i : ℕ} {resonances : List (ℝ × List ℝ)} (h : ∀ r ∈ resonances, i < r.2.length) :
    channelWidths i resonances = .ok (resonances.map fun r => (r.1, r.2.getD i 0)) := by
  have hex : ∃ values, channelWidths i resonances = .ok values := by
    unfold channelWidths
    refine mapM_exists.mpr fun r hr => ?_
    rw [List.getElem?_eq_getElem (h r hr)]
    exact ⟨_, rfl⟩
  obtain ⟨values, hv⟩ := hex
  rw [hv, (channelWidths_ok hv).2]

theorem channelDatum_exists {reduced : Bool} {eliminated : ℕ} {c : Channel} {i : ℕ}
    (hw : ∀ r ∈ record.resonances, i < r.2.length)
    (hc : reduced = false → ∀ r ∈ record.resonances, WorksAt K lib r.1 c) :
    ∃ d, channelDatum K lib reduced record eliminated c i = .ok d := by
  classical
  unfold channelDatum
  dsimp only
  by_cases h0 : record.numberResonances ≠ 0
  · rw [if_pos h0, channelWidths_of hw]
    simp only [bind, Except.bind]
    have hcol : ((record.resonances.map fun r => (r.1, r.2.getD i 0)).filter fun v =>
        decide (v.2 ≠ 0)) = column record i := rfl
    rw [hcol]
    by_cases hn : (column record i).length ≠ 0
    · rw [if_pos hn]
      have hex : ∃ widths, toReducedWidths K lib reduced c (column record i) = .ok widths := by
        unfold toReducedWidths
        cases reduced with
        | true => exact ⟨_, rfl⟩
        | false =>
          simp only [Bool.false_eq_true, if_false]
          refine mapM_exists.mpr fun v hv => ?_
          obtain ⟨r, hr, h1, -⟩ := mem_column.mp hv
          obtain ⟨⟨P, hP, hPe⟩, -⟩ := (hc rfl r hr).values
          rw [h1] at hPe
          obtain ⟨γ, h2, -⟩ := C42_rmatrix_exists v.2 hPe hP
          exact ⟨γ, h2⟩
      obtain ⟨widths, hwid⟩ := hex
      rw [hwid]
      dsimp only
      unfold makeChannelData
      rw [if_neg]
      · exact ⟨_, rfl⟩
      · rw [List.length_map, (toReducedWidths_forall hwid).length_eq]
        simp
    · rw [if_neg hn]
      exact ⟨_, rfl⟩
  · rw [if_neg h0]
    exact ⟨_, rfl⟩

/-! ## Evaluations -/

namespace AdmissibleRMatrix

theorem found {mt : ℤ} (hl : pairs.length = p.pairs.length) (h : ∃ row ∈ p.pairs, row.mt = mt) :
    ∃ pair, pairs[findParticlePair p.pairs mt]? = some pair := by
  obtain ⟨row, h1, h2⟩ := h
  have : findParticlePair p.pairs mt < p.pairs.length :=
    List.findIdx_lt_length_of_exists ⟨row, h1, by simp [h2]⟩
  exact ⟨_, List.getElem?_eq_getElem (by omega)⟩

theorem emits_of_type {mt : ℤ} (h : IsType pair mt .neutron) : Emits mt := by
  cases h
  assumption

theorem emits_of_charged {mt : ℤ} (h : IsType pair mt .charged) : Emits mt := by
  cases h
  assumption

theorem neutral_of_type {mt : ℤ} (h : IsType pair mt .neutron) : pair.particle.charge ≤ 0 := by
  cases h
  assumption

theorem charge_of_type {mt : ℤ} (h : IsType pair mt .charged) : 0 < pair.particle.charge := by
  cases h
  assumption

/-- The channels of an evaluation work at the energies that are no thresholds. -/
theorem works (h : AdmissibleRMatrix reactions neutronMass elementaryCharge incident target p pairs pair)
    (hr : record ∈ p.spinGroups) {row : ChannelRow} (hrow : row ∈ record.channels) {c : Channel}
    (hc : IsChannel pair pairs p.pairs record.spin record.parity row c)
    (hE : WorkingEnergy K lib p pairs pair E) : WorksAt K lib E c := by
  obtain ⟨pairRow, h1, h2, h3⟩ := hc.reaction
  have hmem := List.mem_of_getElem? h1
  have hpair := forall₂_index h.described h1 hc.pair
  obtain ⟨r1, r2, r3⟩ := hc.radii E
  have hthr : c.incident.massRatio * E + c.q ≠ 0 := by
    rw [hc.incident, h2]
    exact hE.threshold _ hmem
  have hmass : Emits pairRow.mt → 0 < c.pair.reducedMass := by
    intro he
    obtain ⟨m1, m2⟩ := h.masses _ hmem he
    rw [← hpair.masses.1] at m1
    rw [← hpair.masses.2] at m2
    rw [hpair.reduced]
    positivity
  by_cases hch : c.type = .charged
  · rw [hch] at h3
    have he := emits_of_charged h3
    have hk : c.waveNumber K E
        = Real.sqrt (2 * c.pair.reducedMass * |pair.massRatio * E + pairRow.q|) / K.hbar := by
      unfold Channel.waveNumber
      rw [hc.incident, h2, mul_comm E]
    obtain ⟨k1, k2, k3⟩ := hE.charged record hr row hrow pairRow c.pair h1 hc.pair he (charge_of_type h3)
    rw [← hk] at k1 k2 k3
    rw [← hc.l] at k1 k2 k3
    exact .of_charged hch r1 r2 r3 (h.particles record hr row hrow pairRow h1 he).1 (hmass he) hthr rfl k1 k2 k3
  · refine .of_neutral hch ⟨_, _, _, r1, r2, r3, fun hn => ?_⟩ fun hn => ?_
    · rw [hn] at h3
      exact (h.particles record hr row hrow pairRow h1 (emits_of_type h3)).1
    · rw [hn] at h3
      have he := emits_of_type h3
      have hcharge := neutral_of_type h3
      rw [hpair.charges.1] at hcharge
      exact ⟨hc.l ▸ (h.particles record hr row hrow pairRow h1 he).2 (not_lt.mpr hcharge), hmass he, hthr⟩

theorem toPairs (h : AdmissibleRMatrix reactions neutronMass elementaryCharge incident target p pairs pair) :
    ∃ row ∈ p.pairs, row.mt = 2 ∧ Pairs reactions neutronMass elementaryCharge incident target p pairs pair
      row.q := by
  obtain ⟨i, row, h1, h2, h3⟩ := h.elastic
  have hmem := List.mem_of_getElem? h1
  refine ⟨row, hmem, h2, h.described, h.distinct, ⟨i, row, h1, h3, h2, rfl⟩, ?_⟩
  rw [(forall₂_index h.described h1 h3).charges.1, h.neutral _ hmem h2, zero_mul]

/-- The data of a spin group can be made. -/
theorem data_exists (h : AdmissibleRMatrix reactions neutronMass elementaryCharge incident target p pairs pair)
    (hth : p.reducedWidths = 0 → ∀ record ∈ p.spinGroups, ∀ v ∈ record.resonances,
      WorkingEnergy K lib p pairs pair v.1)
    (hr : record ∈ p.spinGroups) :
    ∃ data, makeParticleChannelData K lib pair pairs p.pairs (p.reducedWidths != 0) record = .ok data := by
  have hl : pairs.length = p.pairs.length := h.described.length_eq.symm
  have ho := h.ordered record hr
  obtain ⟨channels, hch, hcs⟩ := C30_partial pair pairs p.pairs record hl ho.count ho.number ho.type
  obtain ⟨cpair, hcp⟩ := found hl h.capture
  unfold makeParticleChannelData
  rw [hch]
  simp only [bind, Except.bind]
  rw [hcp]
  dsimp only
  have hex : ∃ data, channels.zipIdx.mapM (fun c => channelDatum K lib (p.reducedWidths != 0) record
      (channels.findIdx fun c => cpair.id == c.pair.id) c.1 c.2) = .ok data := by
    refine mapM_exists.mpr fun c hc => ?_
    have hc := List.mem_zipIdx' hc
    have hlt : c.2 < record.channels.length := by
      rw [hcs.length_eq]
      exact hc.1
    refine channelDatum_exists (fun v hv => lt_of_lt_of_le hlt (h.widths record hr v hv)) fun hred v hv => ?_
    have h1 : record.channels[c.2]? = some record.channels[c.2] := List.getElem?_eq_getElem hlt
    have h2 : channels[c.2]? = some c.1 := by rw [hc.2]; exact List.getElem?_eq_getElem _
    refine works h hr (List.getElem_mem hlt) (forall₂_index hcs h1 h2) ?_
    exact hth (by simpa using hred) record hr v hv
  obtain ⟨data, hd⟩ := hex
  rw [hd]
  exact ⟨_, rfl⟩

theorem jpi_eq {r : RecordData} (h : RecordOf K lib p pairs pair q record r) (i : Fin r.n) :
    (r.D i).channel.numbers.J = |record.spin| ∧
      (r.D i).channel.numbers.parity = parityOf record.spin record.parity := by
  have h1 := (h.good.key i).trans h.x
  exact Prod.mk.injEq _ _ _ _ ▸ (h1 : ((r.D i).channel.numbers.J, (r.D i).channel.numbers.parity)
    = (|record.spin|, parityOf record.spin record.parity))

/-- The channel of each row. -/
theorem channel_of {r : RecordData} (h : RecordOf K lib p pairs pair q record r) (i : Fin r.n) :
    ∃ row, record.channels[i.1]? = some row ∧
      IsChannel pair pairs p.pairs record.spin record.parity row (r.D i).channel := by
  have hl := h.channels.length_eq
  rw [List.length_ofFn] at hl
  refine ⟨_, List.getElem?_eq_getElem (by omega), ?_⟩
  refine forall₂_index h.channels (List.getElem?_eq_getElem (by omega)) ?_
  rw [List.getElem?_ofFn]
  simp

/-- Every group has an elastic channel. -/
theorem entrance_of (h : AdmissibleRMatrix reactions neutronMass elementaryCharge incident target p pairs pair)
    (hr : record ∈ p.spinGroups) {r : RecordData} (hro : RecordOf K lib p pairs pair q record r) :
    ∃ i ∈ r.part, (r.D i).eliminated = false ∧ (r.D i).channel.pair.id = (r.D i).channel.incident.id := by
  obtain ⟨row, hrow, pairRow, h1, h2⟩ := h.entrance record hr
  obtain ⟨k, hk, rfl⟩ := List.mem_iff_getElem.mp hrow
  have hl := hro.channels.length_eq
  rw [List.length_ofFn] at hl
  obtain ⟨row', e1, hc⟩ := channel_of hro ⟨k, by omega⟩
  rw [List.getElem?_eq_getElem hk] at e1
  obtain rfl := Option.some.inj e1
  obtain ⟨i2, row2, a1, a2, a3⟩ := h.elastic
  have n1 := (forall₂_index h.described h1 hc.pair).name
  have n2 := (forall₂_index h.described a1 a3).name
  unfold IsName at n1 n2
  rw [if_pos h2] at n1
  rw [if_pos a2] at n2
  have hinc : (r.D ⟨k, by omega⟩).channel.pair.id = (r.D ⟨k, by omega⟩).channel.incident.id := by
    rw [hc.incident, n1.2.2, n2.2.2]
  have hinc' : (r.D ⟨k, by omega⟩).channel.isIncident = true := beq_iff_eq.mpr hinc
  exact ⟨_, (hro.part _).mpr (.inr hinc'), (hro.incident _ hinc').1, hinc⟩

/-- The identifiers of the channels in a group are different. -/
theorem ids_nodup (h : AdmissibleRMatrix reactions neutronMass elementaryCharge incident target p pairs pair)
    (hr : record ∈ p.spinGroups) {r : RecordData} (hro : RecordOf K lib p pairs pair q record r) :
    (r.data.map fun d => d.channel.id).Nodup := by
  unfold RecordData.data
  rw [List.map_map]
  refine hro.nodup.map_on fun i _ j _ hij => ?_
  obtain ⟨rowi, i1, i2⟩ := channel_of hro i
  obtain ⟨rowj, j1, j2⟩ := channel_of hro j
  have hspin := h.spins record hr
  have hphys : ∀ (i : Fin r.n) row, record.channels[i.1]? = some row →
      IsChannel pair pairs p.pairs record.spin record.parity row (r.D i).channel →
      Physical (r.D i).channel.numbers := by
    intro i row h1 h2
    refine ⟨?_, ?_⟩
    · rw [h2.s]
      exact hspin.2 row (List.mem_of_getElem? h1)
    · rw [(jpi_eq hro i).1]
      exact hspin.1
  have hij : (r.D i).channel.id = (r.D j).channel.id := hij
  rw [hro.named, hro.named, C07_channelID_injective _ _ _ _ (hphys i rowi i1 i2) (hphys j rowj j1 j2)] at hij
  obtain ⟨e1, e2, e3, -⟩ := hij
  have e4 := pair_index h.distinct i2.pair j2.pair e1
  have n1 := i2.number
  have n2 := j2.number
  have hkey : (rowi.pairNumber, rowi.l, rowi.s) = (rowj.pairNumber, rowj.l, rowj.s) := by
    rw [i2.l, j2.l] at e2
    rw [i2.s, j2.s] at e3
    rw [e2, e3, show rowi.pairNumber = rowj.pairNumber by omega]
  have hn := h.channels record hr
  obtain ⟨li, gi⟩ := List.getElem?_eq_some_iff.mp i1
  obtain ⟨lj, gj⟩ := List.getElem?_eq_some_iff.mp j1
  refine Fin.ext ((hn.getElem_inj_iff (hi := by simpa using li) (hj := by simpa using lj)).mp ?_)
  rw [List.getElem_map, List.getElem_map, gi, gj]
  exact hkey

/-- The identifiers of the channels tell the groups apart. -/
theorem ids_jpi (h : AdmissibleRMatrix reactions neutronMass elementaryCharge incident target p pairs pair)
    {record' : SpinGroupRecord} (hr : record ∈ p.spinGroups) (hr' : record' ∈ p.spinGroups)
    {r r' : RecordData} (hro : RecordOf K lib p pairs pair q record r)
    (hro' : RecordOf K lib p pairs pair q record' r') {i : Fin r.n} {j : Fin r'.n}
    (hij : (r.D i).channel.id = (r'.D j).channel.id) : r.x = r'.x := by
  obtain ⟨rowi, i1, i2⟩ := channel_of hro i
  obtain ⟨rowj, j1, j2⟩ := channel_of hro' j
  obtain ⟨u1, u2⟩ := jpi_eq hro i
  obtain ⟨v1, v2⟩ := jpi_eq hro' j
  rw [hro.named, hro'.named, C07_channelID_injective _ _ _ _
    ⟨i2.s ▸ (h.spins record hr).2 rowi (List.mem_of_getElem? i1), u1 ▸ (h.spins record hr).1⟩
    ⟨j2.s ▸ (h.spins record' hr').2 rowj (List.mem_of_getElem? j1), v1 ▸ (h.spins record' hr').1⟩] at hij
  obtain ⟨-, -, -, e1, e2⟩ := hij
  rw [hro.x, hro'.x, ← u1, ← v1, e1, ← u2, ← v2]
  have hsign : ∀ {a b : ℤ}, (a = 1 ∨ a = -1) → (b = 1 ∨ b = -1) → (0 < a ↔ 0 < b) → a = b := by
    intro a b ha hb
    rcases ha with rfl | rfl <;> rcases hb with rfl | rfl <;> norm_num
  have p1 := (spinParity_parityOf record.spin record.parity).2.1
  have p2 := (spinParity_parityOf record'.spin record'.parity).2.1
  rw [← u2] at p1
  rw [← v2] at p2
  rw [hsign p1 p2 e2]

/-- The compound system can be made. -/
theorem system_exists (h : AdmissibleRMatrix reactions neutronMass elementaryCharge incident target p pairs pair)
    (hth : p.reducedWidths = 0 → ∀ record ∈ p.spinGroups, ∀ v ∈ record.resonances,
      WorkingEnergy K lib p pairs pair v.1)
    (initial : (g : SpinGroup) → MatrixCache g.channels.length) :
    ∃ s, makeRMatrixCompoundSystem K lib initial reactions neutronMass elementaryCharge incident target p
      = .ok s := by
  obtain ⟨row, hrow, hmt, hp⟩ := toPairs h
  obtain ⟨pair', hpair⟩ := found h.described.length_eq.symm ⟨row, hrow, hmt⟩
  obtain rfl := hp.unique hpair
  obtain ⟨data, hd⟩ : ∃ data, p.spinGroups.mapM
      (makeParticleChannelData K lib pair' pairs p.pairs (p.reducedWidths != 0)) = .ok data :=
    mapM_exists.mpr fun record hr => data_exists h hth hr
  obtain ⟨rs, hrs, hdata⟩ := records_of hp h.ordered (mapM_ok.mp hd)
  have hflat : data.flatten = rs.flatMap RecordData.data := by rw [hdata, List.flatMap_def]
  have hmem : ∀ d ∈ rs.flatMap RecordData.data, ∃ r ∈ rs, ∃ record ∈ p.spinGroups,
      RecordOf K lib p pairs pair' row.q record r ∧ ∃ i ∈ r.part, d = r.D i := by
    intro d hd
    obtain ⟨r, hr, hd⟩ := List.mem_flatMap.mp hd
    obtain ⟨record, h1, h2⟩ := forall₂_mem_right hrs hr
    obtain ⟨i, hi, rfl⟩ := List.mem_map.mp hd
    exact ⟨r, hr, record, h1, h2, i, hi, rfl⟩
  have hlen : ∀ d ∈ rs.flatMap RecordData.data, d.energies.length = d.widths.length := by
    intro d hd
    obtain ⟨r, -, record, -, h2, i, -, rfl⟩ := hmem d hd
    exact h2.good.lengths i
  obtain ⟨merged, hc, -⟩ := C28_consolidation _ hlen
  unfold makeRMatrixCompoundSystem
  rw [pairs_made h.described]
  simp only [bind, Except.bind]
  rw [hpair]
  dsimp only
  rw [hd]
  dsimp only
  rw [hflat, hc]
  dsimp only
  refine (consolidated_accepted initial (id := pair'.id) hlen ?_ ?_ ?_ hc).mpr ⟨?_, ?_⟩
  · intro d hd
    obtain ⟨r, -, record, -, h2, i, -, rfl⟩ := hmem d hd
    rw [(h2.made i).2.2.1]
  · intro d hd
    obtain ⟨r, hr, record, h1, h2, i, -, rfl⟩ := hmem d hd
    obtain ⟨j, j1, j2, j3⟩ := entrance_of h h1 h2
    refine ⟨r.D j, List.mem_flatMap.mpr ⟨r, hr, List.mem_map_of_mem j1⟩, j2, j3, ?_⟩
    rw [(jpi_eq h2 i).1, (jpi_eq h2 i).2]
    exact jpi_eq h2 j
  · intro d hd e he hde
    obtain ⟨r, hr, record, h1, h2, i, -, rfl⟩ := hmem d hd
    obtain ⟨r', hr', record', h1', h2', i', -, rfl⟩ := hmem e he
    have hx := ids_jpi h h1 h1' h2 h2' hde
    rw [h2.x, h2'.x] at hx
    have hx : (|record.spin|, parityOf record.spin record.parity)
      = (|record'.spin|, parityOf record'.spin record'.parity) := hx
    rw [Prod.mk.injEq] at hx
    rw [(jpi_eq h2 i).1, (jpi_eq h2 i).2, (jpi_eq h2' i').1, (jpi_eq h2' i').2]
    exact hx
  · obtain ⟨record, hr⟩ := List.exists_mem_of_ne_nil _ h.some
    obtain ⟨r, hr1, hr2⟩ := forall₂_mem_left hrs hr
    obtain ⟨j, j1, -⟩ := entrance_of h hr hr2
    exact List.ne_nil_of_mem (List.mem_flatMap.mpr ⟨r, hr1, List.mem_map_of_mem j1⟩)
  · refine List.Nodup.sublist (List.filter_sublist.map _) ?_
    rw [List.map_flatMap, List.nodup_flatMap]
    refine ⟨fun r hr => ?_, ?_⟩
    · obtain ⟨record, h1, h2⟩ := forall₂_mem_right hrs hr
      exact ids_nodup h h1 h2
    · have hkeys : rs.map RecordData.x = p.spinGroups.map recordKey := records_keys hrs
      have hn := recordKey_nodup h.groups
      rw [← hkeys, List.Nodup, List.pairwise_map] at hn
      refine hn.imp_of_mem fun {a b} ha hb hab => ?_
      intro x hx hy
      obtain ⟨da, hda, rfl⟩ := List.mem_map.mp hx
      obtain ⟨db, hdb, hid⟩ := List.mem_map.mp hy
      obtain ⟨i, -, rfl⟩ := List.mem_map.mp hda
      obtain ⟨j, -, rfl⟩ := List.mem_map.mp hdb
      obtain ⟨reca, a1, a2⟩ := forall₂_mem_right hrs ha
      obtain ⟨recb, b1, b2⟩ := forall₂_mem_right hrs hb
      exact hab (ids_jpi h a1 b1 a2 b2 hid.symm)

/-- The spin groups of the compound system: their channels have functions at all energies that are no
thresholds, and their resonances are those of the evaluation. -/
theorem system_states
    (h : AdmissibleRMatrix reactions neutronMass elementaryCharge incident target p pairs pair)
    (hs : makeRMatrixCompoundSystem K lib initial reactions neutronMass elementaryCharge incident target p
      = .ok s) {st : GroupState} (hst : st ∈ s) :
    st.group.Built ∧ (∀ v ∈ st.group.table.resonances, v.widths.length = st.group.channels.length) ∧
    (∀ E, WorkingEnergy K lib p pairs pair E → ∀ c ∈ st.group.channels,
      WorksAt K lib E c ∧ (c.pair.id = c.incident.id → c.waveNumber K E ≠ 0)) ∧
    ∀ v ∈ st.group.table.resonances, ∃ record ∈ p.spinGroups, ∃ u ∈ record.resonances, u.1 = v.energy ∧
      ((∃ (i : ℕ) (row : ChannelRow) (width : ℝ), record.channels[i]? = some row ∧ Captures p row ∧
        u.2[i]? = some width ∧ width ≠ 0) → v.eliminated ≠ 0) := by
  obtain ⟨row, hrow, hmt, hp⟩ := toPairs h
  unfold makeRMatrixCompoundSystem at hs
  rw [pairs_made h.described] at hs
  simp only [bind, Except.bind] at hs
  split at hs
  · cases hs
  rename_i pair' hpair
  obtain rfl := hp.unique hpair
  obtain ⟨data, h2, hs⟩ := bind_ok.mp hs
  obtain ⟨consolidated, h3, hs⟩ := bind_ok.mp hs
  obtain ⟨rs, hrs, hdata⟩ := records_of hp h.ordered (mapM_ok.mp h2)
  have hflat : data.flatten = rs.flatMap RecordData.data := by rw [hdata, List.flatMap_def]
  rw [hflat] at h3
  have hkeys : rs.map RecordData.x = p.spinGroups.map recordKey := records_keys hrs
  have hnodup := recordKey_nodup h.groups
  have hrecord : ∀ r ∈ rs, ∃ record ∈ p.spinGroups, RecordOf K lib p pairs pair' row.q record r :=
    fun r hr => forall₂_mem_right hrs hr
  obtain ⟨jpis, j1, j2, j3, j4⟩ := RecordData.system_records
    (fun r hr => (hrecord r hr).elim fun _ h => h.2.good) (by rw [hkeys]; exact hnodup) h3 hs
  obtain ⟨x, hx, hb, hr⟩ := forall₂_mem_right j4 hst
  obtain ⟨r, hrm, rfl⟩ := j2 x hx
  obtain ⟨hch, ht⟩ := hr r hrm rfl
  obtain ⟨record, hrec, hro⟩ := hrecord r hrm
  refine ⟨hb, fun v hv => ?_, fun E hE c hc => ⟨?_, fun hinc => ?_⟩, fun v hv => ?_⟩
  · rw [ht.widths v hv, List.length_map, hch, List.length_map]
  · rw [hch] at hc
    obtain ⟨i, -, rfl⟩ := List.mem_map.mp hc
    obtain ⟨row, c1, c2⟩ := channel_of hro i
    exact works h hrec (List.mem_of_getElem? c1) c2 hE
  · rw [hch] at hc
    obtain ⟨i, -, rfl⟩ := List.mem_map.mp hc
    have hinc' : (r.D i).channel.isIncident = true := beq_iff_eq.mpr hinc
    obtain ⟨-, -, -, htype⟩ := hro.incident i hinc'
    obtain ⟨row, c1, c2⟩ := channel_of hro i
    obtain ⟨n2, n3⟩ := (works h hrec (List.mem_of_getElem? c1) c2 hE).neutron htype
    exact (waveNumber_pos n2 n3).ne'
  · obtain ⟨i, -, hi⟩ := (ht.energies v.energy).mp (List.mem_map_of_mem hv)
    obtain ⟨u, hu, hue, -⟩ := (hro.energies i v.energy).mp hi
    refine ⟨record, hrec, u, hu, hue, ?_⟩
    rintro ⟨k, krow, width, k1, k2, k3, k4⟩ h0
    obtain ⟨prow, p1, p2⟩ := k2
    have hl := hro.channels.length_eq
    rw [List.length_ofFn] at hl
    have hk : k < r.n := by
      obtain ⟨h', -⟩ := List.getElem?_eq_some_iff.mp k1
      omega
    have hel := (hro.eliminated ⟨k, hk⟩ krow prow k1 p1).mpr p2
    obtain ⟨width', w1, w2⟩ := hro.widths ⟨k, hk⟩ u hu
    rw [show u.2[(⟨k, hk⟩ : Fin r.n).1]? = some width from k3] at w1
    obtain rfl := Option.some.inj w1
    have hlast : lastWidth (r.D ⟨k, hk⟩) u.1 ≠ 0 := by
      unfold IsRWidth at w2
      by_cases hred : p.reducedWidths ≠ 0
      · rw [if_pos hred] at w2
        rw [w2]
        exact k4
      · rw [if_neg hred, if_neg k4] at w2
        obtain ⟨P', -, -, w3, -⟩ := w2
        intro h0
        rw [h0] at w3
        norm_num at w3
        exact k4 (abs_eq_zero.mp w3.symm)
    have hin : (⟨k, hk⟩ : Fin r.n) ∈ r.elim :=
      RecordOf.mem_elim.mpr ⟨(hro.mem_part_of_width hlast).2, hel⟩
    rw [ht.eliminated v hv] at h0
    rcases hro.good.single with h1 | ⟨j, h1⟩
    · rw [h1] at hin
      cases hin
    · rw [h1] at hin h0
      obtain rfl := List.mem_singleton.mp hin
      rw [List.map_singleton, List.sum_singleton, ← hue] at h0
      exact hlast h0

/-- The compound system can be evaluated. -/
theorem system_evaluates
    (h : AdmissibleRMatrix reactions neutronMass elementaryCharge incident target p pairs pair)
    (hs : makeRMatrixCompoundSystem K lib initial reactions neutronMass elementaryCharge incident target p
      = .ok s)
    (hE : WorkingEnergy K lib p pairs pair E)
    (hpole : ∀ record ∈ p.spinGroups, ∀ v ∈ record.resonances, v.1 = E →
      ∃ (i : ℕ) (row : ChannelRow) (width : ℝ), record.channels[i]? = some row ∧ Captures p row ∧
        v.2[i]? = some width ∧ width ≠ 0) :
    ∃ v, CompoundSystem.evaluate option K lib E s (fun _ => none) = .ok v := by
  refine evaluate_system_exists (fun st hst => ?_) _
  obtain ⟨hb, hw, hc, hr⟩ := system_states h hs hst
  have hv := fun i : Fin st.group.channels.length =>
    (hc E hE st.group.channels[i] (List.getElem_mem _)).1.values
  choose P hP using fun i => (hv i).1
  choose S hS using fun i => (hv i).2.1
  choose w hw' using fun i => (hv i).2.2.1
  choose phi hphi using fun i => (hv i).2.2.2
  refine (C19_evaluation_succeeds hb (fun i => (hP i).2) (fun _ => hS) hw' hphi
    (fun i => (hP i).1.le) (fun _ i _ => (hP i).1) hw ?_ (fun c hcm => (hc E hE c hcm).2) _ _
    (fun _ => none)).1
  rintro v hv ⟨he, h0⟩
  obtain ⟨record, hrec, u, hu, hue, k⟩ := hr v hv
  exact k (hpole record hrec u hu (hue.trans he)) h0

end AdmissibleRMatrix

/-! ## Without charged particles -/

namespace PhysicalRMatrix

theorem admissible (h : PhysicalRMatrix reactions neutronMass elementaryCharge incident target p pairs pair) :
    AdmissibleRMatrix reactions neutronMass elementaryCharge incident target p pairs pair :=
  { h with
    neutral := fun row hrow _ => h.neutral row hrow
    particles := fun record hr row hrow pairRow h1 he =>
      have := h.particles record hr row hrow pairRow h1 he
      ⟨this.2, fun _ => this.1⟩ }

theorem uncharged (h : PhysicalRMatrix reactions neutronMass elementaryCharge incident target p pairs pair)
    {i : ℕ} {row : ParticlePairRow} {exit : ParticlePair} (h1 : p.pairs[i]? = some row)
    (h2 : pairs[i]? = some exit) : exit.particle.charge = 0 := by
  rw [(forall₂_index h.described h1 h2).charges.1, h.neutral _ (List.mem_of_getElem? h1), zero_mul]

theorem working (h : PhysicalRMatrix reactions neutronMass elementaryCharge incident target p pairs pair)
    (hE : ∀ row ∈ p.pairs, pair.massRatio * E + row.q ≠ 0) : WorkingEnergy K lib p pairs pair E :=
  ⟨hE, fun _ _ _ _ _ _ h1 h2 _ h4 => absurd h4 (uncharged h h1 h2).not_gt⟩

theorem toPairs (h : PhysicalRMatrix reactions neutronMass elementaryCharge incident target p pairs pair) :
    ∃ row ∈ p.pairs, row.mt = 2 ∧ Pairs reactions neutronMass elementaryCharge incident target p pairs pair
      row.q := AdmissibleRMatrix.toPairs (admissible h)

end PhysicalRMatrix

end Verif.Endf
