import Verif.Lemmas.RMatrixGroup

/-!
# The spin groups of an R-matrix-limited evaluation
-/

namespace Verif.Endf

open Spec Complex

variable {K : Constants} {lib : CoulombLibrary} {reactions : ReactionLibrary}
  {neutronMass elementaryCharge E : ℝ} {incident target : Str} {p : RMatrixLimited}
  {pairs : List ParticlePair} {pair : ParticlePair} {q : ℝ} {record : SpinGroupRecord}

/-! ## Particle pairs -/

theorem isPair_of {row : ParticlePairRow} {pair : ParticlePair}
    (h : (do
      let (a, b, id) ← makeParticleIDs reactions incident target row.mt
      let particle ← makeParticle a (row.massA * neutronMass) (row.chargeA * elementaryCharge) |row.spinA|
        (parityOf row.spinA row.parityA)
      let residual ← makeParticle b (row.massB * neutronMass) (row.chargeB * elementaryCharge) |row.spinB|
        (parityOf row.spinB row.parityB)
      makeParticlePair particle residual id) = .ok pair) :
    IsPair reactions neutronMass elementaryCharge incident target row pair := by
  obtain ⟨⟨a, b, id⟩, h1, h⟩ := bind_ok.mp h
  dsimp only at h
  obtain ⟨particle, h2, h⟩ := bind_ok.mp h
  obtain ⟨residual, h3, h⟩ := bind_ok.mp h
  unfold makeParticle at h2 h3
  split at h2
  · cases h2
  rename_i n1
  split at h2
  · cases h2
  rename_i n2
  split at h3
  · cases h3
  rename_i n3
  split at h3
  · cases h3
  rename_i n4
  obtain rfl := Except.ok.inj h2
  obtain rfl := Except.ok.inj h3
  unfold makeParticlePair at h
  dsimp only at h
  split at h
  · cases h
  rename_i n5
  obtain rfl := Except.ok.inj h
  refine ⟨?_, ⟨rfl, rfl⟩, ⟨rfl, rfl⟩, spinParity_parityOf _ _, spinParity_parityOf _ _,
    ⟨not_lt.mp n1, not_lt.mp n3, not_lt.mp n2, not_lt.mp n4⟩, n5, rfl, rfl⟩
  unfold IsName
  unfold makeParticleIDs at h1
  split at h1
  · rename_i hm
    rw [if_pos hm]
    cases h1
    exact ⟨rfl, rfl, rfl⟩
  rename_i hm
  rw [if_neg hm]
  split at h1
  · rename_i hm
    rw [if_pos hm]
    cases h1
    exact ⟨rfl, rfl, rfl⟩
  rename_i hm
  rw [if_neg hm]
  obtain ⟨⟨a', b'⟩, h4, h1⟩ := bind_ok.mp h1
  cases h1
  exact ⟨h4, rfl⟩

theorem isPairs_of (h : makeParticlePairs reactions neutronMass elementaryCharge incident target p.pairs
    = .ok pairs) :
    List.Forall₂ (IsPair reactions neutronMass elementaryCharge incident target) p.pairs pairs := by
  unfold makeParticlePairs at h
  refine (mapM_ok.mp h).imp ?_
  intro row pair h
  exact isPair_of h

theorem spinParity_unique {spin : ℚ} {parity : ℤ} {J J' : ℚ} {π π' : ℤ} (h : SpinParity spin parity J π)
    (h' : SpinParity spin parity J' π') : J = J' ∧ π = π' := by
  refine ⟨h.1.trans h'.1.symm, ?_⟩
  obtain ⟨-, h1, h2⟩ := h
  obtain ⟨-, h3, h4⟩ := h'
  rcases h1 with rfl | rfl
  · exact (h4.mpr (h2.mp rfl)).symm
  · rcases h3 with rfl | rfl
    · exact absurd (h2.mpr (h4.mp rfl)) (by norm_num)
    · rfl

/-- Two pairs for one row are the same. -/
theorem isPair_unique {row : ParticlePairRow} {a b : ParticlePair}
    (h : IsPair reactions neutronMass elementaryCharge incident target row a)
    (h' : IsPair reactions neutronMass elementaryCharge incident target row b) : a = b := by
  have hname : a.particle.id = b.particle.id ∧ a.residual.id = b.residual.id ∧ a.id = b.id := by
    have h1 := h.name
    have h2 := h'.name
    unfold IsName at h1 h2
    split at h1
    · rename_i hm
      rw [if_pos hm] at h2
      exact ⟨h1.1.trans h2.1.symm, h1.2.1.trans h2.2.1.symm, h1.2.2.trans h2.2.2.symm⟩
    rename_i hm
    rw [if_neg hm] at h2
    split at h1
    · rename_i hm
      rw [if_pos hm] at h2
      exact ⟨h1.1.trans h2.1.symm, h1.2.1.trans h2.2.1.symm, h1.2.2.trans h2.2.2.symm⟩
    rename_i hm
    rw [if_neg hm] at h2
    have := Except.ok.inj (h1.1.symm.trans h2.1)
    rw [Prod.mk.injEq] at this
    exact ⟨this.1, this.2, by rw [h1.2, h2.2, this.1, this.2]⟩
  have m1 := h.masses.1.trans h'.masses.1.symm
  have m2 := h.masses.2.trans h'.masses.2.symm
  have c1 := h.charges.1.trans h'.charges.1.symm
  have c2 := h.charges.2.trans h'.charges.2.symm
  obtain ⟨s1, s2⟩ := spinParity_unique h.first h'.first
  obtain ⟨s3, s4⟩ := spinParity_unique h.second h'.second
  have r1 := h.reduced
  have r2 := h.ratio
  rw [m1, m2, ← h'.reduced] at r1
  rw [m1, m2, ← h'.ratio] at r2
  obtain ⟨⟨_, _, _, _, _⟩, ⟨_, _, _, _, _⟩, _, _, _⟩ := a
  obtain ⟨⟨_, _, _, _, _⟩, ⟨_, _, _, _, _⟩, _, _, _⟩ := b
  simp only at hname m1 m2 c1 c2 s1 s2 s3 s4 r1 r2
  simp only [hname, m1, m2, c1, c2, s1, s2, s3, s4, r1, r2]

/-- The pairs are those that the evaluation describes. -/
theorem pairs_eq {pairs' : List ParticlePair}
    (h : List.Forall₂ (IsPair reactions neutronMass elementaryCharge incident target) p.pairs pairs)
    (h' : List.Forall₂ (IsPair reactions neutronMass elementaryCharge incident target) p.pairs pairs') :
    pairs = pairs' := by
  generalize p.pairs = rows at h h'
  induction h generalizing pairs' with
  | nil =>
    cases h'
    rfl
  | cons h1 _ ih =>
    cases h' with
    | cons h2 h3 => rw [isPair_unique h1 h2, ih h3]

theorem pair_index (hn : (pairs.map ParticlePair.id).Nodup) {i j : ℕ} {a b : ParticlePair}
    (ha : pairs[i]? = some a) (hb : pairs[j]? = some b) (h : a.id = b.id) : i = j := by
  obtain ⟨hi, rfl⟩ := List.getElem?_eq_some_iff.mp ha
  obtain ⟨hj, rfl⟩ := List.getElem?_eq_some_iff.mp hb
  have := (List.Nodup.getElem_inj_iff hn (hi := by simpa using hi) (hj := by simpa using hj)).mp
    (by simpa using h)
  exact this

theorem forall₂_index {α β : Type*} {R : α → β → Prop} {l : List α} {m : List β} (h : List.Forall₂ R l m)
    {i : ℕ} {a : α} {b : β} (ha : l[i]? = some a) (hb : m[i]? = some b) : R a b := by
  obtain ⟨-, h⟩ := List.forall₂_iff_get.mp h
  obtain ⟨hi, rfl⟩ := List.getElem?_eq_some_iff.mp ha
  obtain ⟨hj, rfl⟩ := List.getElem?_eq_some_iff.mp hb
  exact h i hi hj

theorem isPair_capture {row : ParticlePairRow}
    (h : IsPair reactions neutronMass elementaryCharge incident target row pair) :
    pair.id ≠ "capture".toList := by
  have h := h.name
  unfold IsName at h
  split at h
  · rw [h.2.2]
    exact (pairID_ne_of_not_mem (by simp)).symm
  split at h
  · rw [h.2.2]
    simp
  · rw [h.2]
    exact (pairID_ne_of_not_mem (by simp)).symm

/-! ## Spin groups -/

/-- The pairs of an evaluation. `pair` is the incident one, `q` its Q value. -/
structure Pairs (reactions : ReactionLibrary) (neutronMass elementaryCharge : ℝ) (incident target : Str)
    (p : RMatrixLimited) (pairs : List ParticlePair) (pair : ParticlePair) (q : ℝ) : Prop where
  described : List.Forall₂ (IsPair reactions neutronMass elementaryCharge incident target) p.pairs pairs
  nodup : (pairs.map ParticlePair.id).Nodup
  incident : ∃ (i : ℕ) (row : ParticlePairRow), p.pairs[i]? = some row ∧ pairs[i]? = some pair ∧ row.mt = 2 ∧
    row.q = q
  neutral : pair.particle.charge ≤ 0

/-- The data of a spin group are those of its record. -/
structure RecordOf (K : Constants) (lib : CoulombLibrary) (p : RMatrixLimited) (pairs : List ParticlePair)
    (pair : ParticlePair) (q : ℝ) (record : SpinGroupRecord) (r : RecordData) : Prop where
  good : r.Good
  x : r.x = toLex (|record.spin|, parityOf record.spin record.parity)
  nodup : r.part.Nodup
  channels : List.Forall₂ (IsChannel pair pairs p.pairs record.spin record.parity) record.channels
    (List.ofFn fun i => (r.D i).channel)
  made : ∀ i, (r.D i).channel.reaction = makeReactionID pair.id (r.D i).channel.pair.id ∧
    (r.D i).channel.spinFactor = statisticalSpinFactor |record.spin| (r.D i).channel.pair.particle.spin
      (r.D i).channel.pair.residual.spin ∧
    (r.D i).channel.incident = pair ∧ (r.D i).channel.pair.id ≠ "capture".toList
  named : ∀ i, (r.D i).channel.id = makeChannelID (r.D i).channel.pair.id (r.D i).channel.numbers
  part : ∀ i, i ∈ r.part ↔ (∃ v ∈ record.resonances, v.2.getD i 0 ≠ 0) ∨ (r.D i).channel.isIncident = true
  energies : ∀ i E, E ∈ (r.D i).energies ↔ ∃ v ∈ record.resonances, v.1 = E ∧ v.2.getD i 0 ≠ 0
  widths : ∀ i, ∀ v ∈ record.resonances, ∃ width, v.2[i.1]? = some width ∧
    IsRWidth K lib p.reducedWidths (r.D i).channel v.1 width (lastWidth (r.D i) v.1)
  eliminated : ∀ (i : Fin r.n) row pairRow, record.channels[i.1]? = some row →
    p.pairs[row.pairNumber - 1]? = some pairRow → ((r.D i).eliminated = true ↔ pairRow.mt = 102)
  single : ∀ i j, (r.D i).eliminated = true → (r.D j).eliminated = true → i = j
  incident : ∀ i, (r.D i).channel.isIncident = true → (r.D i).eliminated = false ∧
    (r.D i).channel.pair = pair ∧ (r.D i).channel.q = q ∧ (r.D i).channel.type = .neutron

theorem reaction_of_channels {incident : ParticlePair} {rows : List ParticlePairRow}
    {channels : List Channel} (h : makeParticleChannels incident pairs rows record = .ok channels) {c : Channel}
    (hc : c ∈ channels) : c.reaction = makeReactionID incident.id c.pair.id ∧
      c.spinFactor = statisticalSpinFactor |record.spin| c.pair.particle.spin c.pair.residual.spin ∧
      c.numbers.J = |record.spin| ∧ c.numbers.parity = parityOf record.spin record.parity := by
  unfold makeParticleChannels at h
  obtain ⟨⟨inc, row, mt⟩, hmem, hi⟩ := forall₂_mem_right (mapM_ok.mp h) hc
  have hinc := List.eq_of_mem_replicate (List.of_mem_zip hmem).1
  dsimp only at hi hinc
  split at hi
  · cases hi
  split at hi
  · obtain rfl := Except.ok.inj hi
    rw [hinc]
    exact ⟨rfl, rfl, rfl, rfl⟩
  · cases hi

theorem id_of_channels {incident : ParticlePair} {rows : List ParticlePairRow}
    {channels : List Channel} (h : makeParticleChannels incident pairs rows record = .ok channels) {c : Channel}
    (hc : c ∈ channels) : c.id = makeChannelID c.pair.id c.numbers := by
  unfold makeParticleChannels at h
  obtain ⟨⟨inc, row, mt⟩, hmem, hi⟩ := forall₂_mem_right (mapM_ok.mp h) hc
  dsimp only at hi
  split at hi
  · cases hi
  split at hi
  · obtain rfl := Except.ok.inj hi
    rfl
  · cases hi

theorem mem_column {i : ℕ} {E w : ℝ} : (E, w) ∈ column record i ↔
    ∃ v ∈ record.resonances, v.1 = E ∧ v.2.getD i 0 = w ∧ w ≠ 0 := by
  unfold column
  simp only [List.mem_filter, List.mem_map, decide_eq_true_eq, Prod.mk.injEq]
  constructor
  · rintro ⟨⟨v, hv, h1, h2⟩, h3⟩
    exact ⟨v, hv, h1, h2, h3⟩
  · rintro ⟨v, hv, h1, h2, h3⟩
    exact ⟨⟨v, hv, h1, h2⟩, h3⟩

theorem single_of_filter {n : ℕ} {l : List (Fin n)} (hn : l.Nodup) (f : Fin n → Bool)
    (h : ∀ i j, f i = true → f j = true → i = j) : l.filter f = [] ∨ ∃ i, l.filter f = [i] := by
  rcases hl : l.filter f with _ | ⟨i, _ | ⟨j, rest⟩⟩
  · exact .inl rfl
  · exact .inr ⟨i, rfl⟩
  · exfalso
    have h1 := hn.filter f
    have hi : i ∈ l.filter f := by rw [hl]; simp
    have hj : j ∈ l.filter f := by rw [hl]; simp
    rw [hl, List.nodup_cons] at h1
    exact h1.1 (by rw [h i j (List.mem_filter.mp hi).2 (List.mem_filter.mp hj).2]; simp)

theorem record_of (hp : Pairs reactions neutronMass elementaryCharge incident target p pairs pair q)
    (ho : Ordered pairs p record) {data : List ChannelData}
    (h : makeParticleChannelData K lib pair pairs p.pairs (p.reducedWidths != 0) record = .ok data) :
    ∃ r, RecordOf K lib p pairs pair q record r ∧ data = r.data := by
  classical
  have hlen : pairs.length = p.pairs.length := hp.described.length_eq.symm
  obtain ⟨channels, hch, hcs⟩ := C30_partial pair pairs p.pairs record hlen ho.count ho.number ho.type
  obtain ⟨-, cpair, -, -, hcp, -, -⟩ := makeParticleChannelData_ok h
  have hl : record.channels.length = channels.length := hcs.length_eq
  obtain ⟨i2, row2, hi1, hi2, hi3, hi4⟩ := hp.incident
  -- the capture pair
  obtain ⟨hf, -⟩ := List.getElem?_eq_some_iff.mp hcp
  have hf' : findParticlePair p.pairs 102 < p.pairs.length := by omega
  obtain ⟨crow, hcrow⟩ : ∃ crow, p.pairs[findParticlePair p.pairs 102]? = some crow :=
    ⟨_, List.getElem?_eq_getElem hf'⟩
  have hcmt : crow.mt = 102 := by
    have := List.findIdx_getElem (p := fun row : ParticlePairRow => row.mt == 102) (w := hf')
    obtain ⟨_, rfl⟩ := List.getElem?_eq_some_iff.mp hcrow
    exact beq_iff_eq.mp this
  have hcapid : ∀ (k : ℕ) row a, p.pairs[k]? = some row → pairs[k]? = some a →
      (row.mt = 102 ↔ a.id = cpair.id) := by
    intro k row a h1 h2
    constructor
    · intro h3
      have n1 := (forall₂_index hp.described h1 h2).name
      have n2 := (forall₂_index hp.described hcrow hcp).name
      unfold IsName at n1 n2
      rw [h3] at n1
      rw [hcmt] at n2
      norm_num at n1 n2
      have := Except.ok.inj (n1.1.symm.trans n2.1)
      rw [Prod.mk.injEq] at this
      rw [n1.2, n2.2, this.1, this.2]
    · intro h3
      have := pair_index hp.nodup h2 hcp h3
      subst this
      rw [hcrow] at h1
      cases h1
      exact hcmt
  have hchan : ∀ i : Fin channels.length, ∃ row pairRow, record.channels[i.1]? = some row ∧
      IsChannel pair pairs p.pairs record.spin record.parity row channels[i.1] ∧
      p.pairs[row.pairNumber - 1]? = some pairRow ∧ channels[i.1].q = pairRow.q ∧
      IsType channels[i.1].pair pairRow.mt channels[i.1].type := by
    intro i
    have h1 : record.channels[i.1]? = some (record.channels[i.1]'(by omega)) :=
      List.getElem?_eq_getElem (by omega)
    have h2 := forall₂_index hcs h1 (List.getElem?_eq_getElem i.2)
    obtain ⟨pairRow, h3, h4, h5⟩ := h2.reaction
    exact ⟨_, pairRow, h1, h2, h3, h4, h5⟩
  have helim : ∀ c ∈ channels, c.pair.id = cpair.id → c.isIncident = false := by
    intro c hc h1
    obtain ⟨i, hi, rfl⟩ := List.mem_iff_getElem.mp hc
    obtain ⟨row, pairRow, h2, h3, h4, h5, h6⟩ := hchan ⟨i, hi⟩
    have h7 := (hcapid _ _ _ h4 h3.pair).mpr h1
    unfold Channel.isIncident
    rw [h3.incident]
    simp only [beq_eq_false_iff_ne]
    intro h8
    have := pair_index hp.nodup h3.pair hi2 h8
    rw [this, hi1] at h4
    cases h4
    rw [hi3] at h7
    norm_num at h7
  obtain ⟨hwid, D, hD, hdata⟩ := record_data h hch hcp ho.resonances helim
  have hDc : ∀ i, (D i).channel = channels[i.1] := fun i => (hD i).1
  have hen : ∀ i E, E ∈ (D i).energies ↔ ∃ v ∈ record.resonances, v.1 = E ∧ v.2.getD i.1 0 ≠ 0 := by
    intro i E
    rw [(hD i).2.1, List.mem_map]
    constructor
    · rintro ⟨⟨E', w⟩, h1, rfl⟩
      obtain ⟨v, hv, h2, h3, h4⟩ := mem_column.mp h1
      exact ⟨v, hv, h2, h3 ▸ h4⟩
    · rintro ⟨v, hv, rfl, h1⟩
      exact ⟨(v.1, _), mem_column.mpr ⟨v, hv, rfl, rfl, h1⟩, rfl⟩
  have hnodup : ∀ i, (D i).energies.Nodup := by
    intro i
    rw [(hD i).2.1]
    refine ho.energies.sublist ?_
    have : (record.resonances.map fun r => ((r.1, r.2.getD i.1 0) : ℝ × ℝ)).map Prod.fst
        = record.resonances.map Prod.fst := by
      rw [List.map_map]
      rfl
    rw [← this]
    exact (List.filter_sublist).map _
  have hel : ∀ i, (D i).eliminated = true ↔ channels[i.1].pair.id = cpair.id := by
    intro i
    rw [(hD i).2.2.2]
    constructor
    · intro h1
      have h2 := List.findIdx_getElem (p := fun c : Channel => cpair.id == c.pair.id) (xs := channels)
        (w := by omega)
      simp only [← h1] at h2
      exact (beq_iff_eq.mp h2).symm
    · intro h1
      have hlt : channels.findIdx (fun c => cpair.id == c.pair.id) < channels.length :=
        List.findIdx_lt_length_of_exists ⟨_, List.getElem_mem i.2, by simp [h1]⟩
      have h2 := List.findIdx_getElem (p := fun c : Channel => cpair.id == c.pair.id) (w := hlt)
      have h2 := (beq_iff_eq.mp h2).symm
      obtain ⟨row, pairRow, a1, a2, a3, -⟩ := hchan i
      obtain ⟨row', pairRow', b1, b2, b3, -⟩ := hchan ⟨_, hlt⟩
      exact ho.capture _ _ _ _ a1 b1 ⟨_, a3, (hcapid _ _ _ a3 a2.pair).mpr h1⟩
        ⟨_, b3, (hcapid _ _ _ b3 b2.pair).mpr h2⟩
  have hsingle : ∀ i j, (D i).eliminated = true → (D j).eliminated = true → i = j := by
    intro i j h1 h2
    exact Fin.ext (((hD i).2.2.2.mp h1).trans ((hD j).2.2.2.mp h2).symm)
  have hpartn : ((List.finRange channels.length).filter fun i : Fin channels.length =>
      decide (column record i ≠ [] ∨ channels[i].isIncident = true)).Nodup :=
    (List.nodup_finRange _).filter _
  refine ⟨⟨toLex (|record.spin|, parityOf record.spin record.parity), channels.length, D, _⟩, ?_, hdata⟩
  refine ⟨⟨fun i => ?_, fun i => ?_, single_of_filter hpartn _ hsingle⟩, rfl, hpartn, ?_, fun i => ?_,
    fun i => ?_, fun i => ?_, hen, fun i v hv => ?_, fun i row pairRow h1 h2 => ?_, hsingle, fun i h1 => ?_⟩
  · unfold ChannelData.jpi
    rw [hDc]
    obtain ⟨-, -, h1, h2⟩ := reaction_of_channels hch (List.getElem_mem i.2)
    rw [h1, h2]
  · rw [(hD i).2.1, List.length_map, (hD i).2.2.1.length_eq]
  · have : (List.ofFn fun i => (D i).channel) = channels := by
      refine List.ext_getElem (by simp) fun i h1 h2 => ?_
      rw [List.getElem_ofFn, hDc]
    show List.Forall₂ _ _ (List.ofFn fun i => (D i).channel)
    rw [this]
    exact hcs
  · show (D i).channel.reaction = _ ∧ (D i).channel.spinFactor = _ ∧ (D i).channel.incident = _ ∧
      (D i).channel.pair.id ≠ _
    rw [hDc]
    obtain ⟨h1, h2, -⟩ := reaction_of_channels hch (List.getElem_mem i.2)
    obtain ⟨row, pairRow, -, a2, a3, -⟩ := hchan i
    exact ⟨h1, h2, a2.incident, isPair_capture (forall₂_index hp.described a3 a2.pair)⟩
  · show (D i).channel.id = makeChannelID (D i).channel.pair.id (D i).channel.numbers
    rw [hDc]
    exact id_of_channels hch (List.getElem_mem i.2)
  · show i ∈ List.filter _ _ ↔ _ ∨ (D i).channel.isIncident = true
    rw [List.mem_filter, decide_eq_true_eq, hDc]
    simp only [List.mem_finRange, true_and]
    refine or_congr ?_ Iff.rfl
    constructor
    · intro h1
      obtain ⟨⟨E', w⟩, h1⟩ := List.exists_mem_of_ne_nil _ h1
      obtain ⟨v, hv, h2, h3, h4⟩ := mem_column.mp h1
      exact ⟨v, hv, h3 ▸ h4⟩
    · rintro ⟨v, hv, h1⟩ h0
      have : (v.1, v.2.getD i.1 0) ∈ column record i := mem_column.mpr ⟨v, hv, rfl, rfl, h1⟩
      rw [h0] at this
      cases this
  · have hi := hwid i.1 i.2 v hv
    refine ⟨v.2[i.1], List.getElem?_eq_getElem hi, ?_⟩
    have hg : v.2.getD i.1 0 = v.2[i.1] := by
      rw [List.getD_eq_getElem?_getD, List.getElem?_eq_getElem hi, Option.getD_some]
    by_cases h0 : v.2[i.1] = 0
    · have hlast : lastWidth (D i) v.1 = 0 := by
        refine Blocks.lastWidth_missing fun hmem => ?_
        obtain ⟨v', hv', h1, h2⟩ := (hen i v.1).mp hmem
        have := List.inj_on_of_nodup_map ho.energies hv' hv h1
        subst this
        exact h2 (hg.trans h0)
      show IsRWidth K lib p.reducedWidths (D i).channel v.1 _ (lastWidth (D i) v.1)
      unfold IsRWidth
      rw [hlast, h0]
      simp
    · have hmem : (v.1, v.2[i.1]) ∈ column record i := mem_column.mpr ⟨v, hv, rfl, hg, h0⟩
      obtain ⟨γ, h6, h7⟩ := forall₂_zip (f := Prod.fst) (hD i).2.2.1 hmem
      rw [← (hD i).2.1] at h6
      have hlast := lastWidth_of_nodup (hnodup i) h6
      show IsRWidth K lib p.reducedWidths (D i).channel v.1 _ (lastWidth (D i) v.1)
      dsimp only at hlast h7
      rw [hlast, hDc]
      unfold IsReduced at h7
      unfold IsRWidth
      by_cases hr : p.reducedWidths = 0
      · rw [if_neg (by simp [hr])] at h7
        rw [if_neg (by simpa using hr), if_neg h0]
        obtain ⟨P, h8, h9⟩ := h7
        refine ⟨P, penetrabilityAt h8, ?_, h9⟩
        rintro rfl
        have := h9.1
        rw [mul_zero, zero_mul] at this
        exact h0 (abs_eq_zero.mp this.symm)
      · rw [if_pos (by simpa using hr)] at h7
        rw [if_pos hr]
        exact h7
  · obtain ⟨row', pairRow', a1, a2, a3, -⟩ := hchan i
    rw [a1] at h1
    cases h1
    rw [a3] at h2
    cases h2
    rw [hcapid _ _ _ a3 a2.pair]
    exact hel i
  · obtain ⟨row', pairRow', a1, a2, a3, a4, a5⟩ := hchan i
    have h1' : channels[i.1].isIncident = true := by
      rw [← hDc]
      exact h1
    have hid : channels[i.1].pair.id = pair.id := by
      unfold Channel.isIncident at h1'
      rw [a2.incident] at h1'
      exact beq_iff_eq.mp h1'
    have hk := pair_index hp.nodup a2.pair hi2 hid
    have hpair : channels[i.1].pair = pair := by
      have := a2.pair
      rw [hk, hi2] at this
      exact (Option.some.inj this).symm
    rw [hk, hi1] at a3
    cases a3
    refine ⟨?_, ?_, ?_, ?_⟩
    · rw [Bool.eq_false_iff]
      intro h3
      have := helim _ (List.getElem_mem i.2) ((hel i).mp h3)
      rw [h1'] at this
      cases this
    · exact (congrArg Channel.pair (hDc i)).trans hpair
    · exact ((congrArg Channel.q (hDc i)).trans a4).trans hi4
    · refine (congrArg Channel.type (hDc i)).trans ?_
      refine isType_unique a5 (.neutral ?_ ?_)
      · rw [hi3]
        simp
      · rw [hpair]
        exact hp.neutral

/-- The spin group of a record. -/
@[reducible] noncomputable def RecordData.group (r : RecordData) (record : SpinGroupRecord) (own : Prop)
    (P S φ : Fin r.n → ℝ) : RGroup where
  n := r.n
  channel i := (r.D i).channel
  eliminated i := (r.D i).eliminated = true
  own _ := own
  P := P
  S := S
  φ := φ
  levels := record.resonances.map fun v => ⟨v.1, fun i => lastWidth (r.D i) v.1⟩

namespace RecordOf

variable {r : RecordData} {own : Prop} {P S φ : Fin r.n → ℝ}

theorem mem_kept {r : RecordData} {i : Fin r.n} : i ∈ r.kept ↔ i ∈ r.part ∧ (r.D i).eliminated = false := by
  unfold RecordData.kept
  rw [List.mem_filter, Bool.not_eq_true']

theorem mem_elim {r : RecordData} {i : Fin r.n} : i ∈ r.elim ↔ i ∈ r.part ∧ (r.D i).eliminated = true := by
  unfold RecordData.elim
  rw [List.mem_filter]

/-- A channel that has a width takes part. -/
theorem mem_part_of_width (h : RecordOf K lib p pairs pair q record r) {i : Fin r.n} {x : ℝ}
    (hw : lastWidth (r.D i) x ≠ 0) : x ∈ (r.D i).energies ∧ i ∈ r.part := by
  have hx : x ∈ (r.D i).energies := by
    by_contra hx
    exact hw (Blocks.lastWidth_missing hx)
  obtain ⟨v, hv, -, h1⟩ := (h.energies i x).mp hx
  exact ⟨hx, (h.part i).mpr (.inl ⟨v, hv, h1⟩)⟩

theorem isIncident_iff (i : Fin r.n) : (r.group record own P S φ).isIncident i ↔
    (r.D i).channel.isIncident = true := by
  unfold RGroup.isIncident Channel.isIncident
  rw [beq_iff_eq]

theorem takesPart (h : RecordOf K lib p pairs pair q record r) {i : Fin r.n}
    (ht : (r.group record own P S φ).TakesPart i) : i ∈ r.kept := by
  obtain ⟨h1, h2⟩ := ht
  have h1 : (r.D i).eliminated = false := Bool.eq_false_iff.mpr h1
  refine mem_kept.mpr ⟨?_, h1⟩
  rcases h2 with h2 | ⟨v, hv, h2⟩
  · exact (h.part i).mpr (.inr ((isIncident_iff i).mp h2))
  · obtain ⟨a, -, rfl⟩ := List.mem_map.mp hv
    exact (h.mem_part_of_width h2).2

theorem captureHalf (h : RecordOf K lib p pairs pair q record r) (x : ℝ) :
    (r.group record own P S φ).captureHalf ⟨x, fun i => lastWidth (r.D i) x⟩
      = (r.elim.map fun i => lastWidth (r.D i) x).sum ^ 2 := by
  classical
  have hz : ∀ i : Fin r.n, i ∉ r.elim → (r.D i).eliminated = true → lastWidth (r.D i) x = 0 := by
    intro i hi he
    by_contra hw
    exact hi (mem_elim.mpr ⟨(h.mem_part_of_width hw).2, he⟩)
  refine Eq.trans (b := ∑ i : Fin r.n, if (r.D i).eliminated = true then lastWidth (r.D i) x ^ 2 else 0)
    ?_ ?_
  · unfold RGroup.captureHalf
    refine Finset.sum_congr rfl fun i _ => ?_
    by_cases hi : (r.D i).eliminated = true
    · rw [if_pos hi, if_pos hi]
    · rw [if_neg hi, if_neg hi]
  rcases h.good.single with h0 | ⟨i, h0⟩
  · rw [h0, Finset.sum_eq_zero]
    · simp
    · intro i _
      split
      · rename_i he
        rw [hz i (by rw [h0]; simp) he]
        simp
      · rfl
  · rw [h0]
    have hi := mem_elim.mp (by rw [h0]; simp : i ∈ r.elim)
    rw [Finset.sum_eq_single i]
    · rw [if_pos hi.2]
      simp
    · intro j _ hj
      rw [if_neg]
      intro he
      exact hj (h.single j i he hi.2)
    · simp

theorem amplitude_kept {i : Fin r.n} (hi : i ∈ r.kept) (x : ℝ) [Decidable ((r.D i).channel.belowThreshold E)] :
    (r.group record own P S φ).amplitude E ⟨x, fun i => lastWidth (r.D i) x⟩ i
      = if (r.D i).channel.belowThreshold E then 0 else lastWidth (r.D i) x := by
  unfold RGroup.amplitude
  have h1 : ¬ (r.D i).eliminated = true := by
    rw [(mem_kept.mp hi).2]
    simp
  by_cases h2 : (r.D i).channel.belowThreshold E
  · rw [if_pos h2]
    exact if_pos (.inr h2)
  · rw [if_neg h2]
    exact if_neg (not_or.mpr ⟨h1, h2⟩)

theorem amplitude_outside (h : RecordOf K lib p pairs pair q record r) {i : Fin r.n} (hi : i ∉ r.kept) (x : ℝ) :
    (r.group record own P S φ).amplitude E ⟨x, fun i => lastWidth (r.D i) x⟩ i = 0 := by
  unfold RGroup.amplitude
  split
  · rfl
  rename_i h1
  rw [not_or] at h1
  have h1 : (r.D i).eliminated = false := Bool.eq_false_iff.mpr h1.1
  by_contra hw
  exact hi (mem_kept.mpr ⟨(h.mem_part_of_width hw).2, h1⟩)

theorem R_apply (i j : Fin r.n) : (r.group record own P S φ).R E i j = (record.resonances.map fun v =>
    ((r.group record own P S φ).amplitude E ⟨v.1, fun i => lastWidth (r.D i) v.1⟩ i : ℂ)
      * (r.group record own P S φ).amplitude E ⟨v.1, fun i => lastWidth (r.D i) v.1⟩ j
      / ((v.1 : ℂ) - E
        - I * (r.group record own P S φ).captureHalf ⟨v.1, fun i => lastWidth (r.D i) v.1⟩)).sum := by
  unfold RGroup.R
  show ((record.resonances.map _).map _).sum = _
  rw [List.map_map]
  rfl

theorem R_outside (h : RecordOf K lib p pairs pair q record r) {i j : Fin r.n} (hij : i ∉ r.kept ∨ j ∉ r.kept) :
    (r.group record own P S φ).R E i j = 0 := by
  rw [R_apply]
  refine List.sum_eq_zero fun z hz => ?_
  obtain ⟨v, -, rfl⟩ := List.mem_map.mp hz
  rcases hij with h1 | h1
  · rw [h.amplitude_outside h1]
    simp
  · rw [h.amplitude_outside h1]
    simp

/-- What is to be shown of a spin group. -/
theorem isRGroup (h : RecordOf K lib p pairs pair q record r)
    (hown : ∀ row ∈ p.pairs, (own ↔ row.shiftFactorFlag = 0))
    (hP : ∀ i ∈ r.kept, 0 ≤ P i ∧ PenetrabilityAt K lib (r.D i).channel E (P i))
    (hS : ∀ i ∈ r.kept, ¬ own → ShiftFactorAt K lib (r.D i).channel E (S i))
    (hφ : ∀ i ∈ r.kept, PhaseAt K lib (r.D i).channel E (φ i))
    (hf : ∀ v ∈ record.resonances, (∃ i, lastWidth (r.D i) v.1 ≠ 0) →
      ¬ (v.1 = E ∧ (r.elim.map fun i => lastWidth (r.D i) v.1).sum = 0))
    (hdet : (1 - (r.group record own P S φ).R E * Matrix.diagonal (r.group record own P S φ).L).det ≠ 0) :
    IsRGroup K lib pair pairs p E record (r.group record own P S φ) := by
  refine ⟨h.channels, fun i row pairRow h1 h2 => ⟨h.eliminated i row pairRow h1 h2,
    hown _ (List.mem_of_getElem? h2)⟩, fun i hi => hP i (h.takesPart hi),
    fun i hi ho => hS i (h.takesPart hi) ho, fun i hi => hφ i (h.takesPart hi), ?_, ?_, hdet⟩
  · refine forall₂_map fun v hv => ⟨rfl, fun i => h.widths i v hv⟩
  · intro v hv hc
    obtain ⟨a, ha, rfl⟩ := List.mem_map.mp hv
    rintro ⟨h1, h2⟩
    have h2 := (h.captureHalf a.1).symm.trans h2
    exact hf a ha hc ⟨h1, by simpa using h2⟩

/-- A record of which no channel takes part. -/
theorem exists_empty (h : RecordOf K lib p pairs pair q record r)
    (hown : ∀ row ∈ p.pairs, (own ↔ row.shiftFactorFlag = 0)) (h0 : r.part = []) :
    ∃ g, IsRGroup K lib pair pairs p E record g ∧ ∀ i, ¬ g.isIncident i := by
  have hk : ∀ i, i ∉ r.kept := by
    intro i hi
    have := (mem_kept.mp hi).1
    rw [h0] at this
    cases this
  refine ⟨r.group record own (fun _ => 0) (fun _ => 0) (fun _ => 0), h.isRGroup hown
    (fun i hi => absurd hi (hk i)) (fun i hi => absurd hi (hk i)) (fun i hi => absurd hi (hk i)) ?_ ?_, ?_⟩
  · rintro v - ⟨i, hi⟩
    have := (h.mem_part_of_width hi).2
    rw [h0] at this
    cases this
  · have : (r.group record own (fun _ => 0) (fun _ => 0) (fun _ => 0)).R E = 0 := by
      ext i j
      exact h.R_outside (.inl (hk i))
    rw [this, Matrix.zero_mul, sub_zero, Matrix.det_one]
    exact one_ne_zero
  · intro i hi
    have := (h.part i).mpr (.inr ((isIncident_iff i).mp hi))
    rw [h0] at this
    cases this

/-- A record that makes a spin group. -/
theorem exists_group (h : RecordOf K lib p pairs pair q record r) (hn : (record.resonances.map Prod.fst).Nodup)
    {option : BoundaryOption} (hown : ∀ row ∈ p.pairs, (option = .shiftFactor ↔ row.shiftFactorFlag = 0))
    {channels : List Channel} {resonances : List Resonance} {P S w phi : Fin channels.length → ℝ}
    (hch : channels = r.kept.map fun i => (r.D i).channel) (ht : r.Table resonances)
    (hev : Evaluable option K lib channels resonances E P S w phi) :
    ∃ g e, IsRGroup K lib pair pairs p E record g ∧
      Embeds K E option g channels resonances e P S w phi := by
  classical
  obtain ⟨e, he1, he2, he3, he4⟩ := exists_embedding
    (List.Nodup.filter (fun i => !(r.D i).eliminated) h.nodup : r.kept.Nodup) hch
  have hke : ∀ a, e a ∈ r.kept := fun a => (he2 _).mp ⟨a, rfl⟩
  have hl : ∀ a, (r.D (e a)).channel.type = .neutron → (r.D (e a)).channel.numbers.l ≤ 4 := by
    intro a ht
    have h1 := penetrabilityAt (hev.penetrability a)
    rw [he3] at h1
    unfold PenetrabilityAt at h1
    rw [ht] at h1
    exact h1.1
  have hph : ∀ a, ∃ φ, PhaseAt K lib (r.D (e a)).channel E φ ∧
      ((r.D (e a)).channel.type ≠ .charged → φ = phi a) := by
    intro a
    have h1 := hev.phase a
    rw [he3] at h1
    exact phaseAt (hl a) h1
  choose φ hφ1 hφ2 using hph
  have hmemE : ∀ x (i : Fin r.n), x ∈ (r.D i).energies → i ∈ r.part → ∃ v ∈ resonances, v.energy = x := by
    intro x i hx hi
    exact List.mem_map.mp ((ht.energies x).mpr ⟨i, hi, hx⟩)
  let g := r.group record (option = .shiftFactor) (Function.extend e P 0) (Function.extend e S 0)
    (Function.extend e φ 0)
  have hwidth : ∀ v ∈ resonances, ∀ a : Fin channels.length, v.width a = lastWidth (r.D (e a)) v.energy := by
    intro v hv a
    unfold Resonance.width
    rw [ht.widths v hv]
    exact he4 (fun i => lastWidth (r.D i) v.energy) a
  have hemb : Embeds K E option g channels resonances e P S w phi := by
    refine ⟨he1, he3, fun i hi => ?_, fun a b => ?_, fun i j hij => ?_, fun i => Iff.rfl,
      fun a => he1.extend_apply _ _ _, fun a => he1.extend_apply _ _ _, fun a ha => ?_, fun a ha => ?_⟩
    · have h1 := (isIncident_iff (record := record) i).mp hi
      exact (he2 i).mpr (mem_kept.mpr ⟨(h.part i).mpr (.inr h1), (h.incident i h1).1⟩)
    · let A : ℝ → Fin channels.length → ℝ := fun x a =>
        if (r.D (e a)).channel.belowThreshold E then 0 else lastWidth (r.D (e a)) x
      let G : ℝ → ℂ := fun x => (A x a : ℂ) * A x b
        / ((x : ℂ) - E - I * (((r.elim.map fun i => lastWidth (r.D i) x).sum : ℝ) : ℂ) ^ 2)
      have e1 : rMatrix channels resonances E a b = ((resonances.map Resonance.energy).map G).sum := by
        unfold rMatrix
        rw [Matrix.of_apply, List.map_map]
        congr 1
        refine List.map_congr_left fun v hv => ?_
        have e2 : ∀ a, amplitude channels E v a = A v.energy a := by
          intro a
          unfold amplitude
          rw [hwidth v hv]
          have := he3 a
          simp only [A, ← this]
        simp only [Function.comp, G]
        rw [e2, e2, ht.eliminated v hv]
      have e3 : g.R E (e a) (e b) = (record.resonances.map fun v => G v.1).sum := by
        refine (R_apply (e a) (e b)).trans ?_
        congr 1
        refine List.map_congr_left fun v _ => ?_
        rw [amplitude_kept (hke a), amplitude_kept (hke b), h.captureHalf]
        simp only [G, A]
        push_cast
        rfl
      rw [e1, e3]
      symm
      refine sum_keys (key := Prod.fst) hn (ht.sorted.imp fun h => h.ne) ?_ (fun v _ _ => rfl) ?_
      · intro x hx
        obtain ⟨i, -, hi⟩ := (ht.energies x).mp hx
        obtain ⟨v, hv, h1, -⟩ := (h.energies i x).mp hi
        exact List.mem_map.mpr ⟨v, hv, h1⟩
      · intro v hv hx
        have : A v.1 a = 0 := by
          simp only [A]
          split
          · rfl
          · refine Blocks.lastWidth_missing fun hmem => hx ?_
            exact (ht.energies _).mpr ⟨e a, (mem_kept.mp (hke a)).1, hmem⟩
        simp only [G, this, ofReal_zero, zero_mul, zero_div]
    · refine h.R_outside ?_
      exact hij.imp (fun h1 h2 => h1 ((he2 i).mpr h2)) fun h1 h2 => h1 ((he2 j).mpr h2)
    · have h1 := (h.incident _ ((isIncident_iff (record := record) _).mp ha)).2.2.2
      refine (he1.extend_apply _ _ _).trans (hφ2 a ?_)
      rw [h1]
      simp
    · have h1 := (h.incident _ ((isIncident_iff (record := record) _).mp ha)).2.2.2
      have h2 := hev.coulomb a
      rw [he3] at h2
      exact coulomb_neutral (by rw [h1]; simp) h2
  refine ⟨g, e, h.isRGroup hown ?_ ?_ ?_ ?_ (hemb.matrix hev).1, hemb⟩
  · intro i hi
    obtain ⟨a, rfl⟩ := (he2 i).mpr hi
    rw [he1.extend_apply]
    have h1 := penetrabilityAt (hev.penetrability a)
    rw [he3] at h1
    exact ⟨hev.nonneg a, h1⟩
  · intro i hi ho
    obtain ⟨a, rfl⟩ := (he2 i).mpr hi
    rw [he1.extend_apply]
    have h1 := hev.shiftFactor (by cases option <;> simp_all) a
    rw [he3] at h1
    exact shiftFactorAt (hl a) h1
  · intro i hi
    obtain ⟨a, rfl⟩ := (he2 i).mpr hi
    rw [he1.extend_apply]
    exact hφ1 a
  · rintro v hv ⟨i, hi⟩ ⟨h1, h2⟩
    obtain ⟨h3, h4⟩ := h.mem_part_of_width hi
    obtain ⟨v', hv', h5⟩ := hmemE _ i h3 h4
    refine hev.noPole v' hv' ⟨h5.trans h1, ?_⟩
    rw [ht.eliminated v' hv', h5]
    exact h2

/-- The factor of a spin group. -/
theorem factor (h : RecordOf K lib p pairs pair q record r) {channels : List Channel}
    (hμ : 0 ≤ pair.reducedMass)
    (hch : channels = r.kept.map fun i => (r.D i).channel)
    (hw : ∃ c, channels.find? Channel.isIncident = some c ∧ c.waveNumber K E ≠ 0) :
    2 * pair.reducedMass * |pair.massRatio * E + q| ≠ 0 ∧
    incidentFactor K channels E
      = Real.pi / (2 * pair.reducedMass * |pair.massRatio * E + q| / K.hbar ^ 2) * groupFactor pair record := by
  obtain ⟨c, hc, h0⟩ := hw
  have hmem := List.mem_of_find?_eq_some hc
  have hinc := List.find?_some hc
  rw [hch] at hmem
  obtain ⟨i, -, rfl⟩ := List.mem_map.mp hmem
  obtain ⟨-, h1, h2, -⟩ := h.incident i hinc
  obtain ⟨-, h3, h4, -⟩ := h.made i
  unfold Channel.waveNumber at h0
  rw [h1, h2, h4, mul_comm E] at h0
  have hk : (r.D i).channel.waveNumber K E ^ 2
      = 2 * pair.reducedMass * |pair.massRatio * E + q| / K.hbar ^ 2 := by
    unfold Channel.waveNumber
    rw [h1, h2, h4, mul_comm E, div_pow, Real.sq_sqrt (by positivity)]
  refine ⟨fun h5 => h0 (by rw [h5, Real.sqrt_zero, zero_div]), ?_⟩
  unfold incidentFactor
  rw [hc]
  simp only
  rw [hk, h3, h1]
  congr 2
  unfold statisticalSpinFactor groupFactor
  rw [div_div]

end RecordOf

end Verif.Endf
