import Verif.Props.Unitarity
import Verif.Props.RMatrixRangeMore

/-!
# Property C74 for R-matrix-limited ranges
-/

namespace Verif.Endf

open Spec

/-- The number of elastic channels of a spin group of the evaluation, if the elastic pair is number
`i + 1`. -/
def entranceChannels (i : ℕ) (record : SpinGroupRecord) : ℕ :=
  (record.channels.filter fun row => row.pairNumber = i + 1).length

variable {K : Constants} {lib : CoulombLibrary} {tables : InterpolationLibrary}
  {reactions : ReactionLibrary} {initialBreitWigner : Channel → Verif.BreitWigner.Cache}
  {initial : (g : SpinGroup) → MatrixCache g.channels.length} {neutronMass elementaryCharge E : ℝ}
  {incident target : Str} {range : Range} {p : RMatrixLimited} {R R' : Reconstructor}
  {m : ReactionMap} {pairs : List ParticlePair} {pair : ParticlePair}

/-! ## Where the channels come from -/

/-- A channel made of a row of the evaluation. -/
structure FromRow (pair : ParticlePair) (pairs : List ParticlePair) (rows : List ParticlePairRow)
    (record : SpinGroupRecord) (row : ChannelRow) (c : Channel) : Prop where
  number : row.pairNumber ≠ 0
  pair_eq : pairs[row.pairNumber - 1]? = some c.pair
  q_eq : ∃ r, rows[row.pairNumber - 1]? = some r ∧ c.q = r.q
  incident_eq : c.incident = pair
  reaction_eq : c.reaction = makeReactionID pair.id c.pair.id
  spin : c.numbers.J = |record.spin|
  factor : c.spinFactor = statisticalSpinFactor |record.spin| c.pair.particle.spin c.pair.residual.spin

theorem zip_sublist {α β : Type} (l : List α) (l' : List β) : ((l.zip l').map Prod.snd).Sublist l' := by
  induction l generalizing l' with
  | nil => simp
  | cons a l ih =>
    cases l' with
    | nil => simp
    | cons b l' => simpa using (ih l')

theorem zip_sublist' {α β : Type} (l : List α) (l' : List β) : ((l.zip l').map Prod.fst).Sublist l := by
  induction l generalizing l' with
  | nil => simp
  | cons a l ih =>
    cases l' with
    | nil => simp
    | cons b l' => simpa using (ih l')

theorem channels_from {rows : List ParticlePairRow} {record : SpinGroupRecord} {channels : List Channel}
    (h : makeParticleChannels pair pairs rows record = .ok channels) :
    ∃ used, used.Sublist record.channels ∧ List.Forall₂ (FromRow pair pairs rows record) used channels := by
  unfold makeParticleChannels at h
  dsimp only at h
  generalize hz : (List.replicate pairs.length pair).zip (record.channels.zip
    (rows.map ParticlePairRow.mt)) = z at h
  refine ⟨z.map fun e => e.2.1, ?_, ?_⟩
  · have h1 : ((z.map Prod.snd).map Prod.fst).Sublist record.channels := by
      rw [← hz]
      exact ((zip_sublist _ _).map Prod.fst).trans (zip_sublist' _ _)
    rwa [List.map_map] at h1
  · have h2 : ∀ e ∈ z, e.1 = pair := by
      intro e he
      rw [← hz] at he
      exact List.eq_of_mem_replicate (List.of_mem_zip he).1
    have h1 := mapM_ok.mp h
    clear hz h
    induction h1 with
    | nil => exact .nil
    | @cons e c z cs h3 _ ih =>
      refine .cons ?_ (ih fun e he => h2 e (List.mem_cons_of_mem _ he))
      obtain ⟨inc, row, mt⟩ := e
      have h4 : inc = pair := h2 _ List.mem_cons_self
      subst h4
      dsimp only at h3
      split at h3
      · cases h3
      rename_i h0
      split at h3
      · rename_i q r hq hr
        cases h3
        exact ⟨h0, hq, ⟨r, hr, rfl⟩, rfl, rfl, rfl, rfl⟩
      · cases h3

/-- The system that an R-matrix-limited range is turned into. -/
theorem limited_system {s : CompoundSystem}
    (hpairs : List.Forall₂ (IsPair reactions neutronMass elementaryCharge incident target) p.pairs pairs)
    (h : makeRMatrixCompoundSystem K lib initial reactions neutronMass elementaryCharge incident target p
      = .ok s) :
    ∃ (i : ℕ) (row : ParticlePairRow) (pair : ParticlePair) (data : List (List ChannelData))
      (consolidated : List ChannelData), p.pairs[i]? = some row ∧ row.mt = 2 ∧ pairs[i]? = some pair ∧
      List.Forall₂ (fun record l => makeParticleChannelData K lib pair pairs p.pairs
        (p.reducedWidths != 0) record = .ok l) p.spinGroups data ∧
      (∀ d ∈ data.flatten, d.energies.length = d.widths.length) ∧
      consolidateChannelData data.flatten = .ok consolidated ∧
      makeCompoundSystemFromData initial consolidated = .ok s := by
  obtain ⟨-, i, row, prs, pair, a1, a2, a3, a4, a5, -⟩ := C48_partial h
  obtain rfl := pairs_eq hpairs (isPairs_of a4)
  unfold makeRMatrixCompoundSystem at h
  obtain ⟨prs, h1, h⟩ := bind_ok.mp h
  rw [a4] at h1
  cases h1
  split at h
  · cases h
  rename_i pair' hpair
  obtain ⟨data, h2, h5⟩ := bind_ok.mp h
  obtain ⟨consolidated, h3, h4⟩ := bind_ok.mp h5
  have hgroups := mapM_ok.mp h2
  have hi : findParticlePair p.pairs 2 = i := by
    obtain ⟨hlt, hrow⟩ := List.getElem?_eq_some_iff.mp a1
    unfold findParticlePair
    rw [List.findIdx_eq hlt]
    refine ⟨by rw [hrow]; simpa using a2, fun j hj => ?_⟩
    have := a3 j hj _ (List.getElem?_eq_getElem (hj.trans hlt))
    simpa using this
  rw [hi, a5] at hpair
  cases hpair
  refine ⟨i, row, pair, data, consolidated, a1, a2, a5, hgroups, ?_, h3, h4⟩
  intro d hd
  obtain ⟨l, hl, hd⟩ := List.mem_flatten.mp hd
  obtain ⟨group, -, hg⟩ := forall₂_mem_right hgroups hl
  exact rmatrix_lengths hg d hd

/-! ## Sums over channels -/

theorem sum_filter_keys {κ : Type} [DecidableEq κ] {α : Type} (key : α → κ) (g : α → ℝ)
    (hg : ∀ a, 0 ≤ g a) (l : List α) {keys : List κ} (hk : keys.Nodup) :
    (keys.map fun x => ((l.filter fun a => key a = x).map g).sum).sum ≤ (l.map g).sum := by
  induction l with
  | nil => simp
  | cons a l ih =>
    have e : ∀ x, (((a :: l).filter fun a => key a = x).map g).sum
        = (if x = key a then g a else 0) + ((l.filter fun a => key a = x).map g).sum := by
      intro x
      by_cases hx : key a = x
      · rw [List.filter_cons_of_pos (by simpa using hx), if_pos hx.symm, List.map_cons, List.sum_cons]
      · rw [List.filter_cons_of_neg (by simpa using hx), if_neg (Ne.symm hx), zero_add]
    simp only [e, List.sum_map_add, List.map_cons, List.sum_cons]
    refine add_le_add ?_ ih
    clear ih e
    induction keys with
    | nil => simpa using hg a
    | cons x keys ih =>
      rw [List.nodup_cons] at hk
      rw [List.map_cons, List.sum_cons]
      by_cases hx : x = key a
      · rw [if_pos hx]
        have : (keys.map fun x => if x = key a then g a else 0).sum = 0 := by
          refine List.sum_eq_zero fun y hy => ?_
          obtain ⟨z, hz, rfl⟩ := List.mem_map.mp hy
          rw [if_neg]
          rintro rfl
          exact hk.1 (hx ▸ hz)
        rw [this, add_zero]
      · rw [if_neg hx, zero_add]
        exact ih hk.2

theorem sum_sublist {α : Type} {g : α → ℝ} (hg : ∀ a, 0 ≤ g a) {l l' : List α} (h : l.Sublist l') :
    (l.map g).sum ≤ (l'.map g).sum :=
  List.Sublist.sum_le_sum (h.map g) fun x hx => by
    obtain ⟨a, -, rfl⟩ := List.mem_map.mp hx
    exact hg a

theorem data_sum {rows : List ParticlePairRow} {reduced : Bool} {record : SpinGroupRecord}
    {data : List ChannelData} {g : Channel → ℝ} (hg : ∀ c, 0 ≤ g c)
    (h : makeParticleChannelData K lib pair pairs rows reduced record = .ok data) :
    ∃ channels, makeParticleChannels pair pairs rows record = .ok channels ∧
      (data.map fun d => g d.channel).sum ≤ (channels.map g).sum := by
  obtain ⟨channels, q, all, h1, h2, rfl, h3⟩ := makeParticleChannelData_ok h
  refine ⟨channels, h1, ?_⟩
  have h4 : ((all.filterMap id).map fun d => g d.channel).sum
      ≤ ((channels.zipIdx).map fun e => g e.1).sum := by
    generalize (channels.findIdx fun c => q.id == c.pair.id) = k at h3
    generalize channels.zipIdx = z at h3
    clear h h1 h2
    induction h3 with
    | nil => simp
    | @cons e o z os h5 _ ih =>
      rw [List.map_cons, List.sum_cons]
      cases o with
      | none =>
        rw [List.filterMap_cons_none (by rfl)]
        exact ih.trans (le_add_of_nonneg_left (hg _))
      | some d =>
        rw [List.filterMap_cons_some (b := d) (by rfl), List.map_cons, List.sum_cons]
        refine add_le_add (le_of_eq ?_) ih
        congr 1
        obtain ⟨-, ⟨-, h6⟩ | ⟨-, -, widths, h6, -⟩⟩ := channelDatum_some h5
        · split at h6
          · cases h6; rfl
          · cases h6
        · cases h6; rfl
  have h5 : ((channels.zipIdx).map fun e => g e.1) = channels.map g := by
    conv_rhs => rw [← List.zipIdx_map_fst 0 channels, List.map_map]
    rfl
  rwa [h5] at h4

/-! ## The limits -/

theorem factor_nonneg {rows : List ParticlePairRow} {record : SpinGroupRecord} {row : ChannelRow}
    {c : Channel} (h : FromRow pair pairs rows record row c)
    (hs : ∀ q ∈ pairs, 0 ≤ q.particle.spin ∧ 0 ≤ q.residual.spin) : 0 ≤ c.spinFactor := by
  obtain ⟨h1, h2⟩ := hs _ (List.mem_of_getElem? h.pair_eq)
  rw [h.factor]
  unfold statisticalSpinFactor
  have := abs_nonneg record.spin
  positivity

theorem spins_nonneg
    (hpairs : List.Forall₂ (IsPair reactions neutronMass elementaryCharge incident target) p.pairs pairs) :
    ∀ q ∈ pairs, 0 ≤ q.particle.spin ∧ 0 ≤ q.residual.spin := by
  intro q hq
  obtain ⟨row, -, h⟩ := forall₂_mem_right hpairs hq
  exact ⟨by rw [h.first.1]; exact abs_nonneg _, by rw [h.second.1]; exact abs_nonneg _⟩

/-- What one elastic channel of a spin group contributes to the limit. -/
noncomputable def entranceLimit (K : Constants) (E : ℝ) (pair : ParticlePair) (c : Channel) : ℝ :=
  if c.pair.id = pair.id then Real.pi / c.waveNumber K E ^ 2 * |(c.spinFactor : ℝ)| else 0

theorem entranceLimit_nonneg (c : Channel) : 0 ≤ entranceLimit K E pair c := by
  unfold entranceLimit
  split
  · have := Real.pi_pos
    positivity
  · rfl

/-- The channels of one spin group of the evaluation. -/
theorem record_limit {i : ℕ} {row : ParticlePairRow} {record : SpinGroupRecord} {channels : List Channel}
    (hids : (pairs.map ParticlePair.id).Nodup) (hi : pairs[i]? = some pair) (hrow : p.pairs[i]? = some row)
    (hs : ∀ q ∈ pairs, 0 ≤ q.particle.spin ∧ 0 ≤ q.residual.spin) (hmu : 0 ≤ pair.reducedMass)
    (h : makeParticleChannels pair pairs p.pairs record = .ok channels) :
    (channels.map (entranceLimit K E pair)).sum
      ≤ Real.pi / (2 * pair.reducedMass * |pair.massRatio * E + row.q| / K.hbar ^ 2)
        * (groupFactor pair record * entranceChannels i record) := by
  obtain ⟨used, h1, h2⟩ := channels_from h
  have h3 : (channels.map (entranceLimit K E pair)).sum
      = Real.pi / (2 * pair.reducedMass * |pair.massRatio * E + row.q| / K.hbar ^ 2)
        * (groupFactor pair record * (used.filter fun row => row.pairNumber = i + 1).length) := by
    clear h1 h
    induction h2 with
    | nil => simp
    | @cons r c used channels h4 _ ih =>
      rw [List.map_cons, List.sum_cons, ih]
      by_cases hr : r.pairNumber = i + 1
      · rw [List.filter_cons_of_pos (by simpa using hr), List.length_cons]
        have e1 := h4.pair_eq
        rw [hr, Nat.add_sub_cancel, hi] at e1
        have e1 := (Option.some.inj e1).symm
        obtain ⟨r', e2, e3⟩ := h4.q_eq
        rw [hr, Nat.add_sub_cancel, hrow] at e2
        obtain rfl := Option.some.inj e2
        have e4 : c.waveNumber K E ^ 2
            = 2 * pair.reducedMass * |pair.massRatio * E + row.q| / K.hbar ^ 2 := by
          unfold Channel.waveNumber
          rw [div_pow, Real.sq_sqrt (by rw [e1]; positivity), e1, e3, h4.incident_eq, mul_comm E]
        have e5 : |(c.spinFactor : ℝ)| = groupFactor pair record := by
          rw [abs_of_nonneg (by exact_mod_cast factor_nonneg h4 hs), h4.factor, e1]
          unfold statisticalSpinFactor groupFactor
          rw [div_div]
        unfold entranceLimit
        rw [if_pos (by rw [e1]), e4, e5]
        push_cast
        ring
      · rw [List.filter_cons_of_neg (by simpa using hr)]
        have e1 : c.pair.id ≠ pair.id := by
          intro e1
          obtain ⟨l1, g1⟩ := List.getElem?_eq_some_iff.mp h4.pair_eq
          obtain ⟨l2, g2⟩ := List.getElem?_eq_some_iff.mp hi
          have := (List.nodup_iff_injective_get.mp hids)
            (a₁ := ⟨r.pairNumber - 1, by simpa using l1⟩) (a₂ := ⟨i, by simpa using l2⟩) (by
              simp [g1, g2, e1])
          have e6 := Fin.mk.inj_iff.mp this
          have := h4.number
          omega
        unfold entranceLimit
        rw [if_neg e1, zero_add]
  rw [h3]
  have hpi := Real.pi_pos
  have hg : (0 : ℝ) ≤ groupFactor pair record := by
    obtain ⟨s1, s2⟩ := hs pair (List.mem_of_getElem? hi)
    have := abs_nonneg record.spin
    have : 0 ≤ groupFactor pair record := by
      unfold groupFactor
      positivity
    exact_mod_cast this
  refine mul_le_mul_of_nonneg_left (mul_le_mul_of_nonneg_left ?_ hg) (by positivity)
  exact_mod_cast (h1.filter _).length_le

/-- Elastic channels of the same pair with the same J have the same factor. -/
theorem group_limit {channels : List Channel}
    (h : ∀ c ∈ channels, ∀ d ∈ channels, c.pair.id = pair.id → d.pair.id = pair.id →
      c.waveNumber K E = d.waveNumber K E ∧ c.spinFactor = d.spinFactor)
    (hinc : ∀ c ∈ channels, c.incident = pair) :
    unitarityLimit K channels E ≤ (channels.map (entranceLimit K E pair)).sum := by
  unfold unitarityLimit incidentFactor
  cases hf : channels.find? Channel.isIncident with
  | none =>
    dsimp only
    rw [mul_zero]
    refine List.sum_nonneg fun x hx => ?_
    obtain ⟨c, -, rfl⟩ := List.mem_map.mp hx
    exact entranceLimit_nonneg c
  | some first =>
    dsimp only
    have hfirst := List.mem_of_find?_eq_some hf
    have hfi : first.pair.id = pair.id := by
      have := List.find?_some hf
      unfold Channel.isIncident at this
      rw [← hinc first hfirst]
      exact beq_iff_eq.mp this
    have hX : ∀ c ∈ channels, c.pair.id = pair.id →
        Real.pi / first.waveNumber K E ^ 2 * first.spinFactor ≤ entranceLimit K E pair c := by
      intro c hc hci
      obtain ⟨k1, k2⟩ := h c hc first hfirst hci hfi
      unfold entranceLimit
      rw [if_pos hci, k1, k2]
      have := Real.pi_pos
      exact mul_le_mul_of_nonneg_left (le_abs_self _) (by positivity)
    generalize Real.pi / first.waveNumber K E ^ 2 * (first.spinFactor : ℝ) = X at hX
    clear hf hfirst h
    induction channels with
    | nil => simp
    | cons c cs ih =>
      have i1 := ih (fun d hd => hinc d (List.mem_cons_of_mem _ hd))
        fun d hd => hX d (List.mem_cons_of_mem _ hd)
      have e0 := hinc c List.mem_cons_self
      rw [List.map_cons, List.sum_cons]
      by_cases hc : c.pair.id = c.incident.id
      · rw [List.filter_cons_of_pos (by simpa using hc), List.length_cons]
        have := hX c List.mem_cons_self (by rw [hc, e0])
        push_cast
        linarith
      · rw [List.filter_cons_of_neg (by simpa using hc)]
        have := entranceLimit_nonneg (K := K) (E := E) (pair := pair) c
        linarith

/-- The channels of the compound system come from rows of the evaluation. -/
theorem system_rows {data : List (List ChannelData)} {consolidated : List ChannelData} {s : CompoundSystem}
    (h1 : List.Forall₂ (fun record l => makeParticleChannelData K lib pair pairs p.pairs
        (p.reducedWidths != 0) record = .ok l) p.spinGroups data)
    (h2 : ∀ d ∈ data.flatten, d.energies.length = d.widths.length)
    (h3 : consolidateChannelData data.flatten = .ok consolidated)
    (h4 : makeCompoundSystemFromData initial consolidated = .ok s) :
    ∀ st ∈ s, ∀ c ∈ st.group.channels, ∃ record row, FromRow pair pairs p.pairs record row c := by
  intro st hst c hc
  obtain ⟨d, hd, -, rfl⟩ := system_channel h2 h3 h4 hst hc
  obtain ⟨l, hl, hd⟩ := List.mem_flatten.mp hd
  obtain ⟨record, hgr, hg⟩ := forall₂_mem_right h1 hl
  obtain ⟨channels, hch, hmem⟩ := C42_rmatrix hg
  obtain ⟨i, hi, -⟩ := hmem d hd
  obtain ⟨used, -, hused⟩ := channels_from hch
  obtain ⟨row, -, hrow⟩ := forall₂_mem_right hused (List.mem_of_getElem? hi)
  exact ⟨record, row, hrow⟩

theorem sum_inl {m : CrossSectionMap} (ids : Finset (ReactionID ⊕ LegacyID)) :
    ∑ id ∈ ids, (ReactionMap.ofCrossSections m id).getD 0
      = ∑ id ∈ ids.toLeft, (m id).getD 0 := by
  conv_lhs => rw [← Finset.toLeft_disjSum_toRight (u := ids)]
  rw [Finset.sum_disjSum]
  simp [ReactionMap.ofCrossSections]

theorem entrance_row {i : ℕ} {row : ParticlePairRow} {record : SpinGroupRecord} {r : ChannelRow} {c : Channel}
    (hids : (pairs.map ParticlePair.id).Nodup) (hi : pairs[i]? = some pair) (hrow : p.pairs[i]? = some row)
    (h : FromRow pair pairs p.pairs record r c) (hc : c.pair.id = pair.id) :
    c.pair = pair ∧ c.q = row.q := by
  obtain ⟨l1, g1⟩ := List.getElem?_eq_some_iff.mp h.pair_eq
  obtain ⟨l2, g2⟩ := List.getElem?_eq_some_iff.mp hi
  have := (List.nodup_iff_injective_get.mp hids)
    (a₁ := ⟨r.pairNumber - 1, by simpa using l1⟩) (a₂ := ⟨i, by simpa using l2⟩) (by
      simp [g1, g2, hc])
  have e : r.pairNumber - 1 = i := Fin.mk.inj_iff.mp this
  obtain ⟨r', e2, e3⟩ := h.q_eq
  rw [e, hrow] at e2
  have e4 := h.pair_eq
  rw [e, hi] at e4
  exact ⟨(Option.some.inj e4).symm, by rw [e3, Option.some.inj e2]⟩

/-- The limits of the spin groups of the system are not more than those of the evaluation. -/
theorem system_limit {i : ℕ} {row : ParticlePairRow} {data : List (List ChannelData)}
    {consolidated : List ChannelData} {s : CompoundSystem}
    (hids : (pairs.map ParticlePair.id).Nodup) (hi : pairs[i]? = some pair) (hrow : p.pairs[i]? = some row)
    (hs : ∀ q ∈ pairs, 0 ≤ q.particle.spin ∧ 0 ≤ q.residual.spin) (hmu : 0 ≤ pair.reducedMass)
    (h1 : List.Forall₂ (fun record l => makeParticleChannelData K lib pair pairs p.pairs
        (p.reducedWidths != 0) record = .ok l) p.spinGroups data)
    (h2 : ∀ d ∈ data.flatten, d.energies.length = d.widths.length)
    (h3 : consolidateChannelData data.flatten = .ok consolidated)
    (h4 : makeCompoundSystemFromData initial consolidated = .ok s) :
    (s.map fun st => unitarityLimit K st.group.channels E).sum
      ≤ Real.pi / (2 * pair.reducedMass * |pair.massRatio * E + row.q| / K.hbar ^ 2)
        * (p.spinGroups.map fun record => (groupFactor pair record * entranceChannels i record : ℝ)).sum := by
  have hrows := system_rows h1 h2 h3 h4
  obtain ⟨jpis, k1, -, k3⟩ := C25_contents h4
  obtain ⟨merged, m1, m2, -⟩ := C28_consolidation data.flatten h2
  rw [h3] at m1
  have hcons := Except.ok.inj m1
  -- one group at a time
  have step1 : (s.map fun st => unitarityLimit K st.group.channels E).sum
      ≤ (jpis.map fun x => (((consolidated.filter fun d => ¬ d.eliminated).filter fun d =>
        toLex (d.channel.numbers.J, d.channel.numbers.parity) = x).map fun d =>
          entranceLimit K E pair d.channel).sum).sum := by
    clear k1 h4
    induction k3 with
    | nil => simp
    | @cons x st jpis s e1 _ ih =>
      rw [List.map_cons, List.sum_cons, List.map_cons, List.sum_cons]
      refine add_le_add ?_ (ih fun t ht => hrows t (List.mem_cons_of_mem _ ht))
      obtain ⟨-, -, e2, -⟩ := e1
      refine (group_limit (pair := pair) ?_ ?_).trans (le_of_eq ?_)
      · intro c hc d hd hci hdi
        obtain ⟨rc, wc, fc⟩ := hrows st List.mem_cons_self c hc
        obtain ⟨rd, wd, fd⟩ := hrows st List.mem_cons_self d hd
        obtain ⟨a1, a2⟩ := entrance_row hids hi hrow fc hci
        obtain ⟨b1, b2⟩ := entrance_row hids hi hrow fd hdi
        refine ⟨?_, ?_⟩
        · unfold Channel.waveNumber
          rw [a1, a2, b1, b2, fc.incident_eq, fd.incident_eq]
        · rw [e2] at hc hd
          obtain ⟨c', hc', rfl⟩ := List.mem_map.mp hc
          obtain ⟨d', hd', rfl⟩ := List.mem_map.mp hd
          have hc'' := (List.mem_filter.mp hc').2
          have hd'' := (List.mem_filter.mp hd').2
          simp only [decide_eq_true_eq] at hc'' hd''
          have e3 := hc''.2.trans hd''.2.symm
          have e4 : c'.channel.numbers.J = d'.channel.numbers.J := congrArg Prod.fst (toLex.injective e3)
          rw [fc.factor, fd.factor, ← fc.spin, ← fd.spin, e4, a1, b1]
      · intro c hc
        obtain ⟨rc, wc, fc⟩ := hrows st List.mem_cons_self c hc
        exact fc.incident_eq
      · rw [e2, List.map_map, List.filter_filter]
        congr 2
        refine List.filter_congr fun d _ => ?_
        by_cases k : toLex (d.channel.numbers.J, d.channel.numbers.parity) = x <;> simp [k]
  have step2 := sum_filter_keys (fun d : ChannelData => toLex (d.channel.numbers.J,
    d.channel.numbers.parity)) (fun d => entranceLimit K E pair d.channel)
    (fun d => entranceLimit_nonneg _) (consolidated.filter fun d => ¬ d.eliminated) (keys := jpis)
    (k1.imp fun h => h.ne)
  have step3 : ((consolidated.filter fun d => ¬ d.eliminated).map fun d =>
      entranceLimit K E pair d.channel).sum
      ≤ (data.flatten.map fun d => entranceLimit K E pair d.channel).sum := by
    have e : (consolidated.filter fun d => ¬ d.eliminated)
        = data.flatten.filter fun d => ¬ d.eliminated := by
      rw [hcons, List.filter_append, List.filter_filter]
      have : merged.filter (fun d => ¬ d.eliminated) = [] := by
        rw [List.filter_eq_nil_iff]
        intro d hd
        simp [m2 d hd]
      rw [this, List.append_nil]
      refine List.filter_congr fun d _ => ?_
      simp
    rw [e]
    exact sum_sublist (g := fun d : ChannelData => entranceLimit K E pair d.channel)
      (fun d => entranceLimit_nonneg _) (List.filter_sublist (l := data.flatten))
  have step4 : (data.flatten.map fun d => entranceLimit K E pair d.channel).sum
      ≤ Real.pi / (2 * pair.reducedMass * |pair.massRatio * E + row.q| / K.hbar ^ 2)
        * (p.spinGroups.map fun record => (groupFactor pair record * entranceChannels i record : ℝ)).sum := by
    clear h3 h4 hrows k3 step1 step2 step3 hcons m1 k1 h2
    generalize p.spinGroups = records at h1
    induction h1 with
    | nil => simp
    | @cons record l records data e1 _ ih =>
      rw [List.flatten_cons, List.map_append, List.sum_append, List.map_cons, List.sum_cons, mul_add]
      refine add_le_add ?_ ih
      obtain ⟨channels, c1, c2⟩ := data_sum (g := entranceLimit K E pair) entranceLimit_nonneg e1
      exact c2.trans (record_limit hids hi hrow hs hmu c1)
  exact step1.trans (step2.trans (step3.trans step4))

/-- C74, R-matrix-limited ranges of all kinds, with any pairs of particles, flags and order of channels: no
cross section is negative, all of them together do not exceed `4π/k² Σ g n`, and all but elastic scattering
together do not exceed `π/k² Σ g n`, where the sum is over the spin groups of the evaluation and `n` is the
number of elastic channels that it gives for the group. -/
theorem C74_rmatrix_limited
    (hR : fromENDF K lib tables reactions initialBreitWigner initial neutronMass elementaryCharge incident
      target range = .ok R)
    (hp : range.parameters = .rmatrixLimited p)
    (hpairs : List.Forall₂ (IsPair reactions neutronMass elementaryCharge incident target) p.pairs pairs)
    (hids : (pairs.map ParticlePair.id).Nodup)
    (hE : range.lower ≤ E ∧ E ≤ range.upper)
    (hm : R.call K lib E = .ok (m, R')) :
    ∃ (i : ℕ) (row : ParticlePairRow) (pair : ParticlePair),
      p.pairs[i]? = some row ∧ row.mt = 2 ∧ pairs[i]? = some pair ∧
      let limit := Real.pi / (2 * pair.reducedMass * |pair.massRatio * E + row.q| / K.hbar ^ 2)
        * (p.spinGroups.map fun record => (groupFactor pair record * entranceChannels i record : ℝ)).sum
      (∀ id, 0 ≤ (m id).getD 0) ∧
      (∀ ids : Finset (ReactionID ⊕ LegacyID), ∑ id ∈ ids, (m id).getD 0 ≤ 4 * limit) ∧
      ∀ ids : Finset (ReactionID ⊕ LegacyID), .inl (.elastic pair.id) ∉ ids →
        ∑ id ∈ ids, (m id).getD 0 ≤ limit := by
  obtain ⟨h1, h2, hsup, nro, -, h4⟩ := C47_dispatch hR
  unfold Reconstructor.call at hm
  rw [h1, h2, if_pos ⟨hE.1, hE.2⟩] at hm
  obtain ⟨⟨m1, system⟩, hv, hm⟩ := bind_ok.mp hm
  cases hm
  rw [hp] at h4
  unfold SystemVariant.evaluate at hv
  have key : ∀ {option : BoundaryOption} {s s' : CompoundSystem} {m : CrossSectionMap},
      makeRMatrixCompoundSystem K lib initial reactions neutronMass elementaryCharge incident target p
        = .ok s → CompoundSystem.evaluate option K lib E s (fun _ => none) = .ok (m, s') →
      ∃ (i : ℕ) (row : ParticlePairRow) (pair : ParticlePair),
        p.pairs[i]? = some row ∧ row.mt = 2 ∧ pairs[i]? = some pair ∧
        let limit := Real.pi / (2 * pair.reducedMass * |pair.massRatio * E + row.q| / K.hbar ^ 2)
          * (p.spinGroups.map fun record => (groupFactor pair record * entranceChannels i record : ℝ)).sum
        (∀ id, 0 ≤ (m id).getD 0) ∧ (∀ ids : Finset ReactionID, ∑ id ∈ ids, (m id).getD 0 ≤ 4 * limit) ∧
        ∀ ids : Finset ReactionID, .elastic pair.id ∉ ids → ∑ id ∈ ids, (m id).getD 0 ≤ limit := by
    intro option s s' m hs he
    obtain ⟨i, row, pair, data, consolidated, a1, a2, a3, a4, a5, a6, a7⟩ := limited_system hpairs hs
    have hsp := spins_nonneg hpairs
    have hrows := system_rows a4 a5 a6 a7
    have hmu : 0 ≤ pair.reducedMass := by
      obtain ⟨row', -, hq⟩ := forall₂_mem_right hpairs (List.mem_of_getElem? a3)
      rw [hq.reduced]
      obtain ⟨n1, n2, -⟩ := hq.notNegative
      positivity
    have hl := system_limit (E := E) hids a3 a1 hsp hmu a4 a5 a6 a7
    obtain ⟨b1, b2, b3⟩ := C74_system (constructed_of_data a7).1
      (fun st hst c hc => by
        obtain ⟨record, r, hr⟩ := hrows st hst c hc
        exact factor_nonneg hr hsp) he
    simp only [Option.getD_none, sub_zero] at b1 b2 b3
    refine ⟨i, row, pair, a1, a2, a3, b1, fun ids => (b2 ids).trans (by linarith), fun ids hids' =>
      (b3 ids fun st hst c hc hci => ?_).trans hl⟩
    obtain ⟨record, r, hr⟩ := hrows st hst c hc
    rw [hr.reaction_eq, makeReactionID, if_pos (by rw [hci, hr.incident_eq])]
    exact hids'
  have lift : ∀ {m : CrossSectionMap} {pair : ParticlePair} {limit : ℝ},
      (∀ id, 0 ≤ (m id).getD 0) ∧ (∀ ids : Finset ReactionID, ∑ id ∈ ids, (m id).getD 0 ≤ 4 * limit) ∧
        (∀ ids : Finset ReactionID, .elastic pair.id ∉ ids → ∑ id ∈ ids, (m id).getD 0 ≤ limit) →
      (∀ id, 0 ≤ (ReactionMap.ofCrossSections m id).getD 0) ∧ (∀ ids : Finset (ReactionID ⊕ LegacyID), ∑ id ∈ ids, (ReactionMap.ofCrossSections m id).getD 0 ≤ 4 * limit) ∧
      ∀ ids : Finset (ReactionID ⊕ LegacyID), .inl (.elastic pair.id) ∉ ids →
        ∑ id ∈ ids, (ReactionMap.ofCrossSections m id).getD 0 ≤ limit := by
    rintro m pair limit ⟨c1, c2, c3⟩
    refine ⟨fun id => ?_, fun ids => ?_, fun ids hids' => ?_⟩
    · cases id with
      | inl id => exact c1 id
      | inr id => exact le_rfl
    · rw [sum_inl]
      exact c2 _
    · rw [sum_inl]
      exact c3 _ (by simpa using hids')
  cases hs : R.system with
  | shiftFactor s =>
    rw [hs] at h4 hv
    dsimp only at hv
    obtain ⟨⟨m, s'⟩, hv2, hm⟩ := bind_ok.mp hv
    cases hm
    obtain ⟨i, row, pair, d1, d2, d3, d4⟩ := key h4 hv2
    exact ⟨i, row, pair, d1, d2, d3, lift d4⟩
  | constant s =>
    rw [hs] at h4 hv
    dsimp only at hv
    obtain ⟨⟨m, s'⟩, hv2, hm⟩ := bind_ok.mp hv
    cases hm
    obtain ⟨i, row, pair, d1, d2, d3, d4⟩ := key h4 hv2
    exact ⟨i, row, pair, d1, d2, d3, lift d4⟩
  | singleLevel s => rw [hs] at h4; exact h4.elim
  | multiLevel s => rw [hs] at h4; exact h4.elim
  | unresolved s => rw [hs] at h4; exact h4.elim

open Example in
/-- The example of C70, with any flags: one group with J = 2, one elastic channel and the factor 5/8. -/
example (K : Constants) (lib : CoulombLibrary) (tables : InterpolationLibrary)
    (initialBreitWigner : Channel → Verif.BreitWigner.Cache)
    (initial : (g : SpinGroup) → MatrixCache g.channels.length) (a b : ℤ) :
    ∃ R m R', fromENDF K lib tables reactionLibrary initialBreitWigner initial 1 1 "n".toList
      "Cl35".toList (waveRange a b) = .ok R ∧ R.call K lib 10 = .ok (m, R') ∧
      ∀ ids : Finset (ReactionID ⊕ LegacyID), ∑ id ∈ ids, (m id).getD 0
        ≤ 4 * (Real.pi / (2 * neutronPair.reducedMass * |neutronPair.massRatio * 10 + 0| / K.hbar ^ 2)
          * (5 / 8)) := by
  obtain ⟨R, m, R', h1, h2⟩ := wave_evaluates K lib tables initialBreitWigner initial a b
  have hp := wave_physical a b
  obtain ⟨i, row, pair, h3, h4, h5, -, h6, -⟩ := C74_rmatrix_limited h1 rfl hp.described hp.distinct
    (by norm_num [waveRange]) h2
  refine ⟨R, m, R', h1, h2, fun ids => (h6 ids).trans (le_of_eq ?_)⟩
  match i with
  | 0 =>
    cases h3
    exact absurd h4 (by norm_num)
  | 1 =>
    cases h3
    cases h5
    norm_num [waveEvaluation, waveRecord, entranceChannels, groupFactor, neutronPair]
  | i + 2 => cases h3

end Verif.Endf
