import Verif.Props.Endf

/-!
# Properties C30, C42 and C48: R-matrix-limited evaluations
-/

namespace Verif

namespace Endf

open Spec

/-! ## C30: channels -/

theorem isType_channelType (pair : ParticlePair) (mt : ℤ) : IsType pair mt (channelType pair mt) := by
  unfold channelType
  split
  · rename_i h
    subst h
    exact .capture
  rename_i h1
  split
  · rename_i h2
    exact .fission (by simpa using h2)
  rename_i h2
  have hm : mt ∉ [102, 18, 19, 20, 21, 38] := by
    simp only [List.mem_cons, List.not_mem_nil, or_false]
    rintro (h | h)
    · exact h1 h
    · exact h2 h
  split
  · rename_i h3
    exact .charged hm h3
  · rename_i h3
    exact .neutral hm (not_lt.mp h3)

theorem isType_unique {pair : ParticlePair} {mt : ℤ} {a b : ChannelType} (h : IsType pair mt a)
    (h' : IsType pair mt b) : a = b := by
  cases h <;> cases h' <;> first | rfl | (exfalso; simp_all; done) | (exfalso; linarith)

theorem spinParity_parityOf (spin : ℚ) (parity : ℤ) :
    SpinParity spin parity |spin| (parityOf spin parity) := by
  unfold SpinParity parityOf
  refine ⟨rfl, ?_, ?_⟩
  · split <;> split <;> simp
  · rcases lt_trichotomy spin 0 with h | rfl | h
    · simp [h.ne, not_lt.mpr h.le]
    · by_cases hp : 0 ≤ parity <;> simp [hp]
    · simp [h.ne', h]

theorem makeParticleChannels_length {incident : ParticlePair} {pairs : List ParticlePair}
    {rows : List ParticlePairRow} {group : SpinGroupRecord} {channels : List Channel}
    (hlen : pairs.length = rows.length)
    (h : makeParticleChannels incident pairs rows group = .ok channels) :
    channels.length = min group.channels.length rows.length := by
  unfold makeParticleChannels at h
  rw [mapM_length h]
  simp only [List.length_zip, List.length_replicate, List.length_map, hlen]
  omega

theorem makeParticleChannels_incident {incident : ParticlePair} {pairs : List ParticlePair}
    {rows : List ParticlePairRow} {group : SpinGroupRecord} {channels : List Channel}
    (h : makeParticleChannels incident pairs rows group = .ok channels) {c : Channel}
    (hc : c ∈ channels) : c.incident = incident := by
  unfold makeParticleChannels at h
  obtain ⟨⟨inc, row, mt⟩, hmem, hi⟩ := forall₂_mem_right (mapM_ok.mp h) hc
  have hinc := List.eq_of_mem_replicate (List.of_mem_zip hmem).1
  dsimp only at hi
  split at hi
  · cases hi
  split at hi
  · obtain rfl := Except.ok.inj hi
    exact hinc
  · cases hi

/-- C30 does not hold, first reason: of the channels of a spin group only as many are kept as there are
particle pairs. This is so for all evaluations. -/
theorem C30_dropped {incident : ParticlePair} {pairs : List ParticlePair}
    {rows : List ParticlePairRow} {group : SpinGroupRecord} {channels : List Channel}
    (hlen : pairs.length = rows.length) (hmore : rows.length < group.channels.length)
    (h : makeParticleChannels incident pairs rows group = .ok channels) :
    channels.length = rows.length ∧ channels.length < group.channels.length := by
  have := makeParticleChannels_length hlen h
  omega

/-- C30 in full. -/
def C30_claim : Prop := ∀ incident pairs rows group channels, pairs.length = rows.length →
  makeParticleChannels incident pairs rows group = .ok channels →
  List.Forall₂ (IsChannel incident pairs rows group.spin group.parity) group.channels channels

/-- C30 for spin groups that do not have more channels than there are particle pairs, refer to existing
pairs, and where the type of reaction of the pair at the position of each channel is that of the pair
which the channel refers to.

Missing: all other spin groups, see `C30_dropped` and `C30_disproved`. -/
theorem C30_partial (incident : ParticlePair) (pairs : List ParticlePair) (rows : List ParticlePairRow)
    (group : SpinGroupRecord) (hlen : pairs.length = rows.length)
    (hcount : group.channels.length ≤ rows.length)
    (hnumber : ∀ row ∈ group.channels, 1 ≤ row.pairNumber ∧ row.pairNumber ≤ rows.length)
    (htype : ∀ (i : ℕ) row, group.channels[i]? = some row → ∀ pair here there, rows[i]? = some here →
      pairs[row.pairNumber - 1]? = some pair → rows[row.pairNumber - 1]? = some there →
      ∃ type, IsType pair here.mt type ∧ IsType pair there.mt type) :
    ∃ channels, makeParticleChannels incident pairs rows group = .ok channels ∧
      List.Forall₂ (IsChannel incident pairs rows group.spin group.parity) group.channels channels := by
  have hex : ∃ channels, makeParticleChannels incident pairs rows group = .ok channels := by
    unfold makeParticleChannels
    apply mapM_exists.mpr
    rintro ⟨inc, row, mt⟩ hmem
    obtain ⟨h1, h2⟩ := hnumber row (List.of_mem_zip (List.of_mem_zip hmem).2).1
    have h3 : row.pairNumber - 1 < pairs.length := by omega
    have h4 : row.pairNumber - 1 < rows.length := by omega
    dsimp only
    rw [if_neg (by omega), List.getElem?_eq_getElem h3, List.getElem?_eq_getElem h4]
    exact ⟨_, rfl⟩
  obtain ⟨channels, h⟩ := hex
  refine ⟨channels, h, ?_⟩
  have hl := makeParticleChannels_length hlen h
  rw [min_eq_left hcount] at hl
  unfold makeParticleChannels at h
  obtain ⟨-, hget⟩ := List.forall₂_iff_get.mp (mapM_ok.mp h)
  rw [List.forall₂_iff_get]
  refine ⟨hl.symm, fun i h1 h2 => ?_⟩
  have h3 : i < rows.length := by omega
  have hi := hget i (by simp only [List.length_zip, List.length_replicate, List.length_map]; omega) h2
  simp only [List.get_eq_getElem, List.getElem_zip, List.getElem_replicate, List.getElem_map] at hi
  set row := group.channels[i] with hrow
  obtain ⟨h4, h5⟩ := hnumber row (List.getElem_mem h1)
  have h6 : row.pairNumber - 1 < pairs.length := by omega
  have h7 : row.pairNumber - 1 < rows.length := by omega
  rw [if_neg (by omega), List.getElem?_eq_getElem h6, List.getElem?_eq_getElem h7] at hi
  have hc := (Except.ok.inj hi).symm
  simp only [List.get_eq_getElem]
  rw [hc, ← hrow]
  obtain ⟨type, ht1, ht2⟩ := htype i row (List.getElem?_eq_getElem h1) _ _ _ (List.getElem?_eq_getElem h3)
    (List.getElem?_eq_getElem h6) (List.getElem?_eq_getElem h7)
  refine ⟨rfl, h4, List.getElem?_eq_getElem h6, ⟨_, List.getElem?_eq_getElem h7, rfl, ?_⟩, rfl, rfl,
    spinParity_parityOf _ _, rfl, fun energy => ⟨rfl, rfl, rfl⟩⟩
  have := isType_unique ht1 (isType_channelType _ _)
  rw [this] at ht2
  exact ht2

namespace Example

/-- Photon and Cl36 (MT = 102), neutron and Cl35 (MT = 2). -/
noncomputable def pairRows : List ParticlePairRow :=
  [⟨0, 36, 0, 17, 1, 2, 1, 1, 8000000, 0, 102⟩, ⟨1, 35, 0, 17, 1 / 2, 3 / 2, 1, 1, 0, 1, 2⟩]

noncomputable def photonPair : ParticlePair :=
  ⟨⟨"g".toList, 0, 0, 1, 1⟩, ⟨"Cl36".toList, 36, 17, 2, 1⟩, "g,Cl36".toList, 0, 1⟩

noncomputable def neutronPair : ParticlePair :=
  ⟨⟨"n".toList, 1, 0, 1 / 2, 1⟩, ⟨"Cl35".toList, 35, 17, 3 / 2, 1⟩, "n,Cl35".toList, 35 / 36, 35 / 36⟩

/-- A spin group with J = 2 and the channels that refer to these pairs. -/
noncomputable def groupRecord (numbers : List ℕ) : SpinGroupRecord :=
  ⟨2, 0, numbers.map fun n => ⟨n, 0, 2, 0, 0.5, 0.4⟩, 1, [(10, numbers.map fun _ => 2)]⟩

/-- In the order of the pairs both channels are right. -/
example : ∃ channels, makeParticleChannels neutronPair [photonPair, neutronPair] pairRows
    (groupRecord [1, 2]) = .ok channels ∧
      List.Forall₂ (IsChannel neutronPair [photonPair, neutronPair] pairRows 2 0)
        (groupRecord [1, 2]).channels channels := by
  refine C30_partial neutronPair [photonPair, neutronPair] pairRows (groupRecord [1, 2]) rfl
    (by simp [groupRecord, pairRows]) ?_ ?_
  · intro row hrow
    simp only [groupRecord, List.map_cons, List.map_nil, List.mem_cons, List.not_mem_nil, or_false] at hrow
    rcases hrow with rfl | rfl <;> simp [pairRows]
  · intro i row hi pair here there h1 h2 h3
    match i with
    | 0 =>
      simp only [groupRecord, List.map_cons, List.map_nil, List.getElem?_cons_zero, Option.some.injEq] at hi
      subst hi
      obtain rfl : here = there := Option.some.inj (h1.symm.trans h3)
      exact ⟨_, isType_channelType _ _, isType_channelType _ _⟩
    | 1 =>
      simp only [groupRecord, List.map_cons, List.map_nil, List.getElem?_cons_succ,
        List.getElem?_cons_zero, Option.some.injEq] at hi
      subst hi
      obtain rfl : here = there := Option.some.inj (h1.symm.trans h3)
      exact ⟨_, isType_channelType _ _, isType_channelType _ _⟩
    | i + 2 => simp [groupRecord] at hi

end Example

/-- C30 does not hold, second reason: the type of a channel is not taken from the pair it refers to but
from the pair at the position of the channel. With the capture pair first, a spin group that lists its
elastic channel first gets an elastic channel of type photon. -/
theorem C30_disproved : ¬ C30_claim := by
  intro h
  have h1 := h Example.neutronPair [Example.photonPair, Example.neutronPair] Example.pairRows
    (Example.groupRecord [2, 1]) _ rfl rfl
  obtain ⟨h2, -⟩ := List.forall₂_cons.mp h1
  obtain ⟨row, h3, -, h4⟩ := h2.reaction
  cases h3
  have h5 := isType_unique h4 (isType_channelType _ _)
  simp [makeChannel, channelType, Example.neutronPair] at h5

/-- C30, what the code does instead: the type of each channel is that of the reaction at its own position
in the list of pairs. -/
theorem C30_position {incident : ParticlePair} {pairs : List ParticlePair}
    {rows : List ParticlePairRow} {group : SpinGroupRecord} {channels : List Channel}
    (h : makeParticleChannels incident pairs rows group = .ok channels) {i : ℕ} {c : Channel}
    (hc : channels[i]? = some c) :
    ∃ here row, rows[i]? = some here ∧ group.channels[i]? = some row ∧
      pairs[row.pairNumber - 1]? = some c.pair ∧ IsType c.pair here.mt c.type := by
  unfold makeParticleChannels at h
  obtain ⟨hl, hget⟩ := List.forall₂_iff_get.mp (mapM_ok.mp h)
  obtain ⟨h2, hci⟩ := List.getElem?_eq_some_iff.mp hc
  have h1 : i < ((List.replicate pairs.length incident).zip
      (group.channels.zip (rows.map ParticlePairRow.mt))).length := hl ▸ h2
  have hi := hget i h1 h2
  simp only [List.length_zip, List.length_replicate, List.length_map] at h1
  simp only [List.get_eq_getElem, List.getElem_zip, List.getElem_map, hci] at hi
  split at hi
  · cases hi
  split at hi
  · rename_i pair pairRow hp hr
    obtain rfl := Except.ok.inj hi
    exact ⟨_, _, List.getElem?_eq_getElem (by omega), List.getElem?_eq_getElem (by omega), hp,
      isType_channelType _ _⟩
  · cases hi

/-! ## C42: widths -/

/-- How the reduced widths of an R-matrix-limited evaluation are to be made. -/
def IsReduced (K : Constants) (lib : CoulombLibrary) (reduced : Bool) (c : Channel) (energy width γ : ℝ) :
    Prop :=
  if reduced then γ = width else ∃ P, c.penetrability K lib energy = .ok P ∧ ReducedWidth width P γ

theorem toReducedWidths_forall {K : Constants} {lib : CoulombLibrary} {reduced : Bool} {c : Channel}
    {values : List (ℝ × ℝ)} {widths : List ℝ} (h : toReducedWidths K lib reduced c values = .ok widths) :
    List.Forall₂ (fun v γ => IsReduced K lib reduced c v.1 v.2 γ) values widths := by
  unfold toReducedWidths at h
  unfold IsReduced
  split at h
  · rename_i hr
    obtain rfl := Except.ok.inj h
    simp only [if_pos hr]
    exact forall₂_map fun v _ => rfl
  · rename_i hr
    simp only [if_neg hr]
    refine (mapM_ok.mp h).imp ?_
    intro v γ hv
    unfold calculateReducedWidth at hv
    obtain ⟨P, h1, hv⟩ := bind_ok.mp hv
    split at hv
    · cases hv
    rename_i hne
    rw [not_or] at hne
    obtain rfl := Except.ok.inj hv
    exact ⟨P, h1, reducedWidth_sqrt hne.1 hne.2 rfl⟩

theorem channelWidths_ok {i : ℕ} {resonances : List (ℝ × List ℝ)} {values : List (ℝ × ℝ)}
    (h : channelWidths i resonances = .ok values) :
    (∀ r ∈ resonances, i < r.2.length) ∧ values = resonances.map fun r => (r.1, r.2.getD i 0) := by
  unfold channelWidths at h
  have h1 := mapM_ok.mp h
  clear h
  induction h1 with
  | nil => simp
  | @cons r v resonances values hr _ ih =>
    split at hr
    · cases hr
    rename_i w hw
    obtain rfl := Except.ok.inj hr
    obtain ⟨hlt, hget⟩ := List.getElem?_eq_some_iff.mp hw
    refine ⟨?_, ?_⟩
    · intro r' hr'
      rcases List.mem_cons.mp hr' with rfl | hr'
      · exact hlt
      · exact ih.1 r' hr'
    · rw [List.map_cons, ← ih.2, List.getD_eq_getElem?_getD, hw, Option.getD_some]

open Classical in
/-- The energies and widths of the resonances that have a width in channel `i`. -/
noncomputable def column (group : SpinGroupRecord) (i : ℕ) : List (ℝ × ℝ) :=
  (group.resonances.map fun r => (r.1, r.2.getD i 0)).filter fun v => v.2 ≠ 0

open Classical in
theorem channelDatum_some {K : Constants} {lib : CoulombLibrary} {reduced : Bool}
    {group : SpinGroupRecord} {eliminated : ℕ} {c : Channel} {i : ℕ} {d : Option ChannelData}
    (h : channelDatum K lib reduced group eliminated c i = .ok d) :
    (group.numberResonances ≠ 0 → ∀ r ∈ group.resonances, i < r.2.length) ∧
    ((group.numberResonances = 0 ∨ column group i = []) ∧
        d = (if c.isIncident then some ⟨c, [], [], false⟩ else none) ∨
      group.numberResonances ≠ 0 ∧ column group i ≠ [] ∧
        ∃ widths, d = some ⟨c, (column group i).map Prod.fst, widths, i == eliminated⟩ ∧
          List.Forall₂ (fun v γ => IsReduced K lib reduced c v.1 v.2 γ) (column group i) widths) := by
  unfold channelDatum at h
  dsimp only at h
  split at h
  · rename_i hn
    obtain ⟨values, h1, h⟩ := bind_ok.mp h
    obtain ⟨hlen, rfl⟩ := channelWidths_ok h1
    have hcol : ((group.resonances.map fun r => (r.1, r.2.getD i 0)).filter fun v =>
        decide (v.2 ≠ 0)) = column group i := rfl
    rw [hcol] at h
    refine ⟨fun _ => hlen, ?_⟩
    split at h
    · rename_i hc
      obtain ⟨widths, h2, h⟩ := bind_ok.mp h
      obtain ⟨data, h3, h⟩ := bind_ok.mp h
      have hf := toReducedWidths_forall h2
      unfold makeChannelData at h3
      split at h3
      · cases h3
      obtain rfl := Except.ok.inj h3
      obtain rfl := Except.ok.inj h
      exact .inr ⟨hn, fun h0 => hc (by rw [h0]; rfl), widths, rfl, hf⟩
    · rename_i hc
      obtain rfl := Except.ok.inj h
      exact .inl ⟨.inr (List.length_eq_zero_iff.mp (not_not.mp hc)), rfl⟩
  · rename_i hn
    obtain rfl := Except.ok.inj h
    rw [not_not] at hn
    exact ⟨fun h0 => absurd hn h0, .inl ⟨.inl hn, rfl⟩⟩

theorem makeParticleChannelData_ok {K : Constants} {lib : CoulombLibrary} {incident : ParticlePair}
    {pairs : List ParticlePair} {rows : List ParticlePairRow} {reduced : Bool} {group : SpinGroupRecord}
    {data : List ChannelData}
    (h : makeParticleChannelData K lib incident pairs rows reduced group = .ok data) :
    ∃ channels pair all, makeParticleChannels incident pairs rows group = .ok channels ∧
      pairs[findParticlePair rows 102]? = some pair ∧ data = all.filterMap id ∧
      List.Forall₂ (fun (p : Channel × ℕ) d => channelDatum K lib reduced group
        (channels.findIdx fun c => pair.id == c.pair.id) p.1 p.2 = .ok d) channels.zipIdx all := by
  unfold makeParticleChannelData at h
  obtain ⟨channels, h1, h⟩ := bind_ok.mp h
  split at h
  · cases h
  rename_i pair hp
  dsimp only at h
  obtain ⟨all, h2, h⟩ := bind_ok.mp h
  obtain rfl := Except.ok.inj h
  exact ⟨channels, pair, all, h1, hp, rfl, mapM_ok.mp h2⟩

/-- C42: what an R-matrix-limited spin group is converted to. Each item of data belongs to one channel,
has the energies of the resonances with a width in that channel, and for each of them the width if the
evaluation gives reduced widths, or else the reduced width for the penetrability at its energy. Channels
without such resonances are only kept if they are incident channels. -/
theorem C42_rmatrix {K : Constants} {lib : CoulombLibrary} {incident : ParticlePair}
    {pairs : List ParticlePair} {rows : List ParticlePairRow} {reduced : Bool} {group : SpinGroupRecord}
    {data : List ChannelData}
    (h : makeParticleChannelData K lib incident pairs rows reduced group = .ok data) :
    ∃ channels, makeParticleChannels incident pairs rows group = .ok channels ∧
      ∀ d ∈ data, ∃ i : ℕ, channels[i]? = some d.channel ∧
      ((group.numberResonances = 0 ∨ column group i = []) ∧ d.energies = [] ∧ d.widths = [] ∧
          d.channel.pair.id = d.channel.incident.id ∨
        d.energies = (column group i).map Prod.fst ∧
          List.Forall₂ (fun v γ => if reduced then γ = v.2 else
            ∃ P, d.channel.penetrability K lib v.1 = .ok P ∧ ReducedWidth v.2 P γ)
            (column group i) d.widths) := by
  obtain ⟨channels, pair, all, h1, h2, rfl, h3⟩ := makeParticleChannelData_ok h
  refine ⟨channels, h1, fun d hd => ?_⟩
  obtain ⟨o, ho, hod⟩ := List.mem_filterMap.mp hd
  obtain ⟨⟨c, i⟩, hci, hdat⟩ := forall₂_mem_right h3 ho
  have hc := List.mem_zipIdx_iff_getElem?.mp hci
  obtain ⟨-, ⟨he, h4⟩ | ⟨-, -, widths, h4, h5⟩⟩ := channelDatum_some hdat
  · simp only [id] at hod
    rw [hod] at h4
    split at h4
    · rename_i hinc
      cases h4
      exact ⟨i, hc, .inl ⟨he, rfl, rfl, by simpa [Channel.isIncident] using hinc⟩⟩
    · cases h4
  · simp only [id] at hod
    rw [hod] at h4
    cases h4
    exact ⟨i, hc, .inr ⟨rfl, h5⟩⟩

/-- C42: nothing is lost. Every width of a resonance that is not zero is among the data of its channel;
these data are marked as eliminated exactly if the channel is the first one with the pair of MT = 102. -/
theorem C42_rmatrix_complete {K : Constants} {lib : CoulombLibrary} {incident : ParticlePair}
    {pairs : List ParticlePair} {rows : List ParticlePairRow} {reduced : Bool} {group : SpinGroupRecord}
    {data : List ChannelData} {channels : List Channel}
    (h : makeParticleChannelData K lib incident pairs rows reduced group = .ok data)
    (hch : makeParticleChannels incident pairs rows group = .ok channels) {i : ℕ} {c : Channel}
    (hc : channels[i]? = some c) (hn : group.numberResonances ≠ 0) {r : ℝ × List ℝ}
    (hr : r ∈ group.resonances) {width : ℝ} (hw : r.2[i]? = some width) (h0 : width ≠ 0) :
    ∃ d ∈ data, d.channel = c ∧
      (∃ γ, (r.1, γ) ∈ d.energies.zip d.widths ∧ if reduced then γ = width else
        ∃ P, c.penetrability K lib r.1 = .ok P ∧ ReducedWidth width P γ) ∧
      (d.eliminated = true ↔ (∃ pair, pairs[rows.findIdx fun row => row.mt == 102]? = some pair ∧
        c.pair.id = pair.id ∧ ∀ j < i, ∀ c', channels[j]? = some c' → c'.pair.id ≠ pair.id)) := by
  obtain ⟨channels', pair, all, h1, h2, rfl, h3⟩ := makeParticleChannelData_ok h
  rw [hch] at h1
  obtain rfl := Except.ok.inj h1
  obtain ⟨o, ho, hdat⟩ := forall₂_mem_left h3 (a := (c, i)) (List.mem_zipIdx_iff_getElem?.mpr hc)
  have hmem : (r.1, width) ∈ column group i := by
    unfold column
    refine List.mem_filter.mpr ⟨List.mem_map.mpr ⟨r, hr, ?_⟩, by simpa using h0⟩
    rw [List.getD_eq_getElem?_getD, hw, Option.getD_some]
  obtain ⟨-, ⟨he, -⟩ | ⟨-, -, widths, h4, h5⟩⟩ := channelDatum_some hdat
  · rcases he with he | he
    · exact absurd he hn
    · rw [he] at hmem
      cases hmem
  dsimp only at h4 h5
  refine ⟨_, List.mem_filterMap.mpr ⟨o, ho, h4⟩, rfl, ?_, ?_⟩
  · obtain ⟨γ, h6, h7⟩ := forall₂_zip (f := Prod.fst) h5 hmem
    exact ⟨γ, h6, h7⟩
  · obtain ⟨hlt, hget⟩ := List.getElem?_eq_some_iff.mp hc
    simp only [beq_iff_eq]
    rw [eq_comm, List.findIdx_eq hlt]
    simp only [hget, beq_iff_eq, Bool.eq_false_iff, ne_eq]
    constructor
    · rintro ⟨h6, h7⟩
      refine ⟨pair, h2, h6.symm, fun j hj c' hc' h8 => ?_⟩
      obtain ⟨hj', rfl⟩ := List.getElem?_eq_some_iff.mp hc'
      exact h7 j hj h8.symm
    · rintro ⟨pair', h6, h7, h8⟩
      have hpair : pair' = pair := Option.some.inj (h6.symm.trans h2)
      subst hpair
      refine ⟨h7.symm, fun j hj h9 => ?_⟩
      exact h8 j hj _ (List.getElem?_eq_getElem (by omega)) h9.symm

/-- C42: with a positive penetrability there is a reduced width for every width of a channel. -/
theorem C42_rmatrix_exists {K : Constants} {lib : CoulombLibrary} {c : Channel} {energy P : ℝ} (width : ℝ)
    (hp : c.penetrability K lib energy = .ok P) (h0 : 0 < P) :
    ∃ γ, calculateReducedWidth K lib c energy width = .ok γ ∧ ReducedWidth width P γ := by
  have hne : ¬ (P = 0 ∨ |width| / 2 / P < 0) := by
    rw [not_or]
    exact ⟨h0.ne', not_lt.mpr (by positivity)⟩
  have h : calculateReducedWidth K lib c energy width
      = .ok ((if width < 0 then -1 else 1) * Real.sqrt (|width| / 2 / P)) := by
    unfold calculateReducedWidth
    rw [hp]
    simp only [bind, Except.bind, if_neg hne]
    rfl
  rw [not_or] at hne
  exact ⟨_, h, reducedWidth_sqrt hne.1 hne.2 rfl⟩

/-- The capture channel of the example, at any energy. -/
example (K : Constants) (lib : CoulombLibrary) : ∃ γ, calculateReducedWidth K lib
    (makeChannel .photon Example.neutronPair Example.photonPair [] 0 ⟨0, 2, 2, 1⟩
      ⟨fun _ => .ok 1, fun _ => .ok 1, fun _ => .ok 1⟩ 0) 10 (-8) = .ok γ ∧ ReducedWidth (-8) 1 γ :=
  C42_rmatrix_exists _ rfl one_pos

namespace Example

/-- The channels of the example. -/
noncomputable def channel (type : ChannelType) (pair : ParticlePair) (q : ℝ) : Channel :=
  makeChannel type neutronPair pair pair.id q ⟨0, 2, 2, 1⟩
    ⟨fun _ => .ok 0.5, fun _ => .ok 0.5, fun _ => .ok 0.4⟩ 0

theorem channels : makeParticleChannels neutronPair [photonPair, neutronPair] pairRows (groupRecord [1, 2])
    = .ok [channel .photon photonPair 8000000, channel .neutron neutronPair 0] := by
  have h1 : channelType photonPair 102 = .photon := by simp [channelType]
  have h2 : channelType neutronPair 2 = .neutron := by simp [channelType, neutronPair]
  have h3 : |(groupRecord [1, 2]).spin| = 2 := by simp [groupRecord]
  have h4 : parityOf (groupRecord [1, 2]).spin (groupRecord [1, 2]).parity = 1 := by
    simp [groupRecord, parityOf]
  unfold makeParticleChannels
  rw [h3, h4, channel, channel, ← h1, ← h2]
  rfl

/-- The data of the example, given as reduced widths. -/
theorem data (K : Constants) (lib : CoulombLibrary) :
    makeParticleChannelData K lib neutronPair [photonPair, neutronPair] pairRows true (groupRecord [1, 2])
      = .ok [⟨channel .photon photonPair 8000000, [10], [2], true⟩,
        ⟨channel .neutron neutronPair 0, [10], [2], false⟩] := by
  have hp : [photonPair, neutronPair][findParticlePair pairRows 102]? = some photonPair := by
    simp [findParticlePair, pairRows, List.findIdx_cons]
  have he : [channel .photon photonPair 8000000, channel .neutron neutronPair 0].findIdx
      (fun c => photonPair.id == c.pair.id) = 0 := by
    simp [List.findIdx_cons, channel, makeChannel]
  unfold makeParticleChannelData
  rw [channels]
  simp only [bind, Except.bind]
  rw [hp]
  dsimp only
  rw [he]
  simp [channelDatum, groupRecord, channelWidths, bind, Except.bind, toReducedWidths, makeChannelData, pure,
    Except.pure, List.zipIdx]

end Example

/-- The capture width of the example is found in the data of the eliminated channel. -/
example (K : Constants) (lib : CoulombLibrary) : ∃ data, makeParticleChannelData K lib Example.neutronPair
    [Example.photonPair, Example.neutronPair] Example.pairRows true (Example.groupRecord [1, 2])
      = .ok data ∧ ∃ d ∈ data, d.eliminated = true ∧ ((10 : ℝ), (2 : ℝ)) ∈ d.energies.zip d.widths := by
  refine ⟨_, Example.data K lib, ?_⟩
  obtain ⟨d, hd, -, ⟨γ, h1, h2⟩, h3⟩ := C42_rmatrix_complete (i := 0) (Example.data K lib)
    Example.channels rfl
    (by simp [Example.groupRecord]) (r := (10, [2, 2])) (by simp [Example.groupRecord]) rfl two_ne_zero
  refine ⟨d, hd, h3.mpr ?_, ?_⟩
  · refine ⟨Example.photonPair, ?_, rfl, fun j hj => absurd hj (by omega)⟩
    simp [Example.pairRows, List.findIdx_cons]
  · rw [if_pos rfl] at h2
    exact h2 ▸ h1

/-! ## C48: required particle pairs -/

theorem findParticlePair_none {rows : List ParticlePairRow} {mt : ℤ} (h : ∀ row ∈ rows, row.mt ≠ mt) :
    findParticlePair rows mt = rows.length := by
  unfold findParticlePair
  rw [List.findIdx_eq_length]
  intro row hrow
  simpa using h row hrow

theorem makeParticlePairs_length {reactions : ReactionLibrary} {neutronMass elementaryCharge : ℝ}
    {incident target : Str} {rows : List ParticlePairRow} {pairs : List ParticlePair}
    (h : makeParticlePairs reactions neutronMass elementaryCharge incident target rows = .ok pairs) :
    pairs.length = rows.length := mapM_length h

/-- C48 in full: without a pair for MT = 2 or for MT = 102 there is an exception. -/
def C48_claim : Prop := ∀ (K : Constants) (lib : CoulombLibrary)
  (initial : (g : SpinGroup) → MatrixCache g.channels.length) (reactions : ReactionLibrary)
  (neutronMass elementaryCharge : ℝ) (incident target : Str) (p : RMatrixLimited),
  ((∀ row ∈ p.pairs, row.mt ≠ 2) ∨ ∀ row ∈ p.pairs, row.mt ≠ 102) → p.spinGroups ≠ [] →
    makeRMatrixCompoundSystem K lib initial reactions neutronMass elementaryCharge incident target p
      = .error .throws

/-- C48 does not hold for any evaluation without a pair for MT = 2 whose other pairs can be made: the
vector of pairs is read past its end. -/
theorem C48_incident_undefined {K : Constants} {lib : CoulombLibrary}
    {initial : (g : SpinGroup) → MatrixCache g.channels.length} {reactions : ReactionLibrary}
    {neutronMass elementaryCharge : ℝ} {incident target : Str} {p : RMatrixLimited}
    {pairs : List ParticlePair}
    (hp : makeParticlePairs reactions neutronMass elementaryCharge incident target p.pairs = .ok pairs)
    (h : ∀ row ∈ p.pairs, row.mt ≠ 2) :
    makeRMatrixCompoundSystem K lib initial reactions neutronMass elementaryCharge incident target p
      = .error .undefined := by
  have hnone : pairs[findParticlePair p.pairs 2]? = none := by
    rw [findParticlePair_none h, List.getElem?_eq_none]
    rw [makeParticlePairs_length hp]
  unfold makeRMatrixCompoundSystem
  rw [hp]
  simp only [bind, Except.bind, hnone]

/-- C48 does not hold either for any evaluation without a pair for MT = 102. -/
theorem C48_capture_undefined {K : Constants} {lib : CoulombLibrary} {pair : ParticlePair}
    {pairs : List ParticlePair} {rows : List ParticlePairRow} {reduced : Bool} {group : SpinGroupRecord}
    {channels : List Channel} (hlen : pairs.length = rows.length)
    (hc : makeParticleChannels pair pairs rows group = .ok channels) (h : ∀ row ∈ rows, row.mt ≠ 102) :
    makeParticleChannelData K lib pair pairs rows reduced group = .error .undefined := by
  have hnone : pairs[findParticlePair rows 102]? = none := by
    rw [findParticlePair_none h, List.getElem?_eq_none]
    rw [hlen]
  unfold makeParticleChannelData
  rw [hc]
  simp only [bind, Except.bind, hnone]

/-- C48 does not hold: an evaluation with a pair for capture only. -/
theorem C48_disproved : ¬ C48_claim := by
  intro h
  have hp : ∃ pairs, makeParticlePairs (fun _ _ _ => .ok ("g".toList, "Cl36".toList)) 1 1 "n".toList
      "Cl35".toList [⟨0, 36, 0, 17, 1, 2, 1, 1, 8000000, 0, 102⟩] = .ok pairs := by
    refine mapM_exists.mpr ?_
    intro row hrow
    obtain rfl := List.mem_singleton.mp hrow
    refine ⟨⟨⟨"g".toList, 0, 0, 1, 1⟩, ⟨"Cl36".toList, 36, 17, 2, 1⟩, "g,Cl36".toList, 0, 1⟩, ?_⟩
    norm_num [makeParticleIDs, makeParticle, makeParticlePair, parityOf, bind, Except.bind, pure,
      Except.pure, pairID]
    rfl
  obtain ⟨pairs, hp⟩ := hp
  have hmt : ∀ row ∈ [(⟨0, 36, 0, 17, 1, 2, 1, 1, 8000000, 0, 102⟩ : ParticlePairRow)], row.mt ≠ 2 := by
    intro row hrow
    obtain rfl := List.mem_singleton.mp hrow
    norm_num
  have h1 := h ⟨1, 1, one_pos, one_pos⟩ (fun _ _ _ => .ok ⟨0, 0, 0, 0⟩)
    (fun _ => ⟨0, 0, 0⟩) (fun _ _ _ => .ok ("g".toList, "Cl36".toList)) 1 1 "n".toList "Cl35".toList
    ⟨3, 0, [⟨0, 36, 0, 17, 1, 2, 1, 1, 8000000, 0, 102⟩], [Example.groupRecord [1]]⟩ (.inl hmt)
    (List.cons_ne_nil _ _)
  rw [C48_incident_undefined hp hmt] at h1
  cases h1

theorem makeCompoundSystem_nonempty {groups s : CompoundSystem} (h : makeCompoundSystem groups = .ok s) :
    s ≠ [] ∧ ∀ st ∈ s, st.group.channels ≠ [] := by
  unfold makeCompoundSystem at h
  split at h
  · cases h
  rename_i hv
  obtain rfl := Except.ok.inj h
  unfold verifySpinGroups at hv
  split at hv
  · cases hv
  rename_i h1
  split at hv
  · cases hv
  rename_i h2
  refine ⟨fun h0 => h1 (by rw [h0]; rfl), fun st hst h0 => h2 ⟨_, List.mem_map_of_mem hst, h0⟩⟩

theorem system_channel {initial : (g : SpinGroup) → MatrixCache g.channels.length}
    {channels consolidated : List ChannelData} {s : CompoundSystem}
    (hlen : ∀ d ∈ channels, d.energies.length = d.widths.length)
    (hc : consolidateChannelData channels = .ok consolidated)
    (h : makeCompoundSystemFromData initial consolidated = .ok s) {st : GroupState} (hst : st ∈ s)
    {c : Channel} (hm : c ∈ st.group.channels) : ∃ d ∈ channels, d.eliminated = false ∧ d.channel = c := by
  obtain ⟨merged, h1, h2, -⟩ := C28_consolidation channels hlen
  rw [h1] at hc
  obtain rfl := Except.ok.inj hc
  obtain ⟨jpis, -, -, hf⟩ := C25_contents h
  obtain ⟨x, -, -, -, h3, -⟩ := forall₂_mem_right hf hst
  rw [h3] at hm
  obtain ⟨d, hd, rfl⟩ := List.mem_map.mp hm
  obtain ⟨hd, he⟩ := List.mem_filter.mp hd
  simp only [decide_eq_true_eq, Bool.not_eq_true] at he
  rcases List.mem_append.mp hd with hd | hd
  · exact ⟨d, (List.mem_filter.mp hd).1, he.1, rfl⟩
  · rw [h2 d hd] at he
    cases he.1

theorem rmatrix_lengths {K : Constants} {lib : CoulombLibrary} {incident : ParticlePair}
    {pairs : List ParticlePair} {rows : List ParticlePairRow} {reduced : Bool} {group : SpinGroupRecord}
    {data : List ChannelData}
    (h : makeParticleChannelData K lib incident pairs rows reduced group = .ok data) :
    ∀ d ∈ data, d.energies.length = d.widths.length := by
  obtain ⟨channels, -, h1⟩ := C42_rmatrix h
  intro d hd
  obtain ⟨i, -, ⟨-, h2, h3, -⟩ | ⟨h2, h3⟩⟩ := h1 d hd
  · rw [h2, h3]
  · rw [h2, List.length_map, h3.length_eq]

/-- C48 for evaluations that are accepted: both pairs are there, and the incident pair of all channels is
the one made of the first row with MT = 2.

Missing: the exception for evaluations that lack one of them, see `C48_disproved`. -/
theorem C48_partial {K : Constants} {lib : CoulombLibrary}
    {initial : (g : SpinGroup) → MatrixCache g.channels.length} {reactions : ReactionLibrary}
    {neutronMass elementaryCharge : ℝ} {incident target : Str} {p : RMatrixLimited} {s : CompoundSystem}
    (h : makeRMatrixCompoundSystem K lib initial reactions neutronMass elementaryCharge incident target p
      = .ok s) :
    (∃ row ∈ p.pairs, row.mt = 102) ∧
    ∃ (i : ℕ) (row : ParticlePairRow) (pairs : List ParticlePair) (pair : ParticlePair),
      p.pairs[i]? = some row ∧ row.mt = 2 ∧
      (∀ j < i, ∀ row', p.pairs[j]? = some row' → row'.mt ≠ 2) ∧
      makeParticlePairs reactions neutronMass elementaryCharge incident target p.pairs = .ok pairs ∧
      pairs[i]? = some pair ∧
      ∀ st ∈ s, ∀ c ∈ st.group.channels, c.incident = pair := by
  unfold makeRMatrixCompoundSystem at h
  obtain ⟨pairs, h1, h⟩ := bind_ok.mp h
  split at h
  · cases h
  rename_i pair hpair
  obtain ⟨data, h2, h⟩ := bind_ok.mp h
  obtain ⟨consolidated, h3, h⟩ := bind_ok.mp h
  have hgroups := mapM_ok.mp h2
  have hlen : ∀ d ∈ data.flatten, d.energies.length = d.widths.length := by
    intro d hd
    obtain ⟨l, hl, hd⟩ := List.mem_flatten.mp hd
    obtain ⟨group, -, hg⟩ := forall₂_mem_right hgroups hl
    exact rmatrix_lengths hg d hd
  have hplen := makeParticlePairs_length h1
  have hfound : ∀ mt, (∃ q, pairs[findParticlePair p.pairs mt]? = some q) →
      ∃ row, p.pairs[findParticlePair p.pairs mt]? = some row ∧ row.mt = mt := by
    rintro mt ⟨q, hq⟩
    obtain ⟨hlt, -⟩ := List.getElem?_eq_some_iff.mp hq
    rw [hplen] at hlt
    refine ⟨_, List.getElem?_eq_getElem hlt, ?_⟩
    have := List.findIdx_getElem (p := fun row : ParticlePairRow => row.mt == mt) (w := hlt)
    exact beq_iff_eq.mp this
  have hdata : ∀ st ∈ s, ∀ c ∈ st.group.channels, ∃ group ∈ p.spinGroups, ∃ l ∈ data, ∃ d ∈ l,
      d.channel = c ∧ makeParticleChannelData K lib pair pairs p.pairs (p.reducedWidths != 0) group
        = .ok l := by
    intro st hst c hc
    obtain ⟨d, hd, -, rfl⟩ := system_channel hlen h3 h hst hc
    obtain ⟨l, hl, hd⟩ := List.mem_flatten.mp hd
    obtain ⟨group, hgr, hg⟩ := forall₂_mem_right hgroups hl
    exact ⟨group, hgr, l, hl, d, hd, rfl, hg⟩
  refine ⟨?_, ?_⟩
  · obtain ⟨-, groups, hs⟩ := constructed_of_data h
    obtain ⟨hne, hch⟩ := makeCompoundSystem_nonempty hs
    obtain ⟨st, hst⟩ := List.exists_mem_of_ne_nil _ hne
    obtain ⟨c, hc⟩ := List.exists_mem_of_ne_nil _ (hch st hst)
    obtain ⟨group, -, l, -, d, -, -, hg⟩ := hdata st hst c hc
    obtain ⟨-, q, -, -, hq, -⟩ := makeParticleChannelData_ok hg
    obtain ⟨row, hrow, hmt⟩ := hfound 102 ⟨q, hq⟩
    exact ⟨row, List.mem_of_getElem? hrow, hmt⟩
  · obtain ⟨row, hrow, hmt⟩ := hfound 2 ⟨pair, hpair⟩
    refine ⟨_, row, pairs, pair, hrow, hmt, ?_, h1, hpair, ?_⟩
    · intro j hj row' hrow' hmt'
      obtain ⟨hlt, rfl⟩ := List.getElem?_eq_some_iff.mp hrow'
      have := List.not_of_lt_findIdx hj
      simp [hmt'] at this
    · intro st hst c hc
      obtain ⟨group, -, l, -, d, hd, rfl, hg⟩ := hdata st hst c hc
      obtain ⟨channels, hch, hmem⟩ := C42_rmatrix hg
      obtain ⟨i, hi, -⟩ := hmem d hd
      exact makeParticleChannels_incident hch (List.mem_of_getElem? hi)

namespace Example

/-- What the reaction library knows. -/
def reactionLibrary : ReactionLibrary := fun _ _ _ => .ok ("g".toList, "Cl36".toList)

theorem pairs : makeParticlePairs reactionLibrary 1 1 "n".toList "Cl35".toList pairRows
    = .ok [photonPair, neutronPair] := by
  unfold makeParticlePairs
  rw [mapM_ok]
  refine .cons ?_ (.cons ?_ .nil)
  · norm_num [makeParticleIDs, makeParticle, makeParticlePair, parityOf, bind, Except.bind, pure,
      Except.pure, pairID, reactionLibrary, photonPair]
    rfl
  · norm_num [makeParticleIDs, makeParticle, makeParticlePair, parityOf, bind, Except.bind, pure,
      Except.pure, pairID, reactionLibrary, neutronPair]
    rfl

/-- The evaluation with this one spin group and reduced widths is accepted. -/
theorem rmatrix_accepted (K : Constants) (lib : CoulombLibrary)
    (initial : (g : SpinGroup) → MatrixCache g.channels.length) :
    ∃ s, makeRMatrixCompoundSystem K lib initial reactionLibrary 1 1 "n".toList "Cl35".toList
      ⟨3, 1, pairRows, [groupRecord [1, 2]]⟩ = .ok s := by
  have hp : [photonPair, neutronPair][findParticlePair pairRows 2]? = some neutronPair := by
    simp [findParticlePair, pairRows, List.findIdx_cons]
  have hlen : ∀ d ∈ [(⟨channel .photon photonPair 8000000, [10], [2], true⟩ : ChannelData),
      ⟨channel .neutron neutronPair 0, [10], [2], false⟩], d.energies.length = d.widths.length := by
    simp
  obtain ⟨merged, hc, -⟩ := C28_consolidation _ hlen
  unfold makeRMatrixCompoundSystem
  rw [pairs]
  simp only [bind, Except.bind]
  rw [hp]
  simp only [List.mapM_cons, List.mapM_nil, bind, Except.bind, show ((1 : ℤ) != 0) = true from rfl,
    data K lib, pure, Except.pure, List.flatten_cons, List.flatten_nil, List.append_nil]
  rw [hc]
  refine (consolidated_accepted initial (id := neutronPair.id) hlen ?_ ?_ ?_ hc).mpr ?_
  · intro d hd
    simp only [List.mem_cons, List.not_mem_nil, or_false] at hd
    rcases hd with rfl | rfl <;> rfl
  · intro d hd
    refine ⟨_, List.mem_cons_of_mem _ List.mem_cons_self, rfl, rfl, ?_⟩
    simp only [List.mem_cons, List.not_mem_nil, or_false] at hd
    rcases hd with rfl | rfl <;> exact ⟨rfl, rfl⟩
  · intro d hd e he _
    simp only [List.mem_cons, List.not_mem_nil, or_false] at hd he
    rcases hd with rfl | rfl <;> rcases he with rfl | rfl <;> exact ⟨rfl, rfl⟩
  · simp

/-- Its channels have the second pair as the incident one. -/
example (K : Constants) (lib : CoulombLibrary)
    (initial : (g : SpinGroup) → MatrixCache g.channels.length) :
    ∃ s, makeRMatrixCompoundSystem K lib initial reactionLibrary 1 1 "n".toList "Cl35".toList
      ⟨3, 1, pairRows, [groupRecord [1, 2]]⟩ = .ok s ∧
      ∀ st ∈ s, ∀ c ∈ st.group.channels, c.incident = neutronPair := by
  obtain ⟨s, hs⟩ := rmatrix_accepted K lib initial
  refine ⟨s, hs, ?_⟩
  obtain ⟨-, i, row, prs, pair, h1, h2, h3, h4, h5, h6⟩ := C48_partial hs
  rw [pairs] at h4
  obtain rfl := Except.ok.inj h4
  match i with
  | 0 =>
    simp only [pairRows, List.getElem?_cons_zero, Option.some.injEq] at h1
    subst h1
    norm_num at h2
  | 1 =>
    simp only [List.getElem?_cons_succ, List.getElem?_cons_zero, Option.some.injEq] at h5
    subst h5
    exact h6
  | i + 2 => simp [pairRows] at h1

end Example

end Endf

end Verif
