import Verif.Lemmas.RMatrixRange
import Verif.Lemmas.CellsTable
import Verif.Lemmas.CellsSystem
import Verif.Props.RMatrixLimited

/-!
# The channel data of R-matrix-limited spin groups
-/

namespace Verif.Endf

open Spec

theorem filterMap_ofFn {α : Type*} {n : ℕ} (f : Fin n → Option α) (D : Fin n → α) (keep : Fin n → Prop)
    [DecidablePred keep] (h : ∀ i, f i = if keep i then some (D i) else none) :
    (List.ofFn f).filterMap id = ((List.finRange n).filter fun i => keep i).map D := by
  rw [List.ofFn_eq_map, List.filterMap_map]
  generalize List.finRange n = l
  induction l with
  | nil => rfl
  | cons i l ih =>
    by_cases hi : keep i
    · rw [List.filterMap_cons_some (b := D i) (by simp [h, hi]), List.filter_cons_of_pos (by simpa using hi),
        List.map_cons, ih]
    · rw [List.filterMap_cons_none (by simp [h, hi]), List.filter_cons_of_neg (by simpa using hi), ih]

open Classical in
/-- The data of a spin group: one item for each channel that is an incident one or has widths. -/
theorem record_data {K : Constants} {lib : CoulombLibrary} {incident : ParticlePair}
    {pairs : List ParticlePair} {rows : List ParticlePairRow} {reduced : Bool} {group : SpinGroupRecord}
    {data : List ChannelData} {channels : List Channel} {pair : ParticlePair}
    (h : makeParticleChannelData K lib incident pairs rows reduced group = .ok data)
    (hch : makeParticleChannels incident pairs rows group = .ok channels)
    (hpair : pairs[findParticlePair rows 102]? = some pair)
    (hnum : group.numberResonances = 0 → group.resonances = [])
    (helim : ∀ c ∈ channels, c.pair.id = pair.id → c.isIncident = false) :
    (∀ i < channels.length, ∀ r ∈ group.resonances, i < r.2.length) ∧
    ∃ D : Fin channels.length → ChannelData,
      (∀ i, (D i).channel = channels[i] ∧ (D i).energies = (column group i).map Prod.fst ∧
        List.Forall₂ (fun v γ => IsReduced K lib reduced channels[i] v.1 v.2 γ) (column group i) (D i).widths ∧
        ((D i).eliminated = true ↔ i.1 = channels.findIdx fun c => pair.id == c.pair.id)) ∧
      data = ((List.finRange channels.length).filter fun i : Fin channels.length =>
        column group i ≠ [] ∨ channels[i].isIncident = true).map D := by
  obtain ⟨channels', pair', all, h1, h2, rfl, h3⟩ := makeParticleChannelData_ok h
  obtain rfl := Except.ok.inj (hch.symm.trans h1)
  obtain rfl := Option.some.inj (hpair.symm.trans h2)
  obtain ⟨hl, hget⟩ := List.forall₂_iff_get.mp h3
  rw [List.length_zipIdx] at hl
  have hd : ∀ (i : Fin channels.length), channelDatum K lib reduced group
      (channels.findIdx fun c => pair.id == c.pair.id) channels[i] i = .ok (all[i.1]'(by omega)) := by
    intro i
    have := hget i.1 (by simp) (by omega)
    simpa using this
  have hcol0 : ∀ i, group.numberResonances = 0 → column group i = [] := by
    intro i h0
    unfold column
    rw [hnum h0]
    rfl
  have hd' := fun i => channelDatum_some (hd i)
  have hinc : ∀ i : Fin channels.length, channels[i].isIncident = true →
      i.1 ≠ channels.findIdx fun c => pair.id == c.pair.id := by
    intro i hi he
    have h4 := List.findIdx_getElem (p := fun c : Channel => pair.id == c.pair.id) (w := by omega)
      (xs := channels)
    simp only [← he] at h4
    have h5 := helim _ (List.getElem_mem _) (beq_iff_eq.mp h4).symm
    rw [Fin.getElem_fin, h5] at hi
    cases hi
  have hw : ∀ i : Fin channels.length, ∃ widths, List.Forall₂ (fun v γ => IsReduced K lib reduced
      channels[i] v.1 v.2 γ) (column group i) widths ∧ all[i.1]'(by omega)
        = if column group i ≠ [] ∨ channels[i].isIncident = true then
          some ⟨channels[i], (column group i).map Prod.fst, widths,
            i.1 == channels.findIdx fun c => pair.id == c.pair.id⟩ else none := by
    intro i
    rcases (hd' i).2 with ⟨h0, h4⟩ | ⟨-, h0, widths, h4, h5⟩
    · have hc : column group i = [] := h0.elim (hcol0 i) id
      refine ⟨[], by rw [hc]; exact .nil, ?_⟩
      rw [h4]
      split
      · rename_i hi
        rw [if_pos (.inr hi), hc]
        have : (i.1 == channels.findIdx fun c => pair.id == c.pair.id) = false := by
          simpa using hinc i hi
        rw [this]
        rfl
      · rename_i hi
        rw [if_neg]
        rintro (h6 | h6)
        · exact h6 hc
        · exact hi h6
    · exact ⟨widths, h5, by rw [h4, if_pos (.inl h0)]⟩
  choose widths hw1 hw2 using hw
  refine ⟨?_, fun i => ⟨channels[i], (column group i).map Prod.fst, widths i,
    i.1 == channels.findIdx fun c => pair.id == c.pair.id⟩, fun i => ⟨rfl, rfl, hw1 i, by simp⟩, ?_⟩
  · intro i hi r hr
    refine (hd' ⟨i, hi⟩).1 (fun h0 => ?_) r hr
    rw [hnum h0] at hr
    cases hr
  · have : all = List.ofFn fun i : Fin channels.length => all[i.1]'(by omega) := by
      refine List.ext_getElem (by simpa using hl.symm) fun i h5 h6 => ?_
      simp
    exact (congrArg (List.filterMap id) this).trans (filterMap_ofFn _ _ _ hw2)

/-- The data of a spin group: those of the channels in `part`. -/
structure RecordData where
  x : ℚ ×ₗ ℤ
  n : ℕ
  D : Fin n → ChannelData
  part : List (Fin n)

namespace RecordData

/-- The data. -/
def data (r : RecordData) : List ChannelData := r.part.map r.D

/-- The channels that are not eliminated. -/
def kept (r : RecordData) : List (Fin r.n) := r.part.filter fun i => !(r.D i).eliminated

/-- The eliminated channels. -/
def elim (r : RecordData) : List (Fin r.n) := r.part.filter fun i => (r.D i).eliminated

/-- What is to be known of the data. -/
structure Good (r : RecordData) : Prop where
  key : ∀ i, (r.D i).jpi = r.x
  lengths : ∀ i, (r.D i).energies.length = (r.D i).widths.length
  single : r.elim = [] ∨ ∃ i, r.elim = [i]

/-- The resonances of the group made of the data. -/
structure Table (r : RecordData) (resonances : List Resonance) : Prop where
  sorted : (resonances.map Resonance.energy).Pairwise (· < ·)
  energies : ∀ E, E ∈ resonances.map Resonance.energy ↔ ∃ i ∈ r.part, E ∈ (r.D i).energies
  widths : ∀ v ∈ resonances, v.widths = r.kept.map fun i => lastWidth (r.D i) v.energy
  eliminated : ∀ v ∈ resonances, v.eliminated = (r.elim.map fun i => lastWidth (r.D i) v.energy).sum

theorem mem_part {r : RecordData} {i : Fin r.n} : i ∈ r.part ↔ i ∈ r.kept ∨ i ∈ r.elim := by
  unfold kept elim
  simp only [List.mem_filter, Bool.not_eq_true']
  cases (r.D i).eliminated <;> simp

theorem table_of {r : RecordData} (hg : r.Good) {merged : List ChannelData} {table : ResonanceTable}
    (hm : (merged = [] ∧ r.elim = []) ∨ ∃ d, merged = [d] ∧ d.eliminated = true ∧
      d.energies = (r.elim.map r.D).flatMap ChannelData.energies ∧
      d.widths = (r.elim.map r.D).flatMap ChannelData.widths)
    (h : makeResonanceTable (r.kept.map r.D ++ merged) = .ok table) : r.Table table.resonances := by
  have hke : ∀ d ∈ r.kept.map r.D, d.eliminated = false := by
    intro d hd
    obtain ⟨i, hi, rfl⟩ := List.mem_map.mp hd
    simpa using (List.mem_filter.mp hi).2
  have hlen : ∀ d ∈ r.kept.map r.D ++ merged, d.energies.length = d.widths.length := by
    intro d hd
    rcases List.mem_append.mp hd with hd | hd
    · obtain ⟨i, -, rfl⟩ := List.mem_map.mp hd
      exact hg.lengths i
    · rcases hm with ⟨rfl, -⟩ | ⟨d', rfl, -, h1, h2⟩
      · cases hd
      · rw [List.mem_singleton.mp hd, h1, h2, List.length_flatMap, List.length_flatMap, List.map_map,
          List.map_map]
        congr 1
        exact List.map_congr_left fun i _ => hg.lengths i
  obtain ⟨-, h2, h3, h4⟩ := C26_contents hlen h
  have hfk : ((r.kept.map r.D ++ merged).filter fun d => ¬ d.eliminated) = r.kept.map r.D := by
    rw [List.filter_append, List.filter_eq_self.mpr, List.filter_eq_nil_iff.mpr, List.append_nil]
    · intro d hd
      rcases hm with ⟨rfl, -⟩ | ⟨d', rfl, e, -⟩
      · cases hd
      · rw [List.mem_singleton.mp hd, e]
        simp
    · intro d hd
      simp [hke d hd]
  refine ⟨h2, fun E => ?_, fun v hv => ?_, fun v hv => ?_⟩
  · rw [h3]
    constructor
    · rintro ⟨d, hd, hE⟩
      rcases List.mem_append.mp hd with hd | hd
      · obtain ⟨i, hi, rfl⟩ := List.mem_map.mp hd
        exact ⟨i, mem_part.mpr (.inl hi), hE⟩
      · rcases hm with ⟨rfl, -⟩ | ⟨d', rfl, -, e, -⟩
        · cases hd
        · rw [List.mem_singleton.mp hd, e] at hE
          obtain ⟨d, hd, hE⟩ := List.mem_flatMap.mp hE
          obtain ⟨i, hi, rfl⟩ := List.mem_map.mp hd
          exact ⟨i, mem_part.mpr (.inr hi), hE⟩
    · rintro ⟨i, hi, hE⟩
      rcases mem_part.mp hi with hi | hi
      · exact ⟨r.D i, List.mem_append_left _ (List.mem_map_of_mem hi), hE⟩
      · rcases hm with ⟨-, h0⟩ | ⟨d', rfl, -, e, -⟩
        · rw [h0] at hi
          cases hi
        · refine ⟨d', List.mem_append_right _ (List.mem_singleton.mpr rfl), ?_⟩
          rw [e]
          exact List.mem_flatMap.mpr ⟨_, List.mem_map_of_mem hi, hE⟩
  · rw [(h4 v hv).1, hfk, List.map_map]
    rfl
  · rw [(h4 v hv).2, List.find?_append, List.find?_eq_none.mpr (fun d hd => by simp [hke d hd]),
      Option.none_or]
    rcases hm with ⟨rfl, h0⟩ | ⟨d', rfl, e, e1, e2⟩
    · rw [h0]
      rfl
    · rw [List.find?_cons_of_pos e, Option.map_some, Option.getD_some]
      unfold lastWidth
      rw [e1, e2]
      rcases hg.single with h0 | ⟨i, h0⟩
      · rw [h0]
        rfl
      · rw [h0]
        simp

theorem flatMap_single {α β κ : Type*} [DecidableEq κ] {l : List α} {key : α → κ} (hn : (l.map key).Nodup)
    (f : α → List β) {a : α} (ha : a ∈ l) :
    (l.flatMap fun b => if key b = key a then f b else []) = f a := by
  induction l with
  | nil => cases ha
  | cons b l ih =>
    rw [List.map_cons, List.nodup_cons] at hn
    rw [List.flatMap_cons]
    rcases List.mem_cons.mp ha with rfl | ha
    · rw [if_pos rfl, List.flatMap_eq_nil_iff.mpr, List.append_nil]
      intro b hb
      rw [if_neg]
      intro h
      exact hn.1 (h ▸ List.mem_map_of_mem hb)
    · rw [if_neg, List.nil_append, ih hn.2 ha]
      intro h
      exact hn.1 (h ▸ List.mem_map_of_mem ha)

theorem filter_data {rs : List RecordData} (hg : ∀ r ∈ rs, r.Good) (hn : (rs.map RecordData.x).Nodup)
    (p : ChannelData → Bool) {r : RecordData} (hr : r ∈ rs) :
    ((rs.flatMap data).filter fun d => p d && decide (d.jpi = r.x)) = r.data.filter p := by
  rw [List.filter_flatMap, ← flatMap_single hn (fun r => r.data.filter p) hr]
  simp only [List.flatMap_def]
  congr 1
  refine List.map_congr_left fun b hb => ?_
  have hk : ∀ d ∈ b.data, d.jpi = b.x := by
    intro d hd
    obtain ⟨i, -, rfl⟩ := List.mem_map.mp hd
    exact (hg b hb).key i
  split
  · rename_i h
    refine List.filter_congr fun d hd => ?_
    rw [hk d hd, h]
    simp
  · rename_i h
    rw [List.filter_eq_nil_iff]
    intro d hd
    rw [hk d hd]
    simp [h]

theorem data_kept (r : RecordData) : (r.data.filter fun d => !d.eliminated) = r.kept.map r.D := by
  unfold data kept
  rw [List.filter_map]
  rfl

theorem data_elim (r : RecordData) : (r.data.filter fun d => d.eliminated) = r.elim.map r.D := by
  unfold data elim
  rw [List.filter_map]
  rfl

/-- The spin groups of a system made from the data of records with different J and parity. -/
theorem system_records {initial : (g : SpinGroup) → MatrixCache g.channels.length} {rs : List RecordData}
    {consolidated : List ChannelData} {s : CompoundSystem} (hg : ∀ r ∈ rs, r.Good)
    (hn : (rs.map RecordData.x).Nodup)
    (h4 : consolidateChannelData (rs.flatMap data) = .ok consolidated)
    (h5 : makeCompoundSystemFromData initial consolidated = .ok s) :
    ∃ jpis : List (ℚ ×ₗ ℤ), jpis.Nodup ∧ (∀ x ∈ jpis, ∃ r ∈ rs, r.x = x) ∧
      (∀ r ∈ rs, r.part ≠ [] → r.x ∈ jpis) ∧
      List.Forall₂ (fun x (st : GroupState) => st.group.Built ∧ ∀ r ∈ rs, r.x = x →
        st.group.channels = r.kept.map (fun i => (r.D i).channel) ∧ r.Table st.group.table.resonances)
        jpis s := by
  have hlen : ∀ d ∈ rs.flatMap data, d.energies.length = d.widths.length := by
    intro d hd
    obtain ⟨r, hr, hd⟩ := List.mem_flatMap.mp hd
    obtain ⟨i, -, rfl⟩ := List.mem_map.mp hd
    exact (hg r hr).lengths i
  obtain ⟨merged, k1, k2, k3, k4, k5⟩ := C28_consolidation _ hlen
  rw [k1] at h4
  obtain rfl := Except.ok.inj h4
  obtain ⟨jpis, j1, j2, j3⟩ := C25_contents h5
  have hkey : ∀ d ∈ rs.flatMap data, ∃ r ∈ rs, r.x = d.jpi ∧ d ∈ r.data := by
    intro d hd
    obtain ⟨r, hr, hd⟩ := List.mem_flatMap.mp hd
    obtain ⟨i, hi, rfl⟩ := List.mem_map.mp hd
    exact ⟨r, hr, ((hg r hr).key i).symm, List.mem_map_of_mem hi⟩
  refine ⟨jpis, j1.imp fun h => h.ne, ?_, ?_, j3.imp ?_⟩
  · intro x hx
    obtain ⟨d, hd, h6, h7⟩ := (j2 x.1 x.2).mp hx
    have hx' : d.jpi = x := by
      unfold ChannelData.jpi
      rw [h6, h7]
      rfl
    rcases List.mem_append.mp hd with hd | hd
    · obtain ⟨r, hr, h8, -⟩ := hkey d (List.mem_filter.mp hd).1
      exact ⟨r, hr, h8.trans hx'⟩
    · obtain ⟨a, ha, -, h8⟩ := (k4 _).mp (List.mem_map_of_mem hd)
      obtain ⟨r, hr, h9, -⟩ := hkey a ha
      exact ⟨r, hr, (h9.trans h8).trans hx'⟩
  · intro r hr hne
    obtain ⟨i, hi⟩ := List.exists_mem_of_ne_nil _ hne
    have hd : r.D i ∈ rs.flatMap data := List.mem_flatMap.mpr ⟨r, hr, List.mem_map_of_mem hi⟩
    have hx : ∀ d, d.jpi = r.x → d ∈ (rs.flatMap data).filter (fun d => ¬ d.eliminated) ++ merged →
        r.x ∈ jpis := by
      intro d hd hm
      have := (j2 r.x.1 r.x.2).mpr ⟨d, hm, by rw [← hd]; rfl, by rw [← hd]; rfl⟩
      exact this
    cases he : (r.D i).eliminated with
    | false =>
      exact hx (r.D i) ((hg r hr).key i) (List.mem_append_left _ (List.mem_filter.mpr ⟨hd, by simp [he]⟩))
    | true =>
      obtain ⟨d, hdm, h6⟩ := List.mem_map.mp ((k4 r.x).mpr ⟨_, hd, he, (hg r hr).key i⟩)
      exact hx d h6 (List.mem_append_right _ hdm)
  · rintro x st ⟨b, -, e1, e2⟩
    refine ⟨b, ?_⟩
    rintro r hr rfl
    have hmerged : (merged.filter fun d => ¬ d.eliminated ∧
        toLex (d.channel.numbers.J, d.channel.numbers.parity) = r.x) = [] := by
      rw [List.filter_eq_nil_iff]
      intro d hd
      simp [k2 d hd]
    have hk : ((rs.flatMap data).filter fun d => !d.eliminated && decide (d.jpi = r.x))
        = r.kept.map r.D := by
      rw [filter_data hg hn (fun d => !d.eliminated) hr, data_kept]
    constructor
    · rw [e1, List.filter_append, hmerged, List.append_nil, List.filter_filter]
      rw [show (fun i => (r.D i).channel) = ChannelData.channel ∘ r.D from rfl, ← List.map_map, ← hk]
      refine congrArg (List.map ChannelData.channel) (List.filter_congr fun d _ => ?_)
      rw [Bool.eq_iff_iff]
      simp [ChannelData.jpi]
      exact ⟨fun h => ⟨h.2, decide_eq_true h.1.2⟩, fun h => ⟨⟨h.1, of_decide_eq_true h.2⟩, h.1⟩⟩
    · refine table_of (hg r hr) (merged := merged.filter fun d => decide (d.jpi = r.x)) ?_ ?_
      · have hem : ((rs.flatMap data).filter fun a => a.eliminated && a.jpi == r.x) = r.elim.map r.D := by
          rw [← data_elim, ← filter_data hg hn (fun d => d.eliminated) hr]
          refine List.filter_congr fun d _ => ?_
          rw [Bool.eq_iff_iff]
          simp
        rcases Blocks.filter_key k3 r.x with h0 | ⟨d, hd⟩
        · refine .inl ⟨h0, ?_⟩
          by_contra hne
          obtain ⟨i, hi⟩ := List.exists_mem_of_ne_nil _ hne
          have hi' := List.mem_filter.mp hi
          obtain ⟨d, hd, h6⟩ := List.mem_map.mp ((k4 r.x).mpr ⟨r.D i, List.mem_flatMap.mpr ⟨r, hr,
            List.mem_map_of_mem hi'.1⟩, hi'.2, (hg r hr).key i⟩)
          rw [List.filter_eq_nil_iff] at h0
          exact h0 d hd (by simpa using h6)
        · have hdm : d ∈ merged.filter fun d => decide (d.jpi = r.x) := by rw [hd]; simp
          simp only [List.mem_filter, decide_eq_true_eq] at hdm
          obtain ⟨-, c1, c2⟩ := k5 d hdm.1
          rw [hdm.2, hem] at c1 c2
          exact .inr ⟨d, hd, k2 d hdm.1, c1, c2⟩
      · rw [← e2, List.filter_append, ← hk, List.filter_filter]
        congr 2
        refine List.filter_congr fun d _ => ?_
        rw [Bool.eq_iff_iff]
        simp [ChannelData.jpi]
        exact ⟨fun h => ⟨of_decide_eq_true h.2, h.1⟩, fun h => ⟨h.2, decide_eq_true h.1⟩⟩

end RecordData

end Verif.Endf
