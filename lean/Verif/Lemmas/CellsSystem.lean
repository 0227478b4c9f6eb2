import Verif.Lemmas.CellsTable
import Verif.Lemmas.BreitWignerRange

/-!
# Compound systems of independent cells
-/

namespace Verif.Blocks

open Complex Spec

/-- J and parity of a cell. -/
noncomputable def Cell.jpi (cell : Cell) : ℚ ×ₗ ℤ := (cell.datum 0).jpi

/-- The cells with one J and parity. -/
noncomputable def cellsOf (cells : List Cell) (x : ℚ ×ₗ ℤ) : List Cell :=
  cells.filter fun c => decide (c.jpi = x)

theorem mem_cellsOf {cells : List Cell} {x : ℚ ×ₗ ℤ} {c : Cell} :
    c ∈ cellsOf cells x ↔ c ∈ cells ∧ c.jpi = x := by
  simp [cellsOf]

theorem kept_filter {cells : List Cell} (hkey : ∀ c ∈ cells, ∀ j ∈ c.roles, (c.datum j).jpi = c.jpi)
    (x : ℚ ×ₗ ℤ) :
    ((cells.flatMap Cell.kept).filter fun d => decide (d.jpi = x)) = (cellsOf cells x).flatMap Cell.kept := by
  unfold cellsOf
  induction cells with
  | nil => rfl
  | cons c cells ih =>
    rw [List.flatMap_cons, List.filter_append, ih fun c hc => hkey c (List.mem_cons_of_mem _ hc)]
    have hc := hkey c List.mem_cons_self
    by_cases h : c.jpi = x
    · rw [List.filter_cons_of_pos (by simpa using h), List.flatMap_cons, List.filter_eq_self.mpr]
      intro d hd
      obtain ⟨j, hj, rfl⟩ := List.mem_map.mp hd
      simpa [hc j hj] using h
    · rw [List.filter_cons_of_neg (by simpa using h), List.filter_eq_nil_iff.mpr, List.nil_append]
      intro d hd
      obtain ⟨j, hj, rfl⟩ := List.mem_map.mp hd
      simpa [hc j hj] using h

/-- At most one element has a given key if the keys increase. -/
theorem filter_key {α β : Type*} [LinearOrder β] {key : α → β} {l : List α}
    (h : (l.map key).Pairwise (· < ·)) (x : β) :
    (l.filter fun a => decide (key a = x)) = [] ∨ ∃ d, (l.filter fun a => decide (key a = x)) = [d] := by
  have hn : ((l.filter fun a => decide (key a = x)).map key).Nodup :=
    (h.imp fun h => h.ne).sublist (List.Sublist.map _ List.filter_sublist)
  match hf : l.filter fun a => decide (key a = x) with
  | [] => exact .inl rfl
  | [d] => exact .inr ⟨d, rfl⟩
  | d :: e :: rest =>
    rw [hf] at hn
    have hd : d ∈ l.filter fun a => decide (key a = x) := by rw [hf]; simp
    have he : e ∈ l.filter fun a => decide (key a = x) := by rw [hf]; simp
    simp only [List.mem_filter, decide_eq_true_eq] at hd he
    simp [hd.2, he.2] at hn

/-- The spin groups of a system made from the data of independent cells. -/
theorem system_groups {initial : (g : SpinGroup) → MatrixCache g.channels.length} {cells : List Cell}
    {data consolidated : List ChannelData} {s : CompoundSystem}
    (hkept : (data.filter fun d => ¬ d.eliminated) = cells.flatMap Cell.kept)
    (hlen : ∀ d ∈ data, d.energies.length = d.widths.length)
    (hkey : ∀ c ∈ cells, ∀ j ∈ c.roles, (c.datum j).jpi = c.jpi)
    (hg : ∀ c ∈ cells, c.Good)
    (hcap : ∀ x, (data.filter fun a => a.eliminated && a.jpi == x).flatMap ChannelData.energies
        = ((cellsOf cells x).flatMap Cell.rows).map Row.energy ∧
      (data.filter fun a => a.eliminated && a.jpi == x).flatMap ChannelData.widths
        = ((cellsOf cells x).flatMap Cell.rows).map Row.eliminated)
    (hnd : ∀ x, (((cellsOf cells x).flatMap Cell.rows).map Row.energy).Nodup)
    (h4 : consolidateChannelData data = .ok consolidated)
    (h5 : makeCompoundSystemFromData initial consolidated = .ok s) :
    ∃ jpis : List (ℚ ×ₗ ℤ), jpis.Nodup ∧ (∀ c ∈ cells, c.jpi ∈ jpis) ∧
      List.Forall₂ (fun x (st : GroupState) => st.group.Built ∧ cellsOf cells x ≠ [] ∧
        st.group.channels = channelsOf (cellsOf cells x) ∧
        Resonant (cellsOf cells x) st.group.table.resonances) jpis s := by
  obtain ⟨merged, k1, k2, k3, k4, k5⟩ := C28_consolidation data hlen
  rw [k1] at h4
  obtain rfl := Except.ok.inj h4
  rw [hkept] at h5
  obtain ⟨jpis, j1, j2, j3⟩ := C25_contents h5
  refine ⟨jpis, j1.imp fun h => h.ne, ?_, j3.imp ?_⟩
  · intro c hc
    refine (j2 _ _).mpr ⟨c.datum 0, List.mem_append_left _ (List.mem_flatMap.mpr ⟨c, hc,
      List.mem_map_of_mem (hg c hc).elastic⟩), rfl, rfl⟩
  · rintro x st ⟨b, -, e1, e2⟩
    have hchan : st.group.channels = channelsOf (cellsOf cells x) := by
      rw [e1, ← kept_channels, ← kept_filter hkey, List.filter_append]
      have h0 : (merged.filter fun d => ¬ d.eliminated ∧
          toLex (d.channel.numbers.J, d.channel.numbers.parity) = x) = [] := by
        rw [List.filter_eq_nil_iff]
        intro d hd
        simp [k2 d hd]
      rw [h0, List.append_nil]
      refine congrArg (List.map ChannelData.channel) (List.filter_congr fun d hd => ?_)
      rw [Bool.eq_iff_iff, decide_eq_true_eq, decide_eq_true_eq, kept_eliminated hd]
      simp [ChannelData.jpi]
    refine ⟨b, ?_, hchan, ?_⟩
    · intro h0
      obtain ⟨-, first, rest, e3, -⟩ := b.incident
      rw [hchan, h0] at e3
      cases e3
    · have hf : ((cells.flatMap Cell.kept ++ merged).filter fun d =>
          toLex (d.channel.numbers.J, d.channel.numbers.parity) = x)
          = (cellsOf cells x).flatMap Cell.kept ++ merged.filter fun d => decide (d.jpi = x) := by
        rw [List.filter_append, ← kept_filter hkey]
        rfl
      rw [hf] at e2
      refine resonant_table (fun c hc => hg c (mem_cellsOf.mp hc).1) (hnd x) ?_ e2
      rcases filter_key k3 x with h0 | ⟨d, hd⟩
      · refine .inl ⟨h0, ?_⟩
        have hno : (data.filter fun a => a.eliminated && a.jpi == x) = [] := by
          rw [List.filter_eq_nil_iff]
          intro a ha hax
          simp only [Bool.and_eq_true, beq_iff_eq] at hax
          obtain ⟨d, hd, e⟩ := List.mem_map.mp ((k4 x).mpr ⟨a, ha, hax⟩)
          rw [List.filter_eq_nil_iff] at h0
          exact h0 d hd (by simpa using e)
        have := (hcap x).1
        rw [hno, List.flatMap_nil] at this
        exact List.map_eq_nil_iff.mp this.symm
      · have hdm : d ∈ merged.filter fun d => decide (d.jpi = x) := by rw [hd]; simp
        simp only [List.mem_filter, decide_eq_true_eq] at hdm
        obtain ⟨-, c1, c2⟩ := k5 d hdm.1
        rw [hdm.2] at c1 c2
        exact .inr ⟨d, hd, k2 d hdm.1, c1.trans (hcap x).1, c2.trans (hcap x).2⟩

theorem sum_by_jpi {cells : List Cell} {xs : List (ℚ ×ₗ ℤ)} (hx : xs.Nodup)
    (hl : ∀ c ∈ cells, c.jpi ∈ xs) (w : ℚ ×ₗ ℤ → ℝ) (t : Cell → ℝ) :
    (xs.map fun x => w x * ((cellsOf cells x).map t).sum).sum
      = (cells.map fun c => w c.jpi * t c).sum := by
  have hp := ((flatMap_filter_perm Cell.jpi xs hx cells hl).map fun c => w c.jpi * t c).sum_eq
  rw [← hp, List.map_flatMap, List.flatMap_def, List.sum_flatten, List.map_map]
  congr 1
  refine List.map_congr_left fun x _ => ?_
  simp only [Function.comp]
  rw [← List.sum_map_mul_left]
  congr 1
  refine List.map_congr_left fun c hc => ?_
  rw [(mem_cellsOf.mp hc).2]

section

variable {K : Constants} {lib : CoulombLibrary} {E k : ℝ} {id : PairID}

theorem mem_channelsOf {cells : List Cell} {c : Channel} :
    c ∈ channelsOf cells ↔ ∃ cell ∈ cells, ∃ j ∈ cell.roles, cell.channel j = c := by
  simp [channelsOf_eq]

/-- The cross sections of one group. -/
theorem group_values {cells : List Cell} {g : SpinGroup} {cache cache' : MatrixCache g.channels.length}
    {part : CrossSectionMap} {spinFactor : ℝ} (hb : g.Built) (hne : cells ≠ [])
    (hch : g.channels = channelsOf cells) (hR : Resonant cells g.table.resonances)
    (hg : ∀ c ∈ cells, c.Good) (hn : ∀ c ∈ cells, c.Neutronic id)
    (hopen : ∀ c ∈ cells, ∀ j ∈ c.roles, ¬ (c.channel j).belowThreshold E)
    (hk : ∀ c ∈ cells, (c.channel 0).waveNumber K E = k)
    (hG : ∀ c ∈ cells, ((c.channel 0).spinFactor : ℝ) = spinFactor)
    (h : g.evaluate .shiftFactor K lib E cache (fun _ => none) = .ok (part, cache')) :
    k ≠ 0 ∧
    (∀ c ∈ cells, ∀ j ∈ c.roles, (∃ P, (c.channel j).penetrability K lib E = .ok P ∧ 0 ≤ P) ∧
      ∃ φ, (c.channel j).phaseShift K lib E = .ok φ) ∧
    part (.elastic id) = some (Real.pi / k ^ 2 * spinFactor
      * (cells.map fun c => normSq (1 - c.collision K lib E 0 0)).sum) ∧
    part (.transition id "capture".toList) = some (Real.pi / k ^ 2 * spinFactor
      * (cells.map fun c => 1 - ∑ j, normSq (c.collision K lib E 0 j)).sum) ∧
    (part (.transition id "fission".toList)).getD 0 = Real.pi / k ^ 2 * spinFactor
      * (cells.map fun c => normSq (c.collision K lib E 0 1) + normSq (c.collision K lib E 0 2)).sum ∧
    ∀ id', id' ≠ .elastic id → id' ≠ .transition id "capture".toList → id' ≠ .transition id "fission".toList →
      part id' = none := by
  obtain ⟨P, S, w, phi, hev, hv⟩ := evaluate_ok hb h
  obtain ⟨-, first, rest, hfirst, hreac, -⟩ := hb.incident
  generalize g.reactions = reactions at hv hreac
  clear h cache cache' hb
  generalize g.channels = channels at *
  subst hch
  have hfc : ∃ cell ∈ cells, ∃ j ∈ cell.roles, cell.channel j = first :=
    mem_channelsOf.mp (by rw [hfirst]; simp)
  have hfid : first.incident.id = id := by
    obtain ⟨cell, hc, j, -, rfl⟩ := hfc
    by_cases hj : j = 0
    · rw [hj]; exact (hn cell hc).elastic.2.2.1
    · exact ((hn cell hc).fission j hj).2.2.1
  have hfactor : incidentFactor K (channelsOf cells) E = Real.pi / k ^ 2 * spinFactor ∧ k ≠ 0 := by
    obtain ⟨c, hc, hc0⟩ := hev.waveNumber
    obtain ⟨cell, hcell, j, hj, rfl⟩ := mem_channelsOf.mp (List.mem_of_find?_eq_some hc)
    have hi := List.find?_some hc
    have h0 : j = 0 := by
      by_contra hj0
      rw [((hn cell hcell).fission j hj0).2.1] at hi
      cases hi
    subst h0
    rw [hk cell hcell] at hc0
    refine ⟨?_, hc0⟩
    unfold incidentFactor
    rw [hc]
    simp only
    rw [hk cell hcell, hG cell hcell]
  have hopen' : ∀ c ∈ channelsOf cells, ¬ c.belowThreshold E := by
    intro c hc
    obtain ⟨cell, hcell, j, hj, rfl⟩ := mem_channelsOf.mp hc
    exact hopen cell hcell j hj
  obtain ⟨c1, c2, c3⟩ := contribution_cells hR hg hne hn hopen' hev
  rw [hfactor.1] at c1 c2 c3
  rw [hfid] at hreac
  have hmem : ∀ id', id' ∈ reactions ↔ (∃ c ∈ channelsOf cells, c.reaction = id') ∨
      id' = .transition id "capture".toList := by
    intro id'
    rw [hreac]
    simp
  refine ⟨hfactor.2, ?_, ?_, ?_, ?_, ?_⟩
  · intro c hc j hj
    obtain ⟨i, hi, e⟩ := List.mem_iff_getElem.mp (mem_channelsOf.mpr ⟨c, hc, j, hj, rfl⟩)
    rw [← e]
    exact ⟨⟨_, hev.penetrability ⟨i, hi⟩, hev.nonneg _⟩, _, hev.phase ⟨i, hi⟩⟩
  · obtain ⟨cell, hcell⟩ := List.exists_mem_of_ne_nil _ hne
    rw [hv, if_pos ((hmem _).mpr (.inl ⟨_, mem_channelsOf.mpr ⟨cell, hcell, 0, (hg cell hcell).elastic, rfl⟩,
      (hn cell hcell).elastic.2.2.2⟩)), c1]
    simp
  · rw [hv, if_pos ((hmem _).mpr (.inr rfl)), c3]
    simp
  · rw [hv]
    split
    · rw [c2]
      simp
    · rename_i hno
      rw [hmem] at hno
      simp only [not_or, not_exists, not_and] at hno
      rw [← c2]
      unfold contribution
      simp only [Option.getD_none]
      symm
      refine Finset.sum_eq_zero fun c _ => ?_
      split
      · rw [Finset.sum_eq_zero, zero_add, if_neg]
        · unfold captureID
          rw [hfirst]
          simp only [List.head?_cons, Option.map_some, Option.some.injEq, hfid]
          exact fun e => hno.2 e.symm
        · intro c' _
          rw [if_neg]
          exact hno.1 _ (List.getElem_mem _)
      · rfl
  · intro id' h1 h2 h3
    rw [hv, if_neg]
    rw [hmem]
    rintro (⟨c, hc, rfl⟩ | rfl)
    · obtain ⟨cell, hcell, j, hj, rfl⟩ := mem_channelsOf.mp hc
      by_cases h0 : j = 0
      · rw [h0] at h1
        exact h1 (hn cell hcell).elastic.2.2.2
      · exact h3 ((hn cell hcell).fission j h0).2.2.2
    · exact h2 rfl

/-- The cross sections of a system of independent cells. -/
theorem system_values {cells : List Cell} {jpis : List (ℚ ×ₗ ℤ)} {s s' : CompoundSystem}
    {m : CrossSectionMap} {spinFactor : ℚ ×ₗ ℤ → ℝ} (hx : jpis.Nodup) (hl : ∀ c ∈ cells, c.jpi ∈ jpis)
    (hs : List.Forall₂ (fun x (st : GroupState) => st.group.Built ∧ cellsOf cells x ≠ [] ∧
        st.group.channels = channelsOf (cellsOf cells x) ∧
        Resonant (cellsOf cells x) st.group.table.resonances) jpis s)
    (hne : cells ≠ []) (hg : ∀ c ∈ cells, c.Good) (hn : ∀ c ∈ cells, c.Neutronic id)
    (hopen : ∀ c ∈ cells, ∀ j ∈ c.roles, ¬ (c.channel j).belowThreshold E)
    (hk : ∀ c ∈ cells, (c.channel 0).waveNumber K E = k)
    (hG : ∀ c ∈ cells, ((c.channel 0).spinFactor : ℝ) = spinFactor c.jpi)
    (hm : CompoundSystem.evaluate .shiftFactor K lib E s (fun _ => none) = .ok (m, s')) :
    k ≠ 0 ∧
    (∀ c ∈ cells, ∀ j ∈ c.roles, (∃ P, (c.channel j).penetrability K lib E = .ok P ∧ 0 ≤ P) ∧
      ∃ φ, (c.channel j).phaseShift K lib E = .ok φ) ∧
    m (.elastic id) = some (Real.pi / k ^ 2
      * (cells.map fun c => ((c.channel 0).spinFactor : ℝ) * normSq (1 - c.collision K lib E 0 0)).sum) ∧
    m (.transition id "capture".toList) = some (Real.pi / k ^ 2
      * (cells.map fun c => ((c.channel 0).spinFactor : ℝ)
        * (1 - ∑ j, normSq (c.collision K lib E 0 j))).sum) ∧
    (m (.transition id "fission".toList)).getD 0 = Real.pi / k ^ 2
      * (cells.map fun c => ((c.channel 0).spinFactor : ℝ)
        * (normSq (c.collision K lib E 0 1) + normSq (c.collision K lib E 0 2))).sum ∧
    ∀ id', id' ≠ .elastic id → id' ≠ .transition id "capture".toList → id' ≠ .transition id "fission".toList →
      m id' = none := by
  have hb : ∀ st ∈ s, st.group.Built := by
    intro st hst
    obtain ⟨x, -, h, -⟩ := Endf.forall₂_mem_right hs hst
    exact h
  obtain ⟨parts, hp, hid⟩ := C22_system hb hm
  have hsp := forall₂_trans hs hp
  have key : ∀ x part, (∃ st : GroupState, (st.group.Built ∧ cellsOf cells x ≠ [] ∧
        st.group.channels = channelsOf (cellsOf cells x) ∧
        Resonant (cellsOf cells x) st.group.table.resonances) ∧ ∃ cache,
        st.group.evaluate .shiftFactor K lib E st.cache (fun _ => none) = .ok (part, cache)) → _ :=
    fun x part ⟨st, ⟨h1, h2, h3, h4⟩, cache, h5⟩ =>
      group_values h1 h2 h3 h4 (fun c hc => hg c (mem_cellsOf.mp hc).1)
        (fun c hc => hn c (mem_cellsOf.mp hc).1) (fun c hc => hopen c (mem_cellsOf.mp hc).1)
        (fun c hc => hk c (mem_cellsOf.mp hc).1)
        (spinFactor := spinFactor x)
        (fun c hc => by rw [hG c (mem_cellsOf.mp hc).1, (mem_cellsOf.mp hc).2]) h5
  obtain ⟨cell0, hcell0⟩ := List.exists_mem_of_ne_nil _ hne
  obtain ⟨part0, hpart0, hpart0'⟩ := Endf.forall₂_mem_left hsp (hl cell0 hcell0)
  have key0 := key _ _ hpart0'
  have hsum : ∀ (f : Cell → ℝ) (id' : ReactionID), (∀ x part, (∃ st : GroupState, (st.group.Built ∧
        cellsOf cells x ≠ [] ∧ st.group.channels = channelsOf (cellsOf cells x) ∧
        Resonant (cellsOf cells x) st.group.table.resonances) ∧ ∃ cache,
        st.group.evaluate .shiftFactor K lib E st.cache (fun _ => none) = .ok (part, cache)) →
        (part id').getD 0 = Real.pi / k ^ 2 * spinFactor x * ((cellsOf cells x).map f).sum) →
      (parts.map fun m => (m id').getD 0).sum = Real.pi / k ^ 2
        * (cells.map fun c => ((c.channel 0).spinFactor : ℝ) * f c).sum := by
    intro f id' h
    rw [forall₂_sum_eq (f := fun x => Real.pi / k ^ 2 * spinFactor x * ((cellsOf cells x).map f).sum) hsp
      fun x _ part hx => h x part hx]
    rw [sum_by_jpi hx hl (fun x => Real.pi / k ^ 2 * spinFactor x) f, ← List.sum_map_mul_left]
    congr 1
    refine List.map_congr_left fun c hc => ?_
    rw [hG c hc, mul_assoc]
  refine ⟨key0.1, ?_, ?_, ?_, ?_, ?_⟩
  · intro c hc j hj
    obtain ⟨part, hpart, hpart'⟩ := Endf.forall₂_mem_left hsp (hl c hc)
    exact (key _ _ hpart').2.1 c (mem_cellsOf.mpr ⟨hc, rfl⟩) j hj
  · rw [hid, if_pos ⟨part0, hpart0, by rw [key0.2.2.1]; rfl⟩,
      hsum (fun c => normSq (1 - c.collision K lib E 0 0))]
    · simp
    · intro x part hx
      rw [(key x part hx).2.2.1]
      rfl
  · rw [hid, if_pos ⟨part0, hpart0, by rw [key0.2.2.2.1]; rfl⟩,
      hsum (fun c => 1 - ∑ j, normSq (c.collision K lib E 0 j))]
    · simp
    · intro x part hx
      rw [(key x part hx).2.2.2.1]
      rfl
  · have h1 := hsum (fun c => normSq (c.collision K lib E 0 1) + normSq (c.collision K lib E 0 2))
      (.transition id "fission".toList) fun x part hx => (key x part hx).2.2.2.2.1
    rw [hid]
    split
    · rw [h1]
      simp
    · rename_i hno
      rw [← h1]
      symm
      apply List.sum_eq_zero
      intro v hv
      obtain ⟨part, hpart, rfl⟩ := List.mem_map.mp hv
      cases hpid : part (.transition id "fission".toList) with
      | none => rfl
      | some v => exact absurd ⟨part, hpart, by rw [hpid]; rfl⟩ hno
  · intro id' h1 h2 h3
    rw [hid, if_neg]
    rintro ⟨part, hpart, hsome⟩
    obtain ⟨x, -, hx⟩ := Endf.forall₂_mem_right hsp hpart
    rw [(key x part hx).2.2.2.2.2 id' h1 h2 h3] at hsome
    cases hsome

end

end Verif.Blocks
