import Verif.Lemmas.CellsCrossSections
import Verif.Lemmas.Endf
import Verif.Props.CompoundSystem

/-!
# The resonance tables of spin groups of independent cells
-/

namespace Verif.Blocks

open Spec

/-- The data of one channel of a cell. -/
noncomputable def Cell.datum (cell : Cell) (j : Fin 3) : ChannelData :=
  ⟨cell.channel j, cell.rows.map Row.energy, cell.rows.map fun r => r.width j, false⟩

/-- The data of the channels of a cell. -/
noncomputable def Cell.kept (cell : Cell) : List ChannelData := cell.roles.map cell.datum

theorem kept_eq (cells : List Cell) :
    cells.flatMap Cell.kept = (tags cells).map fun t => (cells.get t.1).datum t.2 := by
  unfold tags
  rw [List.map_flatMap]
  have : cells.flatMap Cell.kept
      = ((List.finRange cells.length).map fun k => (cells.get k)).flatMap Cell.kept := by
    congr 1
    rw [← List.ofFn_eq_map]
    exact (List.ofFn_get cells).symm
  rw [this, List.flatMap_map]
  congr 1
  funext k
  rw [List.map_map]
  rfl

theorem kept_eliminated {cells : List Cell} {d : ChannelData} (h : d ∈ cells.flatMap Cell.kept) :
    d.eliminated = false := by
  obtain ⟨c, -, h⟩ := List.mem_flatMap.mp h
  obtain ⟨j, -, rfl⟩ := List.mem_map.mp h
  rfl

theorem kept_channels (cells : List Cell) :
    (cells.flatMap Cell.kept).map ChannelData.channel = channelsOf cells := by
  rw [channelsOf_eq, List.map_flatMap]
  congr 1
  funext c
  rw [Cell.kept, List.map_map]
  rfl

theorem lastWidth_missing {d : ChannelData} {E : ℝ} (h : E ∉ d.energies) : lastWidth d E = 0 := by
  unfold lastWidth
  rw [List.find?_eq_none.mpr]
  · rfl
  · intro p hp
    have := (List.of_mem_zip (a := p.1) (b := p.2) (List.mem_reverse.mp hp)).1
    simp only [decide_eq_true_eq]
    rintro rfl
    exact h this

/-- The table made from the data of the cells and the joint eliminated channel. -/
theorem resonant_table {cells : List Cell} {merged : List ChannelData} {table : ResonanceTable}
    (hg : ∀ c ∈ cells, c.Good) (hnd : ((cells.flatMap Cell.rows).map Row.energy).Nodup)
    (hm : (merged = [] ∧ cells.flatMap Cell.rows = []) ∨ ∃ d, merged = [d] ∧ d.eliminated = true ∧
      d.energies = (cells.flatMap Cell.rows).map Row.energy ∧
      d.widths = (cells.flatMap Cell.rows).map Row.eliminated)
    (h : makeResonanceTable (cells.flatMap Cell.kept ++ merged) = .ok table) :
    Resonant cells table.resonances := by
  have hlen : ∀ d ∈ cells.flatMap Cell.kept ++ merged, d.energies.length = d.widths.length := by
    intro d hd
    rcases List.mem_append.mp hd with hd | hd
    · obtain ⟨c, -, hd⟩ := List.mem_flatMap.mp hd
      obtain ⟨j, -, rfl⟩ := List.mem_map.mp hd
      simp [Cell.datum]
    · rcases hm with ⟨rfl, -⟩ | ⟨d', rfl, -, h1, h2⟩
      · cases hd
      · rw [List.mem_singleton.mp hd, h1, h2]
        simp
  obtain ⟨-, h2, h3, h4⟩ := C26_contents hlen h
  have hfk : ((cells.flatMap Cell.kept ++ merged).filter fun d => ¬ d.eliminated) = cells.flatMap Cell.kept := by
    rw [List.filter_append, List.filter_eq_self.mpr, List.filter_eq_nil_iff.mpr, List.append_nil]
    · intro d hd
      rcases hm with ⟨rfl, -⟩ | ⟨d', rfl, e, -⟩
      · cases hd
      · rw [List.mem_singleton.mp hd, e]
        simp
    · intro d hd
      simp [kept_eliminated hd]
  have hnd' := hnd
  rw [List.map_flatMap, List.nodup_flatMap] at hnd'
  refine ⟨?_, ?_, fun r hr => by rw [(h4 r hr).1, hfk, kept_eq]; simp [channelsOf]⟩
  · refine (List.perm_ext_iff_of_nodup (h2.imp fun h => h.ne) hnd).mpr fun E => ?_
    rw [h3]
    constructor
    · rintro ⟨d, hd, hE⟩
      rcases List.mem_append.mp hd with hd | hd
      · obtain ⟨c, hc, hd⟩ := List.mem_flatMap.mp hd
        obtain ⟨j, -, rfl⟩ := List.mem_map.mp hd
        obtain ⟨row, hrow, rfl⟩ := List.mem_map.mp hE
        exact List.mem_map_of_mem (List.mem_flatMap.mpr ⟨c, hc, hrow⟩)
      · rcases hm with ⟨rfl, -⟩ | ⟨d', rfl, e, e1, -⟩
        · cases hd
        · rw [List.mem_singleton.mp hd, e1] at hE
          exact hE
    · intro hE
      obtain ⟨row, hrow, rfl⟩ := List.mem_map.mp hE
      obtain ⟨c, hc, hrow⟩ := List.mem_flatMap.mp hrow
      refine ⟨c.datum 0, List.mem_append_left _ (List.mem_flatMap.mpr ⟨c, hc,
        List.mem_map_of_mem (hg c hc).elastic⟩), List.mem_map_of_mem hrow⟩
  · intro r hr k row hrow he
    obtain ⟨h5, h6⟩ := h4 r hr
    have hin : row ∈ cells.flatMap Cell.rows := List.mem_flatMap.mpr ⟨_, List.get_mem cells k, hrow⟩
    constructor
    · rcases hm with ⟨-, h0⟩ | ⟨d, rfl, e, e1, e2⟩
      · rw [h0] at hin
        cases hin
      · have hf : (cells.flatMap Cell.kept ++ [d]).find? ChannelData.eliminated = some d := by
          rw [List.find?_append, List.find?_eq_none.mpr, List.find?_cons_of_pos e]
          · rfl
          · intro d hd
            simp [kept_eliminated hd]
        rw [h6, hf, he]
        refine lastWidth_of_nodup (d := d) (p := (row.energy, row.eliminated)) (by rw [e1]; exact hnd) ?_
        rw [e1, e2, List.zip_map']
        exact List.mem_map_of_mem (f := fun r : Row => (r.energy, r.eliminated)) hin
    · intro i
      have hi : i.1 < (tags cells).length := by have := i.2; simpa [channelsOf] using this
      have hw : r.width i = lastWidth ((cells.get (tagOf cells i).1).datum (tagOf cells i).2) r.energy := by
        unfold Resonance.width tagOf
        rw [h5, hfk, kept_eq, List.map_map, List.getD_eq_getElem?_getD, List.getElem?_map,
          List.getElem?_eq_getElem hi]
        rfl
      rw [hw, he]
      by_cases hk : (tagOf cells i).1 = k
      · rw [if_pos hk, hk]
        refine lastWidth_of_nodup (p := (row.energy, row.width (tagOf cells i).2)) ?_ ?_
        · exact hnd'.1 _ (List.get_mem cells k)
        · simp only [Cell.datum]
          rw [List.zip_map']
          exact List.mem_map_of_mem (f := fun r : Row => (r.energy, r.width (tagOf cells i).2)) hrow
      · rw [if_neg hk]
        refine lastWidth_missing ?_
        intro hmem
        have hmem' : row.energy ∈ (cells.get k).rows.map Row.energy := List.mem_map_of_mem hrow
        rcases lt_or_gt_of_ne hk with hlt | hlt
        · exact List.pairwise_iff_get.mp hnd'.2 _ _ hlt hmem hmem'
        · exact List.pairwise_iff_get.mp hnd'.2 _ _ hlt hmem' hmem

end Verif.Blocks
