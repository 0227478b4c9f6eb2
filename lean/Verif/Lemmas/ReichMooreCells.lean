import Verif.Lemmas.CellsSystem
import Verif.Lemmas.ReichMooreAccepted

/-!
# The cells of a Reich-Moore evaluation
-/

namespace Verif.Endf

open Spec Blocks

variable {K : Constants} {lib : CoulombLibrary}

/-- The resonances of a block. -/
def Block.current (b : Block) : List ReichMooreResonance :=
  b.lvalue.resonances.filter fun r => r.spin == b.J

/-- There are no first or second fission widths. -/
noncomputable def Block.zeroA (b : Block) : Bool :=
  isAllZero (b.current.map ReichMooreResonance.firstFissionWidth)

noncomputable def Block.zeroB (b : Block) : Bool :=
  isAllZero (b.current.map ReichMooreResonance.secondFissionWidth)

/-- The elastic reduced width of a resonance. -/
noncomputable def Block.elasticWidth (K : Constants) (lib : CoulombLibrary) (b : Block)
    (r : ReichMooreResonance) : ℝ :=
  okValue ((elasticChannel b.pair b.radii b.numbers).penetrability K lib r.energy >>=
    toElasticWidth r.neutronWidth)

/-- The cell of a block. -/
noncomputable def Block.cell (K : Constants) (lib : CoulombLibrary) (b : Block) : Cell where
  channel := ![elasticChannel b.pair b.radii b.numbers,
    fissionChannel b.pair b.fission b.radii b.lvalue.l b.J "fission1".toList,
    fissionChannel b.pair b.fission b.radii b.lvalue.l b.J
      (if b.zeroA then "fission1".toList else "fission2".toList)]
  roles := [0] ++ (if b.zeroA then [] else [1]) ++ (if b.zeroB then [] else [2])
  rows := b.current.map fun r => ⟨r.energy, ![b.elasticWidth K lib r, toOtherWidth r.firstFissionWidth,
    toOtherWidth r.secondFissionWidth], toOtherWidth r.gammaWidth⟩

/-- What the data of a block have to do with its cell. -/
structure Block.Cellular (K : Constants) (lib : CoulombLibrary) (b : Block) : Prop where
  kept : (b.data.filter fun d => ¬ d.eliminated) = (b.cell K lib).kept
  jpi : ∀ d ∈ b.data, d.jpi = (b.cell K lib).jpi
  energies : (b.data.filter fun d => d.eliminated).flatMap ChannelData.energies
    = (b.cell K lib).rows.map Row.energy
  widths : (b.data.filter fun d => d.eliminated).flatMap ChannelData.widths
    = (b.cell K lib).rows.map Row.eliminated
  lengths : ∀ d ∈ b.data, d.energies.length = d.widths.length

theorem toOtherWidth_zero : toOtherWidth 0 = 0 := by
  simp [toOtherWidth]

theorem okValue_ok {x : Outcome ℝ} {v : ℝ} (h : x = .ok v) : okValue x = v := by rw [h]; rfl

theorem Block.cell_roles (b : Block) : (b.cell K lib).roles
    = [0] ++ (if b.zeroA then [] else [1]) ++ (if b.zeroB then [] else [2]) := rfl

theorem Block.mem_roles {b : Block} {j : Fin 3} : j ∈ (b.cell K lib).roles ↔
    j = 0 ∨ (j = 1 ∧ b.zeroA = false) ∨ (j = 2 ∧ b.zeroB = false) := by
  rw [Block.cell_roles]
  rcases b.zeroA <;> rcases b.zeroB <;> simp

theorem Block.cell_good (b : Block) : (b.cell K lib).Good := by
  refine ⟨?_, ?_, ?_⟩
  · rw [Block.cell_roles]
    rcases b.zeroA <;> rcases b.zeroB <;> decide
  · exact Block.mem_roles.mpr (Or.inl rfl)
  · intro j hj row hrow
    obtain ⟨r, hr, rfl⟩ := List.mem_map.mp hrow
    have h0 : j ≠ 0 := by
      rintro rfl
      exact hj (Block.mem_roles.mpr (Or.inl rfl))
    have hA : b.zeroA = true → r.firstFissionWidth = 0 := fun h =>
      isAllZero_iff.mp h _ (List.mem_map_of_mem hr)
    have hB : b.zeroB = true → r.secondFissionWidth = 0 := fun h =>
      isAllZero_iff.mp h _ (List.mem_map_of_mem hr)
    have hj' : (j = 1 → b.zeroA = true) ∧ (j = 2 → b.zeroB = true) := by
      constructor
      · rintro rfl
        by_contra h
        exact hj (Block.mem_roles.mpr (Or.inr (Or.inl ⟨rfl, by simpa using h⟩)))
      · rintro rfl
        by_contra h
        exact hj (Block.mem_roles.mpr (Or.inr (Or.inr ⟨rfl, by simpa using h⟩)))
    fin_cases j
    · exact absurd rfl h0
    · show toOtherWidth r.firstFissionWidth = 0
      rw [hA (hj'.1 rfl), toOtherWidth_zero]
    · show toOtherWidth r.secondFissionWidth = 0
      rw [hB (hj'.2 rfl), toOtherWidth_zero]

theorem Block.cell_neutronic {incident target : Str} {b : Block} (hp : b.pair.id = pairID incident target)
    (hf : b.fission.id = "fission".toList) : (b.cell K lib).Neutronic (pairID incident target) := by
  have hne : pairID incident target ≠ "fission".toList := fun e =>
    pairID_ne_of_not_mem (by decide) e.symm
  constructor
  · show ((elasticChannel b.pair b.radii b.numbers).type = _) ∧
      (elasticChannel b.pair b.radii b.numbers).isIncident = true ∧
      (elasticChannel b.pair b.radii b.numbers).incident.id = _ ∧
      (elasticChannel b.pair b.radii b.numbers).reaction = _
    simp [elasticChannel, plainChannel, makeChannel, Channel.isIncident, makeReactionID, hp]
  · have key : ∀ name, (fissionChannel b.pair b.fission b.radii b.lvalue.l b.J name).type = .fission ∧
        (fissionChannel b.pair b.fission b.radii b.lvalue.l b.J name).isIncident = false ∧
        (fissionChannel b.pair b.fission b.radii b.lvalue.l b.J name).incident.id = pairID incident target ∧
        (fissionChannel b.pair b.fission b.radii b.lvalue.l b.J name).reaction
          = .transition (pairID incident target) "fission".toList := by
      intro name
      refine ⟨rfl, ?_, hp, ?_⟩
      · simp only [fissionChannel, makeChannel, Channel.isIncident, hp, hf]
        simpa using fun e => hne e.symm
      · simp only [fissionChannel, makeChannel, makeReactionID, hp, hf]
        rw [if_neg hne]
    intro j hj
    fin_cases j
    · exact absurd rfl hj
    · exact key _
    · exact key _

theorem Block.cell_jpi {b : Block} (hn : b.Numbered) :
    (b.cell K lib).jpi = toLex (|b.J|, (-1) ^ b.lvalue.l) ∧
    ∀ j ∈ (b.cell K lib).roles, ((b.cell K lib).datum j).jpi = (b.cell K lib).jpi := by
  have h0 : (b.cell K lib).jpi = toLex (|b.J|, (-1) ^ b.lvalue.l) := by
    show toLex (b.numbers.J, b.numbers.parity) = _
    rw [hn.J, hn.parity]
  refine ⟨h0, ?_⟩
  intro j _
  rw [h0]
  fin_cases j
  · exact h0
  · show toLex (|b.J|, parityOfL b.lvalue.l) = _
    rw [parityOfL_eq]
  · show toLex (|b.J|, parityOfL b.lvalue.l) = _
    rw [parityOfL_eq]

theorem Block.Valid.cellular {neutronMass : ℝ} {incident target : Str}
    {spin : ℚ} {ap : ℝ} {nro : Option (ℝ → Outcome ℝ)} {naps : ℤ} {b : Block}
    (h : b.Valid K lib neutronMass incident target spin ap nro naps) (hn : b.Numbered) :
    b.Cellular K lib := by
  obtain ⟨rw, hrw, hdata⟩ := reichMooreData_ok.mp h.data
  have hw : rw = b.current.map (b.elasticWidth K lib) := by
    have := mapM_ok.mp hrw
    clear hrw hdata
    unfold Block.current
    generalize (b.lvalue.resonances.filter fun r => r.spin == b.J) = l at this
    induction this with
    | nil => rfl
    | cons h1 _ ih =>
      rw [List.map_cons, ← ih]
      congr 1
      exact (okValue_ok h1).symm
  subst hw
  have hj := (Block.cell_jpi (K := K) (lib := lib) hn).1
  obtain ⟨c1, -⟩ := h.channels hn
  refine ⟨?_, ?_, ?_, ?_, fun d hd => (c1 d hd).2.2.2.2.2⟩
  · rw [hdata]
    by_cases hA : b.zeroA = true <;> by_cases hB : b.zeroB = true <;>
    · have hA' := hA
      have hB' := hB
      unfold Block.zeroA Block.current at hA'
      unfold Block.zeroB Block.current at hB'
      simp [Cell.kept, hA, hB, hA', hB', Block.cell, Block.current, Cell.datum, Function.comp_def]
  · intro d hd
    rw [hj]
    unfold ChannelData.jpi
    rw [(c1 d hd).2.1, (c1 d hd).2.2.1]
  · rw [hdata]
    by_cases hA : b.zeroA = true <;> by_cases hB : b.zeroB = true <;>
    · have hA' := hA
      have hB' := hB
      unfold Block.zeroA Block.current at hA'
      unfold Block.zeroB Block.current at hB'
      simp [hA, hB, hA', hB', Block.cell, Block.current, Cell.datum, Function.comp_def]
  · rw [hdata]
    by_cases hA : b.zeroA = true <;> by_cases hB : b.zeroB = true <;>
    · have hA' := hA
      have hB' := hB
      unfold Block.zeroA Block.current at hA'
      unfold Block.zeroB Block.current at hB'
      simp [hA, hB, hA', hB', Block.cell, Block.current, Cell.datum, Function.comp_def]

/-- The block of an elastic channel without resonances. -/
def emptyBlock (awri : ℝ) (pair : ParticlePair) (radii : ChannelRadii) (n : QuantumNumbers) : Block :=
  ⟨⟨n.l, awri, 0, []⟩, n.J, n, pair, { pair with id := "fission".toList }, pair, radii,
    [emptyElastic pair radii n]⟩

theorem emptyBlock_cellular {awri : ℝ} {pair : ParticlePair} {radii : ChannelRadii} {n : QuantumNumbers} :
    (emptyBlock awri pair radii n).Cellular K lib := by
  have hz : isAllZero [] = true := isAllZero_iff.mpr (by simp)
  constructor <;> simp [emptyBlock, emptyElastic, Cell.kept, Block.cell, Block.zeroA, Block.zeroB,
    Block.current, hz, Cell.datum, elasticChannel, Cell.jpi]

/-- The data of all blocks. -/
theorem data_cells {blocks : List Block} (h : ∀ b ∈ blocks, b.Cellular K lib) :
    ((blocks.flatMap Block.data).filter fun d => ¬ d.eliminated)
      = (blocks.map (Block.cell K lib)).flatMap Cell.kept ∧
    (∀ x, ((blocks.flatMap Block.data).filter fun a => a.eliminated && a.jpi == x).flatMap
        ChannelData.energies
        = ((cellsOf (blocks.map (Block.cell K lib)) x).flatMap Cell.rows).map Row.energy ∧
      ((blocks.flatMap Block.data).filter fun a => a.eliminated && a.jpi == x).flatMap ChannelData.widths
        = ((cellsOf (blocks.map (Block.cell K lib)) x).flatMap Cell.rows).map Row.eliminated) := by
  induction blocks with
  | nil => exact ⟨rfl, fun x => ⟨rfl, rfl⟩⟩
  | cons b blocks ih =>
    obtain ⟨i1, i2⟩ := ih fun b hb => h b (List.mem_cons_of_mem _ hb)
    have hb := h b List.mem_cons_self
    constructor
    · rw [List.flatMap_cons, List.filter_append, i1, List.map_cons, List.flatMap_cons, hb.kept]
    · intro x
      obtain ⟨j1, j2⟩ := i2 x
      rw [List.flatMap_cons, List.filter_append, List.flatMap_append, List.flatMap_append, j1, j2,
        List.map_cons]
      by_cases hx : (b.cell K lib).jpi = x
      · have hf : (b.data.filter fun a => a.eliminated && a.jpi == x)
            = b.data.filter fun d => d.eliminated := by
          apply List.filter_congr
          intro d hd
          rw [hb.jpi d hd, hx]
          simp
        have hc : cellsOf (b.cell K lib :: blocks.map (Block.cell K lib)) x
            = b.cell K lib :: cellsOf (blocks.map (Block.cell K lib)) x :=
          List.filter_cons_of_pos (by simpa using hx)
        rw [hf, hc, hb.energies, hb.widths, List.flatMap_cons, List.map_append, List.map_append]
        exact ⟨rfl, rfl⟩
      · have hf : (b.data.filter fun a => a.eliminated && a.jpi == x) = [] := by
          rw [List.filter_eq_nil_iff]
          intro d hd
          rw [hb.jpi d hd]
          simp [hx]
        have hc : cellsOf (b.cell K lib :: blocks.map (Block.cell K lib)) x
            = cellsOf (blocks.map (Block.cell K lib)) x :=
          List.filter_cons_of_neg (by simpa using hx)
        rw [hf, hc]
        exact ⟨rfl, rfl⟩

end Verif.Endf
