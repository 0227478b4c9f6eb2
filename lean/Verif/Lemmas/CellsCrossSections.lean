import Verif.Lemmas.Cells

/-!
# Cross sections of spin groups of independent cells
-/

namespace Verif.Blocks

open Complex Spec

/-- The value of a computation, if it succeeds. -/
def okValue : Outcome ℝ → ℝ
  | .ok v => v
  | .error _ => 0

/-- The channels of a cell: an elastic one, and fission channels. -/
structure Cell.Neutronic (id : PairID) (cell : Cell) : Prop where
  elastic : (cell.channel 0).type = .neutron ∧ (cell.channel 0).isIncident = true ∧
    (cell.channel 0).incident.id = id ∧ (cell.channel 0).reaction = .elastic id
  fission : ∀ j, j ≠ 0 → (cell.channel j).type = .fission ∧ (cell.channel j).isIncident = false ∧
    (cell.channel j).incident.id = id ∧ (cell.channel j).reaction = .transition id "fission".toList

/-- The collision matrix of a cell. -/
noncomputable def Cell.collision (K : Constants) (lib : CoulombLibrary) (E : ℝ) (cell : Cell) :
    Matrix (Fin 3) (Fin 3) ℂ :=
  reichMooreCollision (okValue ((cell.channel 0).phaseShift K lib E)) E
    (cell.levels fun j => okValue ((cell.channel j).penetrability K lib E))

variable {K : Constants} {lib : CoulombLibrary} {cells : List Cell} {resonances : List Resonance} {E : ℝ}
  {id : PairID}

theorem normSq_phase (x : ℝ) : normSq (exp (I * (x : ℂ))) = 1 := by
  rw [mul_comm, normSq_eq_norm_sq, norm_exp_ofReal_mul_I]
  norm_num

/-- The collision matrix between an elastic channel and the other channels. -/
theorem collision_cells (h : Resonant cells resonances) (hg : ∀ c ∈ cells, c.Good)
    (hn : ∀ c ∈ cells, c.Neutronic id) (hopen : ∀ c ∈ channelsOf cells, ¬ c.belowThreshold E)
    {P S w phi : Fin (channelsOf cells).length → ℝ}
    (hev : Evaluable .shiftFactor K lib (channelsOf cells) resonances E P S w phi)
    (c c' : Fin (channelsOf cells).length) (hc : (tagOf cells c).2 = 0) :
    w c = 0 ∧
    (((tagOf cells c).1 ≠ (tagOf cells c').1 →
      Spec.collision (tMatrix .shiftFactor (channelsOf cells) resonances E P S) w phi c c' = 0) ∧
    ((tagOf cells c).1 = (tagOf cells c').1 →
      normSq (Spec.collision (tMatrix .shiftFactor (channelsOf cells) resonances E P S) w phi c c')
        = normSq ((cells.get (tagOf cells c).1).collision K lib E 0 (tagOf cells c').2))) ∧
    Spec.collision (tMatrix .shiftFactor (channelsOf cells) resonances E P S) w phi c c
      = (cells.get (tagOf cells c).1).collision K lib E 0 0 := by
  have hw : ∀ i, w i = 0 := by
    intro i
    have h1 := hev.coulomb i
    rw [channel_tagOf] at h1
    have hN := hn _ (List.get_mem cells (tagOf cells i).1)
    unfold Channel.coulombPhaseShift Channel.eta at h1
    by_cases h0 : (tagOf cells i).2 = 0
    · rw [h0, hN.elastic.1] at h1
      simpa [calculateCoulombPhaseShift, bind, Except.bind, eq_comm] using h1
    · rw [(hN.fission _ h0).1] at h1
      simpa [calculateCoulombPhaseShift, bind, Except.bind, eq_comm] using h1
  have hP : P = fun i => (fun (k : Fin cells.length) (j : Fin 3) =>
      okValue (((cells.get k).channel j).penetrability K lib E)) (tagOf cells i).1 (tagOf cells i).2 := by
    funext i
    have h1 := hev.penetrability i
    rw [channel_tagOf] at h1
    simp only [h1, okValue]
  have hphi : phi c = okValue (((cells.get (tagOf cells c).1).channel 0).phaseShift K lib E) := by
    have h1 := hev.phase c
    rw [channel_tagOf, hc] at h1
    rw [h1]
    rfl
  have hW : ∀ c', (if c = c' then 1 else 0) + 2 * I * tMatrix .shiftFactor (channelsOf cells) resonances E P S c c'
      = if (tagOf cells c).1 = (tagOf cells c').1 then
          ((2 : ℂ) • (1 - reichMooreK E ((cells.get (tagOf cells c).1).levels fun j =>
            okValue (((cells.get (tagOf cells c).1).channel j).penetrability K lib E)))⁻¹ - 1)
            0 (tagOf cells c').2
        else 0 := by
    intro c'
    have h1 := total_cells h hg (fun (k : Fin cells.length) (j : Fin 3) =>
      okValue (((cells.get k).channel j).penetrability K lib E)) hopen c c'
    rw [collision_totalK hev.nonneg hev.invertible, hP, h1, hc]
  refine ⟨hw c, ⟨fun hne => ?_, fun he => ?_⟩, ?_⟩
  · unfold Spec.collision
    rw [hW, if_neg hne]
    simp
  · unfold Spec.collision
    rw [hW, if_pos he, normSq_mul, normSq_mul]
    unfold Cell.collision reichMooreCollision
    rw [Matrix.smul_apply, smul_eq_mul, normSq_mul, Old.ReichMoore.norm_phase]
    have h1 : ∀ i, normSq (exp (I * ((w i : ℂ) - phi i))) = 1 := by
      intro i
      rw [← Complex.ofReal_sub]
      exact normSq_phase _
    rw [h1, h1]
    ring
  · unfold Spec.collision
    rw [hW, if_pos rfl, hw c, hphi, hc]
    unfold Cell.collision reichMooreCollision
    rw [Matrix.smul_apply, smul_eq_mul]
    rw [mul_assoc, mul_comm _ (exp _), ← mul_assoc, ← exp_add]
    congr 2
    push_cast
    ring

/-- What a group of cells contributes. -/
theorem contribution_cells (h : Resonant cells resonances) (hg : ∀ c ∈ cells, c.Good) (hne : cells ≠ [])
    (hn : ∀ c ∈ cells, c.Neutronic id) (hopen : ∀ c ∈ channelsOf cells, ¬ c.belowThreshold E)
    {P S w phi : Fin (channelsOf cells).length → ℝ}
    (hev : Evaluable .shiftFactor K lib (channelsOf cells) resonances E P S w phi) :
    let factor := incidentFactor K (channelsOf cells) E
    let total := contribution .shiftFactor K (channelsOf cells) resonances E P S w phi
    total (.elastic id)
      = factor * (cells.map fun c => normSq (1 - c.collision K lib E 0 0)).sum ∧
    total (.transition id "fission".toList)
      = factor * (cells.map fun c => normSq (c.collision K lib E 0 1) + normSq (c.collision K lib E 0 2)).sum ∧
    total (.transition id "capture".toList)
      = factor * (cells.map fun c => 1 - ∑ j, normSq (c.collision K lib E 0 j)).sum := by
  intro factor total
  have hnd : ∀ c ∈ cells, c.roles.Nodup := fun c hc => (hg c hc).nodup
  set U := Spec.collision (tMatrix .shiftFactor (channelsOf cells) resonances E P S) w phi with hU
  have hinc : ∀ i : Fin (channelsOf cells).length,
      (channelsOf cells)[i].isIncident = true ↔ (tagOf cells i).2 = 0 := by
    intro i
    rw [channel_tagOf]
    have hN := hn _ (List.get_mem cells (tagOf cells i).1)
    generalize cells.get (tagOf cells i).1 = cell at hN ⊢
    by_cases h0 : (tagOf cells i).2 = 0
    · simp [h0, hN.elastic.2.1]
    · simp [h0, (hN.fission _ h0).2.1]
  have hreact : ∀ i : Fin (channelsOf cells).length, (channelsOf cells)[i].reaction =
      if (tagOf cells i).2 = 0 then .elastic id else .transition id "fission".toList := by
    intro i
    rw [channel_tagOf]
    have hN := hn _ (List.get_mem cells (tagOf cells i).1)
    generalize cells.get (tagOf cells i).1 = cell at hN ⊢
    by_cases h0 : (tagOf cells i).2 = 0
    · simp [h0, hN.elastic.2.2.2]
    · simp [h0, (hN.fission _ h0).2.2.2]
  have hcap : captureID (channelsOf cells) = some (.transition id "capture".toList) := by
    obtain ⟨cell, rest, rfl⟩ := List.exists_cons_of_ne_nil hne
    have hG := hg cell List.mem_cons_self
    have hN := hn cell List.mem_cons_self
    obtain ⟨j, js, hj⟩ := List.exists_cons_of_ne_nil (List.ne_nil_of_mem hG.elastic)
    unfold captureID
    rw [channelsOf_eq, List.flatMap_cons, hj]
    simp only [List.map_cons, List.cons_append, List.head?_cons, Option.map_some]
    have : (cell.channel j).incident.id = id := by
      by_cases h0 : j = 0
      · rw [h0]; exact hN.elastic.2.2.1
      · exact (hN.fission _ h0).2.2.1
    rw [this]
  -- rows of the collision matrix
  have hrow : ∀ c, (tagOf cells c).2 = 0 → ∀ f : Fin 3 → ℝ,
      ∑ c', f (tagOf cells c').2 * normSq (U c c')
        = ∑ j, f j * normSq ((cells.get (tagOf cells c).1).collision K lib E 0 j) := by
    intro c hc f
    have h1 : ∀ c', f (tagOf cells c').2 * normSq (U c c')
        = (fun t : Fin cells.length × Fin 3 => if (tagOf cells c).1 = t.1 then
          f t.2 * normSq ((cells.get (tagOf cells c).1).collision K lib E 0 t.2) else 0) (tagOf cells c') := by
      intro c'
      obtain ⟨-, ⟨h2, h3⟩, -⟩ := collision_cells h hg hn hopen hev c c' hc
      by_cases he : (tagOf cells c).1 = (tagOf cells c').1
      · simp only [if_pos he]
        rw [← h3 he]
      · simp only [if_neg he]
        rw [hU, h2 he]
        simp
    rw [Finset.sum_congr rfl fun c' _ => h1 c']
    refine (sum_tags hnd fun t : Fin cells.length × Fin 3 => if (tagOf cells c).1 = t.1 then
      f t.2 * normSq ((cells.get (tagOf cells c).1).collision K lib E 0 t.2) else 0).trans ?_
    rw [Finset.sum_eq_single (tagOf cells c).1]
    · refine Finset.sum_congr rfl fun j _ => ?_
      split
      · simp
      · rename_i hj
        have hG := hg _ (List.get_mem cells (tagOf cells c).1)
        have hj0 : (0 : Fin 3) ≠ j := by
          rintro rfl
          exact hj hG.elastic
        have : (cells.get (tagOf cells c).1).collision K lib E 0 j = 0 := by
          unfold Cell.collision reichMooreCollision
          rw [Matrix.smul_apply, Matrix.sub_apply, Matrix.smul_apply,
            inverse_missing (one_sub_K_det _ _) hj0, Matrix.one_apply_ne hj0]
          · simp
          · intro i
            rw [Matrix.sub_apply, K_missing hG _ hj, Matrix.one_apply, sub_zero]
        rw [this]
        simp
    · intro k _ hk
      refine Finset.sum_eq_zero fun j _ => ?_
      simp only [if_neg (Ne.symm hk)]
      split <;> rfl
    · intro h1
      exact absurd (Finset.mem_univ _) h1
  -- sums over the incident channels
  have hsum : ∀ f : Cell → ℝ, (∑ c, if (channelsOf cells)[c].isIncident then
      factor * f (cells.get (tagOf cells c).1) else 0) = factor * (cells.map f).sum := by
    intro f
    have h1 : ∀ c, (if (channelsOf cells)[c].isIncident then
        factor * f (cells.get (tagOf cells c).1) else 0)
        = (fun t : Fin cells.length × Fin 3 => if t.2 = 0 then factor * f (cells.get t.1) else 0)
          (tagOf cells c) := by
      intro c
      simp only [hinc]
    rw [Finset.sum_congr rfl fun c _ => h1 c]
    refine (sum_tags hnd fun t : Fin cells.length × Fin 3 =>
      if t.2 = 0 then factor * f (cells.get t.1) else 0).trans ?_
    have h2 : (cells.map f) = List.ofFn fun k : Fin cells.length => f (cells.get k) := by
      conv_lhs => rw [← List.ofFn_get cells]
      rw [List.map_ofFn]
      rfl
    rw [h2, List.sum_ofFn, Finset.mul_sum]
    refine Finset.sum_congr rfl fun k _ => ?_
    rw [Fin.sum_univ_three]
    rw [if_pos (hg _ (List.get_mem cells k)).elastic]
    simp
  have hpart : ∀ c, (tagOf cells c).2 = 0 → ∀ c', partialCrossSection U w c c'
      = if c = c' then normSq (1 - (cells.get (tagOf cells c).1).collision K lib E 0 0)
        else normSq (U c c') := by
    intro c hc c'
    obtain ⟨h1, -, h2⟩ := collision_cells h hg hn hopen hev c c' hc
    unfold partialCrossSection
    split
    · rename_i he
      rw [← he, h1, ← h2]
      simp [hU]
    · rw [zero_sub, normSq_neg]
  refine ⟨?_, ?_, ?_⟩
  · rw [← hsum]
    show (∑ c, _) = _
    refine Finset.sum_congr rfl fun c _ => ?_
    split
    · rename_i hc
      rw [hinc] at hc
      rw [if_neg (by rw [hcap]; simp), add_zero, Finset.sum_eq_single c]
      · rw [hreact, if_pos hc, if_pos rfl, ← hU, hpart c hc, if_pos rfl]
      · intro c' _ hcc
        rw [hreact]
        by_cases h0 : (tagOf cells c').2 = 0
        · rw [if_pos h0, if_pos rfl, ← hU, hpart c hc, if_neg (Ne.symm hcc)]
          obtain ⟨-, ⟨h2, -⟩, -⟩ := collision_cells h hg hn hopen hev c c' hc
          rw [hU, h2]
          · simp
          · intro he
            exact hcc (tagOf_injective hnd (Prod.ext he (hc.trans h0.symm))).symm
        · rw [if_neg h0, if_neg (by simp)]
      · intro h1
        exact absurd (Finset.mem_univ _) h1
    · rfl
  · rw [← hsum]
    show (∑ c, _) = _
    refine Finset.sum_congr rfl fun c _ => ?_
    split
    · rename_i hc
      rw [hinc] at hc
      rw [if_neg (by rw [hcap]; simp), add_zero]
      have h1 := hrow c hc fun j => if j = 0 then 0 else 1
      rw [Fin.sum_univ_three] at h1
      simp only [if_true, zero_mul, zero_add] at h1
      rw [if_neg (by decide), if_neg (by decide), one_mul, one_mul] at h1
      rw [← h1, Finset.mul_sum]
      refine Finset.sum_congr rfl fun c' _ => ?_
      rw [hreact]
      by_cases h0 : (tagOf cells c').2 = 0
      · rw [if_pos h0, if_pos h0, if_neg (by simp)]
        simp
      · rw [if_neg h0, if_neg h0, if_pos rfl, ← hU, hpart c hc, if_neg, one_mul]
        rintro rfl
        exact h0 hc
    · rfl
  · rw [← hsum]
    show (∑ c, _) = _
    refine Finset.sum_congr rfl fun c _ => ?_
    split
    · rename_i hc
      rw [hinc] at hc
      rw [Finset.sum_eq_zero, zero_add, ← hU]
      · unfold captureCrossSection
        have h1 := hrow c hc fun _ => 1
        simp only [one_mul] at h1
        rw [h1]
      · intro c' _
        rw [hreact, if_neg]
        split
        · simp
        · simp only [ReactionID.transition.injEq, true_and]
          decide
    · rfl

end Verif.Blocks
