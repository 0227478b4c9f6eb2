import Verif.Lemmas.Blocks

/-!
# Spin groups of independent cells

A cell is an elastic channel with its fission channels and its resonances.
-/

namespace Verif.Blocks

open Complex Spec

/-- A resonance of a cell: the reduced widths of the elastic and the two fission channels, and that of the
eliminated channel. -/
structure Row where
  energy : ℝ
  width : Fin 3 → ℝ
  eliminated : ℝ

/-- The channels of a cell, of which only those in `roles` are part of the spin group. -/
structure Cell where
  channel : Fin 3 → Channel
  roles : List (Fin 3)
  rows : List Row

/-- The positions of the channels of a group: the cell, and the role in it. -/
def tags (cells : List Cell) : List (Fin cells.length × Fin 3) :=
  (List.finRange cells.length).flatMap fun k => (cells.get k).roles.map fun j => (k, j)

/-- The channels of a group. -/
def channelsOf (cells : List Cell) : List Channel :=
  (tags cells).map fun t => (cells.get t.1).channel t.2

/-- The position of a channel. -/
def tagOf (cells : List Cell) (i : Fin (channelsOf cells).length) : Fin cells.length × Fin 3 :=
  (tags cells)[i.1]'(by have := i.2; simpa [channelsOf] using this)

theorem channel_tagOf (cells : List Cell) (i : Fin (channelsOf cells).length) :
    (channelsOf cells)[i] = (cells.get (tagOf cells i).1).channel (tagOf cells i).2 := by
  unfold tagOf
  have h : i.1 < (tags cells).length := by have := i.2; simpa [channelsOf] using this
  have : (channelsOf cells)[i.1] = (fun t : Fin cells.length × Fin 3 => (cells.get t.1).channel t.2)
      ((tags cells)[i.1]) := by
    simp only [channelsOf, List.getElem_map]
  exact this

theorem channelsOf_eq (cells : List Cell) :
    channelsOf cells = cells.flatMap fun c => c.roles.map c.channel := by
  unfold channelsOf tags
  rw [List.map_flatMap]
  have : cells.flatMap (fun c => c.roles.map c.channel)
      = ((List.finRange cells.length).map fun k => (cells.get k)).flatMap fun c => c.roles.map c.channel := by
    congr 1
    rw [← List.ofFn_eq_map]
    exact (List.ofFn_get cells).symm
  rw [this, List.flatMap_map]
  congr 1
  funext k
  rw [List.map_map]
  rfl

theorem tags_nodup {cells : List Cell} (h : ∀ c ∈ cells, c.roles.Nodup) : (tags cells).Nodup := by
  unfold tags
  rw [List.nodup_flatMap]
  constructor
  · intro k _
    exact (h _ (List.get_mem _ _)).map fun _ _ h => (Prod.mk.inj h).2
  · refine (List.nodup_finRange _).imp ?_
    intro a b hab x hx hy
    obtain ⟨j, -, rfl⟩ := List.mem_map.mp hx
    obtain ⟨j', -, e⟩ := List.mem_map.mp hy
    exact hab (Prod.mk.inj e).1.symm

theorem tagOf_injective {cells : List Cell} (h : ∀ c ∈ cells, c.roles.Nodup) :
    Function.Injective (tagOf cells) := by
  intro a b hab
  unfold tagOf at hab
  exact Fin.ext ((tags_nodup h).getElem_inj_iff.mp hab)

theorem mem_range_tagOf {cells : List Cell} {t : Fin cells.length × Fin 3} :
    t ∈ Set.range (tagOf cells) ↔ t.2 ∈ (cells.get t.1).roles := by
  have h1 : t ∈ Set.range (tagOf cells) ↔ t ∈ tags cells := by
    rw [List.mem_iff_getElem]
    constructor
    · rintro ⟨i, rfl⟩
      exact ⟨i.1, _, rfl⟩
    · rintro ⟨i, hi, rfl⟩
      exact ⟨⟨i, by simpa [channelsOf] using hi⟩, rfl⟩
  rw [h1]
  unfold tags
  rw [List.mem_flatMap]
  constructor
  · rintro ⟨k, -, h⟩
    obtain ⟨j, hj, rfl⟩ := List.mem_map.mp h
    exact hj
  · intro h
    exact ⟨t.1, List.mem_finRange _, List.mem_map.mpr ⟨t.2, h, rfl⟩⟩

theorem tagOf_role {cells : List Cell} (i : Fin (channelsOf cells).length) :
    (tagOf cells i).2 ∈ (cells.get (tagOf cells i).1).roles := mem_range_tagOf.mp ⟨i, rfl⟩

/-- Sums over all channels. -/
theorem sum_tags {cells : List Cell} (h : ∀ c ∈ cells, c.roles.Nodup)
    (f : Fin cells.length × Fin 3 → ℝ) :
    ∑ i, f (tagOf cells i) = ∑ k, ∑ j, if j ∈ (cells.get k).roles then f (k, j) else 0 := by
  classical
  rw [← Fintype.sum_prod_type' (f := fun (k : Fin cells.length) (j : Fin 3) =>
    if j ∈ (cells.get k).roles then f (k, j) else 0), ← Finset.sum_image (f := f) (s := Finset.univ)
      (g := tagOf cells) (fun a _ b _ => fun h' => tagOf_injective h h')]
  rw [← Finset.sum_filter]
  refine Finset.sum_congr ?_ fun _ _ => rfl
  ext t
  simp only [Finset.mem_image, Finset.mem_univ, true_and, Finset.mem_filter]
  exact mem_range_tagOf

/-- The levels of a cell, for given penetrabilities. -/
noncomputable def Cell.levels (cell : Cell) (P : Fin 3 → ℝ) : List CoupledLevel :=
  cell.rows.map fun row => ⟨row.energy, 2 * row.eliminated ^ 2, fun j => Real.sqrt (2 * P j) * row.width j⟩

/-- The resonances of a group are those of its cells. -/
structure Resonant (cells : List Cell) (resonances : List Resonance) : Prop where
  energies : (resonances.map Resonance.energy).Perm ((cells.flatMap Cell.rows).map Row.energy)
  widths : ∀ r ∈ resonances, ∀ k : Fin cells.length, ∀ row ∈ (cells.get k).rows, r.energy = row.energy →
    r.eliminated = row.eliminated ∧
      ∀ i : Fin (channelsOf cells).length, r.width i =
        if (tagOf cells i).1 = k then row.width (tagOf cells i).2 else 0
  lengths : ∀ r ∈ resonances, r.widths.length = (channelsOf cells).length

/-- The cells have an elastic channel each, and widths only for the channels they have. -/
structure Cell.Good (cell : Cell) : Prop where
  nodup : cell.roles.Nodup
  elastic : 0 ∈ cell.roles
  widths : ∀ j, j ∉ cell.roles → ∀ row ∈ cell.rows, row.width j = 0

/-- The sum over the resonances of a group as a sum over the cells. -/
theorem sum_resonances {cells : List Cell} {resonances : List Resonance} (h : Resonant cells resonances)
    (f : Resonance → ℂ) (g : Fin cells.length → Row → ℂ)
    (hfg : ∀ r ∈ resonances, ∀ k : Fin cells.length, ∀ row ∈ (cells.get k).rows, r.energy = row.energy →
      f r = g k row) :
    (resonances.map f).sum = ∑ k : Fin cells.length, ((cells.get k).rows.map (g k)).sum := by
  classical
  -- the value of `f` as a function of the energy
  have hmem : ∀ r ∈ resonances, ∃ k : Fin cells.length, ∃ row ∈ (cells.get k).rows, r.energy = row.energy := by
    intro r hr
    have : r.energy ∈ (cells.flatMap Cell.rows).map Row.energy :=
      h.energies.mem_iff.mp (List.mem_map_of_mem hr)
    obtain ⟨row, hrow, e⟩ := List.mem_map.mp this
    obtain ⟨cell, hc, hrow⟩ := List.mem_flatMap.mp hrow
    obtain ⟨k, hk, rfl⟩ := List.mem_iff_getElem.mp hc
    exact ⟨⟨k, hk⟩, row, hrow, e.symm⟩
  have hrow : ∀ k : Fin cells.length, ∀ row ∈ (cells.get k).rows, ∃ r ∈ resonances, r.energy = row.energy := by
    intro k row hrow
    have : row.energy ∈ resonances.map Resonance.energy :=
      h.energies.mem_iff.mpr (List.mem_map_of_mem (List.mem_flatMap.mpr ⟨_, List.get_mem _ _, hrow⟩))
    obtain ⟨r, hr, e⟩ := List.mem_map.mp this
    exact ⟨r, hr, e⟩
  let F : ℝ → ℂ := fun e => if h : ∃ r ∈ resonances, r.energy = e then f h.choose else 0
  have hF : ∀ r ∈ resonances, f r = F r.energy := by
    intro r hr
    have hex : ∃ r' ∈ resonances, r'.energy = r.energy := ⟨r, hr, rfl⟩
    simp only [F]
    rw [dif_pos hex]
    obtain ⟨h1, h2⟩ := hex.choose_spec
    obtain ⟨k, row, h3, h4⟩ := hmem r hr
    rw [hfg r hr k row h3 h4, hfg _ h1 k row h3 (h2.trans h4)]
  have hG : ∀ k : Fin cells.length, ∀ row ∈ (cells.get k).rows, g k row = F row.energy := by
    intro k row h1
    obtain ⟨r, hr, e⟩ := hrow k row h1
    rw [← e, ← hF r hr, hfg r hr k row h1 e]
  have h1 : (resonances.map f).sum = ((resonances.map Resonance.energy).map F).sum := by
    rw [List.map_map]
    congr 1
    exact List.map_congr_left hF
  rw [h1, (h.energies.map F).sum_eq, List.map_map, List.map_flatMap]
  have h2 : (cells.flatMap fun a => a.rows.map (F ∘ Row.energy)).sum
      = (cells.map fun a => (a.rows.map (F ∘ Row.energy)).sum).sum := by
    clear h hfg hmem hrow hG
    induction cells with
    | nil => rfl
    | cons a l ih => simp [ih fun _ _ => 0]
  rw [h2]
  have h3 : cells.map (fun a => (a.rows.map (F ∘ Row.energy)).sum)
      = List.ofFn fun k : Fin cells.length => ((cells.get k).rows.map (F ∘ Row.energy)).sum := by
    conv_lhs => rw [← List.ofFn_get cells]
    rw [List.map_ofFn]
    rfl
  rw [h3, List.sum_ofFn]
  refine Finset.sum_congr rfl fun k _ => ?_
  congr 1
  refine List.map_congr_left fun row hrow' => ?_
  exact (hG k row hrow').symm

variable {cells : List Cell} {resonances : List Resonance} {E : ℝ}

/-- The matrix `K` of a group is block diagonal. -/
theorem totalK_cells (h : Resonant cells resonances) (P : Fin cells.length → Fin 3 → ℝ)
    (hopen : ∀ c ∈ channelsOf cells, ¬ c.belowThreshold E)
    (c c' : Fin (channelsOf cells).length) :
    totalK (channelsOf cells) resonances E (fun i => P (tagOf cells i).1 (tagOf cells i).2) c c'
      = if (tagOf cells c).1 = (tagOf cells c').1 then
          reichMooreK E ((cells.get (tagOf cells c).1).levels (P (tagOf cells c).1))
            (tagOf cells c).2 (tagOf cells c').2
        else 0 := by
  set t := tagOf cells c with ht
  set t' := tagOf cells c' with ht'
  have hR : rMatrix (channelsOf cells) resonances E c c'
      = ∑ k : Fin cells.length, ((cells.get k).rows.map fun row =>
        ((if t.1 = k then row.width t.2 else 0 : ℝ) : ℂ) * ((if t'.1 = k then row.width t'.2 else 0 : ℝ) : ℂ)
          / ((row.energy : ℂ) - E - I * (row.eliminated : ℂ) ^ 2)).sum := by
    unfold rMatrix
    rw [Matrix.of_apply]
    refine sum_resonances h _ _ ?_
    intro r hr k row hrow he
    obtain ⟨h1, h2⟩ := h.widths r hr k row hrow he
    have hamp : ∀ i, amplitude (channelsOf cells) E r i = r.width i := by
      intro i
      unfold amplitude
      have hm : (channelsOf cells)[i] ∈ channelsOf cells := List.getElem_mem i.2
      rw [if_neg (hopen _ hm)]
    rw [hamp, hamp, h2 c, h2 c', he, h1]
  unfold totalK
  rw [Matrix.of_apply, hR]
  by_cases htt : t.1 = t'.1
  · rw [if_pos htt, Finset.sum_eq_single t.1]
    · simp only [if_true, ← htt]
      unfold reichMooreK Cell.levels
      rw [Matrix.of_apply, List.map_map]
      have hs : ∀ x : ℝ, Real.sqrt (2 * x) = Real.sqrt 2 * Real.sqrt x := fun x =>
        Real.sqrt_mul (by norm_num) x
      have h2 : ((Real.sqrt 2 : ℝ) : ℂ) * (Real.sqrt 2 : ℝ) = 2 := by
        rw [← Complex.ofReal_mul, Real.mul_self_sqrt (by norm_num)]
        norm_num
      rw [← List.sum_map_mul_left, ← List.sum_map_mul_right, ← List.sum_map_mul_left]
      congr 1
      refine List.map_congr_left fun row _ => ?_
      simp only [Function.comp, hs, ← ht, ← ht', ← htt]
      push_cast
      rw [show (I * (2 * (row.eliminated : ℂ) ^ 2) / 2) = I * (row.eliminated : ℂ) ^ 2 by ring]
      rw [show I / 2 * ((Real.sqrt 2 : ℂ) * (Real.sqrt (P t.1 t.2) : ℂ) * (row.width t.2 : ℂ)
          * ((Real.sqrt 2 : ℂ) * (Real.sqrt (P t.1 t'.2) : ℂ) * (row.width t'.2 : ℂ)))
          = ((Real.sqrt 2 : ℂ) * (Real.sqrt 2 : ℂ)) * (I / 2 * ((Real.sqrt (P t.1 t.2) : ℂ) * (row.width t.2 : ℂ)
          * ((Real.sqrt (P t.1 t'.2) : ℂ) * (row.width t'.2 : ℂ)))) by ring, h2]
      ring
    · intro k _ hk
      apply List.sum_eq_zero
      intro x hx
      obtain ⟨row, -, rfl⟩ := List.mem_map.mp hx
      rw [if_neg (Ne.symm hk)]
      simp
    · intro h1
      exact absurd (Finset.mem_univ _) h1
  · rw [if_neg htt, Finset.sum_eq_zero]
    · simp
    · intro k _
      apply List.sum_eq_zero
      intro x hx
      obtain ⟨row, -, rfl⟩ := List.mem_map.mp hx
      by_cases h1 : t.1 = k
      · rw [if_neg (by rw [← h1]; exact Ne.symm htt) (c := t'.1 = k)]
        simp
      · rw [if_neg h1]
        simp

/-- Capture widths of cells are not negative. -/
theorem levels_capture (cell : Cell) (P : Fin 3 → ℝ) : ∀ l ∈ cell.levels P, 0 ≤ l.capture := by
  intro l hl
  obtain ⟨row, -, rfl⟩ := List.mem_map.mp hl
  simp only
  positivity

theorem one_sub_K_det (cell : Cell) (P : Fin 3 → ℝ) :
    (1 - reichMooreK E (cell.levels P)).det ≠ 0 := by
  have := Old.ReichMoore.det_ne_zero (E := E) (levels_capture cell P)
  rwa [Old.ReichMoore.codeK_eq, ← sub_eq_add_neg] at this

theorem K_missing {cell : Cell} (hg : cell.Good) (P : Fin 3 → ℝ) {j : Fin 3} (hj : j ∉ cell.roles)
    (i : Fin 3) : reichMooreK E (cell.levels P) i j = 0 := by
  unfold reichMooreK Cell.levels
  rw [Matrix.of_apply, List.map_map]
  apply List.sum_eq_zero
  intro x hx
  obtain ⟨row, hrow, rfl⟩ := List.mem_map.mp hx
  simp [hg.widths j hj row hrow]

/-- The matrix `2 (1 - K)⁻¹ - 1` of a group is block diagonal. -/
theorem total_cells (h : Resonant cells resonances) (hg : ∀ c ∈ cells, c.Good)
    (P : Fin cells.length → Fin 3 → ℝ)
    (hopen : ∀ c ∈ channelsOf cells, ¬ c.belowThreshold E)
    (c c' : Fin (channelsOf cells).length) :
    ((2 : ℂ) • (1 - totalK (channelsOf cells) resonances E
        (fun i => P (tagOf cells i).1 (tagOf cells i).2))⁻¹ - 1) c c'
      = if (tagOf cells c).1 = (tagOf cells c').1 then
          ((2 : ℂ) • (1 - reichMooreK E ((cells.get (tagOf cells c).1).levels (P (tagOf cells c).1)))⁻¹ - 1)
            (tagOf cells c).2 (tagOf cells c').2
        else 0 := by
  have hn : ∀ c ∈ cells, c.roles.Nodup := fun c hc => (hg c hc).nodup
  have hinj := tagOf_injective hn
  have hone : ∀ c c' : Fin (channelsOf cells).length,
      (1 : Matrix (Fin (channelsOf cells).length) (Fin (channelsOf cells).length) ℂ) c c'
      = if (tagOf cells c).1 = (tagOf cells c').1 then
        (1 : Matrix (Fin 3) (Fin 3) ℂ) (tagOf cells c).2 (tagOf cells c').2 else 0 := by
    intro c c'
    rw [Matrix.one_apply, Matrix.one_apply]
    by_cases hcc : c = c'
    · subst hcc
      simp
    · rw [if_neg hcc]
      split
      · rename_i h1
        rw [if_neg]
        intro h2
        exact hcc (hinj (Prod.ext h1 h2))
      · rfl
  have hinv := inverse_part (M := 1 - totalK (channelsOf cells) resonances E
      (fun i => P (tagOf cells i).1 (tagOf cells i).2)) hinj
    (A := fun k => 1 - reichMooreK E ((cells.get k).levels (P k))) ?_ (fun k => one_sub_K_det _ _) ?_
  · rw [hinv, Matrix.sub_apply, Matrix.smul_apply, Matrix.of_apply, hone]
    split
    · rw [Matrix.sub_apply, Matrix.smul_apply]
    · simp
  · intro c c'
    rw [Matrix.sub_apply, totalK_cells h P hopen, hone]
    split
    · rw [Matrix.sub_apply]
    · simp
  · intro k j hj i hij
    have hj' : j ∉ (cells.get k).roles := fun h1 => hj (mem_range_tagOf.mpr h1)
    rw [Matrix.sub_apply, K_missing (hg _ (List.get_mem _ _)) _ hj', Matrix.one_apply_ne hij]
    simp

end Verif.Blocks
