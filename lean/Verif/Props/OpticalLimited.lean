import Verif.Props.PotentialLimited

/-!
# Property C16 for R-matrix-limited ranges
-/

namespace Verif.Spec

open Endf Complex

open Classical in
/-- `Σ 2 (1 - Re U_cc)` over the incident channels of a group. -/
noncomputable def RGroup.total (g : RGroup) (K : Constants) (E : ℝ) : ℝ :=
  ∑ c, if g.isIncident c then 2 * (1 - (g.U K E c c).re) else 0

end Verif.Spec

namespace Verif.Endf

open Spec Complex

variable {K : Constants} {lib : CoulombLibrary} {tables : InterpolationLibrary}
  {reactions : ReactionLibrary} {initialBreitWigner : Channel → Verif.BreitWigner.Cache}
  {initial : (g : SpinGroup) → MatrixCache g.channels.length} {neutronMass elementaryCharge E : ℝ}
  {incident target : Str} {range : Range} {p : RMatrixLimited} {R R' : Reconstructor}
  {m : ReactionMap} {pairs : List ParticlePair}

/-- The channels of a group have the pairs of the evaluation, so that its cross sections sum up to the total. -/
theorem group_total {i : ℕ} {row : ParticlePairRow} {pair : ParticlePair}
    (hpairs : List.Forall₂ (IsPair reactions neutronMass elementaryCharge incident target) p.pairs pairs)
    (hids : (pairs.map ParticlePair.id).Nodup)
    (hneutral : ∀ row ∈ p.pairs, row.mt = 2 → row.chargeA = 0)
    (hi : p.pairs[i]? = some row) (hmt : row.mt = 2) (hpi : pairs[i]? = some pair)
    {record : SpinGroupRecord} {g : RGroup} (hg : IsRGroup K lib pair pairs p E record g) :
    (∑ out ∈ (pairs.map ParticlePair.id).toFinset, g.into K E out) + g.capture K E = g.total K E ∧
      ∀ out, out ∉ (pairs.map ParticlePair.id).toFinset → g.into K E out = 0 := by
  classical
  have hall := group_channels hpairs hids hneutral hi hmt hpi hg
  have hmem : ∀ c, (g.channel c).pair.id ∈ (pairs.map ParticlePair.id).toFinset := by
    intro c
    obtain ⟨r, -, h, -⟩ := hall c
    exact List.mem_toFinset.mpr (List.mem_map_of_mem (List.mem_of_getElem? h.pair))
  have hw : ∀ c, g.isIncident c → coulombAt K (g.channel c) E = 0 := by
    intro c hc
    obtain ⟨r, -, -, h1, h2, h3⟩ := hall c
    obtain ⟨-, -, ht, -⟩ := h3 (h2.mpr (h1.mp hc))
    simp [coulombAt, ht]
  constructor
  · unfold RGroup.into RGroup.capture RGroup.total
    rw [Finset.sum_comm, ← Finset.sum_add_distrib]
    refine Finset.sum_congr rfl fun c _ => ?_
    by_cases hc : g.isIncident c
    · simp only [if_pos hc]
      rw [Finset.sum_comm]
      have h1 : ∀ c', (∑ out ∈ (pairs.map ParticlePair.id).toFinset, if (g.channel c').pair.id = out then
          normSq ((if c = c' then exp (2 * I * coulombAt K (g.channel c) E) else 0) - g.U K E c c') else 0)
          = normSq (g.U K E c c') + if c = c' then 1 - 2 * (g.U K E c c).re else 0 := by
        intro c'
        rw [Finset.sum_ite_eq, if_pos (hmem c'), hw c hc]
        by_cases hcc : c = c'
        · subst hcc
          rw [if_pos rfl, if_pos rfl]
          have h4 := normSq_sub 1 (g.U K E c c)
          simp only [map_one, one_mul, conj_re] at h4
          simp only [ofReal_zero, mul_zero, Complex.exp_zero]
          rw [h4]
          ring
        · rw [if_neg hcc, if_neg hcc, zero_sub, normSq_neg, add_zero]
      rw [Finset.sum_congr rfl fun c' _ => h1 c', Finset.sum_add_distrib, Finset.sum_ite_eq,
        if_pos (Finset.mem_univ c)]
      ring
    · simp [hc]
  · intro out hout
    unfold RGroup.into
    refine Finset.sum_eq_zero fun c _ => ?_
    split
    · refine Finset.sum_eq_zero fun c' _ => if_neg ?_
      rintro rfl
      exact hout (hmem c')
    · rfl

theorem capture_not_pair
    (hpairs : List.Forall₂ (IsPair reactions neutronMass elementaryCharge incident target) p.pairs pairs) :
    "capture".toList ∉ (pairs.map ParticlePair.id).toFinset := by
  intro h
  obtain ⟨pr, h1, h2⟩ := List.mem_map.mp (List.mem_toFinset.mp h)
  obtain ⟨j, hj, rfl⟩ := List.getElem_of_mem h1
  have hj' : j < p.pairs.length := hpairs.length_eq ▸ hj
  have hn := (forall₂_index hpairs (List.getElem?_eq_getElem hj') (List.getElem?_eq_getElem hj)).name
  have hcomma : ∀ a b : Str, "capture".toList ≠ a ++ [','] ++ b := by
    intro a b e
    have : ',' ∈ "capture".toList := by
      rw [e]
      simp
    simp at this
  unfold IsName at hn
  rw [h2] at hn
  split at hn
  · exact hcomma _ _ hn.2.2
  · split at hn
    · exact absurd hn.2.2 (by simp)
    · exact hcomma _ _ hn.2

/-- C16 for R-matrix-limited ranges, in the cases of C70: all cross sections that are reported sum up to
`2π/k² Σ g (1 - Re U_cc)` over the elastic channels, where U is the collision matrix of C70. -/
theorem C16_rmatrix_limited
    (hR : fromENDF K lib tables reactions initialBreitWigner initial neutronMass elementaryCharge incident
      target range = .ok R)
    (hp : range.parameters = .rmatrixLimited p)
    (hpairs : List.Forall₂ (IsPair reactions neutronMass elementaryCharge incident target) p.pairs pairs)
    (hids : (pairs.map ParticlePair.id).Nodup)
    (hflags : ∀ a ∈ p.pairs, ∀ b ∈ p.pairs, a.shiftFactorFlag = 0 → b.shiftFactorFlag = 0)
    (hneutral : ∀ row ∈ p.pairs, row.mt = 2 → row.chargeA = 0)
    (ho : ∀ record ∈ p.spinGroups, Ordered pairs p record)
    (hd : p.spinGroups.Pairwise fun a b => ¬ SameSpinParity a b)
    (hE : range.lower ≤ E ∧ E ≤ range.upper)
    (hm : R.call K lib E = .ok (m, R')) :
    ∃ (i : ℕ) (row : ParticlePairRow) (pair : ParticlePair) (gs : List RGroup),
      p.pairs[i]? = some row ∧ row.mt = 2 ∧ pairs[i]? = some pair ∧
      List.Forall₂ (IsRGroup K lib pair pairs p E) p.spinGroups gs ∧
      ∀ ids : Finset (ReactionID ⊕ LegacyID), (∀ id, (m id).isSome → id ∈ ids) →
        ∑ id ∈ ids, (m id).getD 0 = (List.zipWith (fun record g =>
          Real.pi / (2 * pair.reducedMass * |pair.massRatio * E + row.q| / K.hbar ^ 2)
            * groupFactor pair record * RGroup.total g K E) p.spinGroups gs).sum := by
  classical
  obtain ⟨i, row, pair, gs, h1, h2, h3, h4, h5⟩ := C70_partial hR hp hpairs hids hflags hneutral ho hd hE hm
  refine ⟨i, row, pair, gs, h1, h2, h3, h4.groups, fun ids hsome => ?_⟩
  set outs := (pairs.map ParticlePair.id).toFinset with houts
  have hall : List.Forall₂ (fun (_ : SpinGroupRecord) (g : RGroup) =>
      (∑ out ∈ outs, g.into K E out) + g.capture K E = g.total K E ∧
      ∀ out, out ∉ outs → g.into K E out = 0) p.spinGroups gs :=
    h4.groups.imp fun _ _ h => group_total hpairs hids hneutral h1 h2 h3 h
  have hpair : pair.id ∈ outs := List.mem_toFinset.mpr (List.mem_map_of_mem (List.mem_of_getElem? h3))
  have hcap := capture_not_pair hpairs
  rw [← houts] at hcap
  have hzero : ∀ f : RGroup → ℝ, ∀ a : SpinGroupRecord → ℝ, List.Forall₂ (fun _ g => f g = 0) p.spinGroups gs →
      (List.zipWith (fun record g => a record * f g) p.spinGroups gs).sum = 0 := by
    intro f a hf
    clear hd ho hall h4
    generalize p.spinGroups = l at hf
    induction hf with
    | nil => rfl
    | cons h _ ih => rw [List.zipWith_cons_cons, List.sum_cons, ih, h, mul_zero, add_zero]
  -- the reactions that may have a cross section
  let el : ReactionID ⊕ LegacyID := .inl (.elastic pair.id)
  let tr : PairID → ReactionID ⊕ LegacyID := fun out => .inl (.transition pair.id out)
  have htr : Function.Injective tr := by
    intro x y e
    simpa [tr] using e
  let S : Finset (ReactionID ⊕ LegacyID) :=
    insert el (insert (tr "capture".toList) ((outs.erase pair.id).image tr))
  have hS : ∀ id, id ∉ S → (m id).getD 0 = 0 := by
    rintro (id | id) hid
    · by_cases hs : (m (.inl id)).isSome
      · obtain rfl | ⟨out, ho1, rfl⟩ := h4.other id hs
        · exact absurd (Finset.mem_insert_self _ _) hid
        · by_cases hc : out = "capture".toList
          · subst hc
            exact absurd (Finset.mem_insert_of_mem (Finset.mem_insert_self _ _)) hid
          · rw [h4.reaction out ho1 hc]
            refine hzero (fun g => g.into K E out) _ (hall.imp fun _ _ h => h.2 out fun ho2 => hid ?_)
            exact Finset.mem_insert_of_mem (Finset.mem_insert_of_mem (Finset.mem_image_of_mem tr
              (Finset.mem_erase.mpr ⟨ho1, ho2⟩)))
      · simp only [Option.not_isSome_iff_eq_none] at hs
        rw [hs, Option.getD_none]
    · rw [h5 id, Option.getD_none]
  have hsum : ∑ id ∈ ids, (m id).getD 0 = ∑ id ∈ S, (m id).getD 0 := by
    have a : ∑ id ∈ ids, (m id).getD 0 = ∑ id ∈ ids ∪ S, (m id).getD 0 := by
      refine Finset.sum_subset Finset.subset_union_left fun id _ hid => ?_
      have : ¬ (m id).isSome := fun h => hid (hsome id h)
      simp only [Option.not_isSome_iff_eq_none] at this
      rw [this, Option.getD_none]
    rw [a]
    exact (Finset.sum_subset Finset.subset_union_right fun id _ hid => hS id hid).symm
  have hel : el ∉ insert (tr "capture".toList) ((outs.erase pair.id).image tr) := by
    simp [el, tr]
  have hct : tr "capture".toList ∉ (outs.erase pair.id).image tr := by
    intro h
    obtain ⟨x, hx, e⟩ := Finset.mem_image.mp h
    rw [htr e] at hx
    exact hcap (Finset.mem_of_mem_erase hx)
  rw [hsum, Finset.sum_insert hel, Finset.sum_insert hct, Finset.sum_image fun x _ y _ e => htr e]
  have e1 := h4.elastic
  have e2 := h4.capture
  have e3 := h4.reaction
  rw [show m el = _ from e1, show m (tr _) = _ from e2, Option.getD_some, Option.getD_some,
    Finset.sum_congr rfl fun out hout => e3 out (Finset.ne_of_mem_erase hout) fun h => hcap (h ▸
      Finset.mem_of_mem_erase hout)]
  clear hS hsum hzero e1 e2 e3 h4 hd ho
  generalize p.spinGroups = l at hall
  induction hall with
  | nil => simp
  | cons h _ ih =>
    simp only [List.zipWith_cons_cons, List.sum_cons]
    rw [← ih, ← h.1, ← Finset.add_sum_erase outs _ hpair, Finset.sum_add_distrib, ← Finset.mul_sum]
    ring

open Endf.Example in
/-- The example of C70: one group, with J = 2 and the factor 5/8. -/
example (K : Constants) (lib : CoulombLibrary) (tables : InterpolationLibrary)
    (initialBreitWigner : Channel → Verif.BreitWigner.Cache)
    (initial : (g : SpinGroup) → MatrixCache g.channels.length) (a : ℤ) :
    ∃ R m R' g, fromENDF K lib tables reactionLibrary initialBreitWigner initial 1 1 "n".toList
      "Cl35".toList (waveRange a a) = .ok R ∧ R.call K lib 10 = .ok (m, R') ∧
      IsRGroup K lib neutronPair [photonPair, neutronPair] (waveEvaluation a a) 10 waveRecord g ∧
      ∀ ids : Finset (ReactionID ⊕ LegacyID), (∀ id, (m id).isSome → id ∈ ids) →
        ∑ id ∈ ids, (m id).getD 0
          = Real.pi / (2 * (35 / 36) * |35 / 36 * 10 + 0| / K.hbar ^ 2) * (5 / 8) * g.total K 10 := by
  obtain ⟨R, m, R', h1, h2⟩ := wave_evaluates K lib tables initialBreitWigner initial a a
  have hp := wave_physical a a
  obtain ⟨i, row, pair, gs, h3, h4, h5, h6, h7⟩ := C16_rmatrix_limited h1 rfl hp.described hp.distinct (by
    intro x hx y hy hxa
    simp only [waveEvaluation, flagRows, List.mem_cons, List.not_mem_nil, or_false] at hx hy
    rcases hx with rfl | rfl <;> rcases hy with rfl | rfl <;> exact hxa) (fun row hrow _ => hp.neutral row hrow)
    hp.ordered hp.groups (by norm_num [waveRange]) h2
  match i with
  | 0 =>
    cases h3
    exact absurd h4 (by norm_num)
  | 1 =>
    cases h3
    cases h5
    obtain ⟨g, gs, h8, h9, rfl⟩ := List.forall₂_cons_left_iff.mp h6
    obtain rfl := List.forall₂_nil_left_iff.mp h9
    refine ⟨R, m, R', g, h1, h2, h8, fun ids hs => (h7 ids hs).trans ?_⟩
    simp only [waveEvaluation, List.zipWith_cons_cons, List.zipWith_nil_left, List.sum_cons, List.sum_nil,
      add_zero]
    norm_num [groupFactor, neutronPair, waveRecord]
  | i + 2 => cases h3

end Verif.Endf
