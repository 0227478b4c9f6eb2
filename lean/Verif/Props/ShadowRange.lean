import Verif.Props.Shadow

/-!
# Property C115 for R-matrix-limited and Reich-Moore ranges, and for the older Reich-Moore code
-/

namespace Verif.Endf

open Spec Complex Shadow

/-- One partial wave, in units of `π/k²`. -/
theorem shadow_wave {E : ℝ} {I : ℚ} (hI : HalfInt I) {w : CoupledWave} {as : List Coupled}
    (h : ∀ a ∈ as, 0 ≤ a.capture) :
    Holds (levelElastic I E w as + coupledCapture I E w as + coupledFission I E w as)
      (∑ J ∈ (as.map Coupled.J).toFinset, (neutronFactor I |J| : ℝ)) (levelElastic I E w as) := by
  rw [coupled_total]
  unfold coupledTotal levelElastic
  refine Holds.sum _ fun J _ => ?_
  have hcap : ∀ l ∈ (as.filter fun a => a.J = J).map (Coupled.level w.p), 0 ≤ l.capture := by
    intro l hl
    obtain ⟨a, ha, rfl⟩ := List.mem_map.mp hl
    exact h a (List.mem_filter.mp ha).1
  have h1 : 0 ≤ 1 - ∑ j, normSq (collisionOf E w as J 0 j) := by
    unfold collisionOf
    rw [Old.ReichMoore.capture_eq hcap]
    have := Old.ReichMoore.loss_nonneg (E := E) hcap fun j =>
      (1 + Old.ReichMoore.codeK E ((as.filter fun a => a.J = J).map (Coupled.level w.p)))⁻¹ j 0
    positivity
  have h5 : (collisionOf E w as J 0 0).re ≤ 1 := by
    rw [Fin.sum_univ_three] at h1
    have h2 := normSq_nonneg (collisionOf E w as J 0 1)
    have h3 := normSq_nonneg (collisionOf E w as J 0 2)
    have h6 : normSq (collisionOf E w as J 0 0) ≤ 1 := by linarith
    rw [normSq_eq_norm_sq] at h6
    exact (abs_le.mp ((abs_re_le_norm _).trans ((sq_le_one_iff₀ (norm_nonneg _)).mp h6))).2
  have := (one h5).scale (neutronFactor_nonneg hI J)
  rwa [mul_one] at this

/-- Potential scattering with the factor `c`. -/
theorem shadow_potential {c φ : ℝ} (hc : 0 ≤ c) :
    Holds (c * (4 * Real.sin φ ^ 2)) c (c * (4 * Real.sin φ ^ 2)) := by
  have h : Holds (4 * Real.sin φ ^ 2) 1 (4 * Real.sin φ ^ 2) := by
    refine ⟨by positivity, zero_le_one, by positivity, ?_⟩
    have h1 := Real.sin_sq_le_one φ
    calc (4 * Real.sin φ ^ 2) ^ 2 = 16 * Real.sin φ ^ 2 * Real.sin φ ^ 2 := by ring
      _ ≤ 16 * Real.sin φ ^ 2 * 1 := mul_le_mul_of_nonneg_left h1 (by positivity)
      _ = 4 * 1 * (4 * Real.sin φ ^ 2) := by ring
  have := h.scale hc
  rwa [mul_one] at this

/-- C115 for the older Reich-Moore code: if the J values of the resonances are allowed ones, the square of the sum
of the cross sections is at most `4π/k² ∑ (2l+1)` times the elastic one. -/
theorem C115_old_reich_moore {E : ℝ} {x : Old.CrossSection} {c : Old.WaveConstant}
    {sort : Old.Sorting Old.ReichMoore.Resonance.flaggedStatisticalFactor} {rm : ReichMoore}
    {tag : Old.ReichMoore.Tag} {S : Old.ReichMoore.System} {channel scattering : ℝ → Outcome ℝ}
    (hI : HalfInt rm.spin)
    (hc : ∀ lv ∈ rm.lValues, ∀ r ∈ lv.resonances, 0 ≤ r.gammaWidth)
    (hJ : ∀ lv ∈ rm.lValues, Old.ReichMoore.Assignable rm.spin lv.l (lv.resonances.map (·.spin)).toFinset)
    (h : Old.ReichMoore.build c sort rm tag channel scattering tag.channel? = .ok S)
    (hx : S.evaluate c E = .ok x) :
    ∃ first rest, rm.lValues = first :: rest ∧
      let k := neutronWaveNumber c.value first.awri E
      k ≠ 0 ∧ (x.elastic + x.capture + x.fission) ^ 2
        ≤ 4 * (Real.pi / k ^ 2 * (rm.lValues.map fun lv => 2 * (lv.l : ℝ) + 1).sum) * x.elastic := by
  have hI0 : 0 < 4 * rm.spin + 2 := by
    obtain ⟨n, hn⟩ := hI
    rw [hn]
    positivity
  obtain ⟨first, rest, hl, ws, h1, h0, e0, e1, e2⟩ := Old.ReichMoore.C59 hI0 hc h hx
  refine ⟨first, rest, hl, h0, ?_⟩
  have key : Holds ((ws.map fun w => coupledElastic rm.spin E w.1 w.2).sum
        + (ws.map fun w => coupledCapture rm.spin E w.1 w.2).sum
        + (ws.map fun w => coupledFission rm.spin E w.1 w.2).sum)
      (rm.lValues.map fun lv => 2 * (lv.l : ℝ) + 1).sum
      (ws.map fun w => coupledElastic rm.spin E w.1 w.2).sum := by
    clear hl e0 e1 e2 h hx
    generalize rm.lValues = lvs at h1 hc hJ
    induction h1 with
    | nil => simpa using Holds.zero
    | @cons lv w lvs ws hw _ ih =>
      have i := ih (fun lv hlv => hc lv (List.mem_cons_of_mem _ hlv))
        fun lv hlv => hJ lv (List.mem_cons_of_mem _ hlv)
      have a := shadow_wave (E := E) (w := w.1) (as := w.2) hI (by
        intro a ha
        obtain ⟨r, hr, hra⟩ := forall₂_mem_right hw.2.resonances ha
        rw [hra.capture]
        exact hc lv List.mem_cons_self r hr)
      have hle := (hJ lv List.mem_cons_self).le hI
      have hle : ((∑ J ∈ (lv.resonances.map (·.spin)).toFinset, neutronFactor rm.spin |J| : ℚ) : ℝ)
          ≤ ((2 * lv.l + 1 : ℚ) : ℝ) := by exact_mod_cast hle
      push_cast at hle
      have b := shadow_potential (φ := w.1.φ) (c := 2 * (lv.l : ℝ) + 1
        - ∑ J ∈ (lv.resonances.map (·.spin)).toFinset, (neutronFactor rm.spin |J| : ℝ)) (by linarith)
      have hel : coupledElastic rm.spin E w.1 w.2 = levelElastic rm.spin E w.1 w.2
          + (2 * (lv.l : ℝ) + 1 - ∑ J ∈ (lv.resonances.map (·.spin)).toFinset,
            (neutronFactor rm.spin |J| : ℝ)) * (4 * Real.sin w.1.φ ^ 2) := by
        unfold coupledElastic levelElastic
        rw [hw.2.l, Old.ReichMoore.spins_eq hw.2]
      rw [Old.ReichMoore.spins_eq hw.2] at a
      have t := (a.add b).add i
      simp only [List.map_cons, List.sum_cons]
      refine t.mono ?_ (by linarith) (by linarith) (by linarith)
      have := t.total
      linarith
  have := (key.scale (c := Real.pi / neutronWaveNumber c.value first.awri E ^ 2) (by positivity)).le
  rw [e0, e1, e2, ← mul_add, ← mul_add]
  exact this

/-- The example of C60 at 20 eV. -/
example (c : Old.WaveConstant) (sort : Old.Sorting Old.ReichMoore.Resonance.flaggedStatisticalFactor) :
    ∃ S x, Old.ReichMoore.build c sort Old.ReichMoore.exampleEvaluation .both (Old.constantRadius 0.6)
        (Old.constantRadius 0.6) true = .ok S ∧ S.evaluate c 20 = .ok x ∧
      (x.elastic + x.capture + x.fission) ^ 2
        ≤ 4 * (Real.pi / neutronWaveNumber c.value 100 20 ^ 2 * 4) * x.elastic := by
  obtain ⟨S, h1, h2⟩ := Old.ReichMoore.C59_exists (c := c) (sort := sort) (tag := .both) (use := true)
    Old.ReichMoore.example_physical
  obtain ⟨x, hx⟩ := h2 20 (by norm_num)
  obtain ⟨first, rest, e, -, k⟩ := C115_old_reich_moore (tag := .both) Old.ReichMoore.example_physical.spin
    (fun lv hlv r hr => (Old.ReichMoore.example_physical.widths lv hlv r hr).2.le)
    Old.ReichMoore.example_assignable h1 hx
  obtain ⟨rfl, rfl⟩ := List.cons.inj e
  refine ⟨S, x, h1, hx, k.trans (le_of_eq ?_)⟩
  norm_num [Old.ReichMoore.exampleEvaluation]

variable {K : Constants} {lib : CoulombLibrary} {tables : InterpolationLibrary}
  {initialBreitWigner : Channel → Verif.BreitWigner.Cache} {neutronMass E A : ℝ} {incident target : Str}
  {reactions : ReactionLibrary} {initial : (g : SpinGroup) → MatrixCache g.channels.length}
  {elementaryCharge : ℝ} {range : Range} {R R' : Reconstructor} {m : ReactionMap}

/-- C115, Reich-Moore ranges: the square of the sum of any of the reported cross sections is at most
`4π/k² NLSC²` times the elastic one. -/
theorem C115_reich_moore {p : ReichMoore}
    (hR : fromENDF K lib tables reactions initialBreitWigner initial neutronMass elementaryCharge incident
      target range = .ok R)
    (hp : range.parameters = .reichMoore p)
    (hn : prescribedRadii range.scatteringRadius.isSome range.naps ≠ none)
    (hI : HalfInt p.spin) (hA : ∀ lv ∈ p.lValues, lv.awri = A)
    (hw : ∀ lv ∈ p.lValues, ∀ r ∈ lv.resonances, 0 ≤ r.neutronWidth ∧ 0 ≤ r.gammaWidth)
    (hd : DistinctEnergies p) (h0 : 0 ≤ E) (hE : range.lower ≤ E ∧ E ≤ range.upper)
    (hm : R.call K lib E = .ok (m, R')) (ids : Finset (ReactionID ⊕ LegacyID)) :
    (∑ id ∈ ids, (m id).getD 0) ^ 2
      ≤ 4 * (Real.pi / neutronWaveNumber (waveConstant K.hbar neutronMass) A E ^ 2 * p.nlsc ^ 2)
        * (m (.inl (.elastic (pairID incident target)))).getD 0 := by
  have hnn := (C74_reich_moore hR hp hn hI hA hw hd h0 hE hm).1
  obtain ⟨nro, ws, -, h, hleg⟩ := C69_cross_sections hR hp hn hI hA hw hd h0 hE hm
  have hmiss : ∀ l < p.nlsc, 0 ≤ missingFactor p l := by
    obtain ⟨-, -, -, nro', -, k4⟩ := C47_dispatch hR
    rw [hp] at k4
    intro l hl
    cases hs : R.system with
    | shiftFactor s => rw [hs] at k4; exact missing_nonneg hI hA k4 hl
    | singleLevel s => rw [hs] at k4; exact k4.elim
    | multiLevel s => rw [hs] at k4; exact k4.elim
    | constant s => rw [hs] at k4; exact k4.elim
    | unresolved s => rw [hs] at k4; exact k4.elim
  obtain ⟨φ, -, hel⟩ := h.elastic
  have hwv := h.waves
  have hcap := h.capture
  have hfis := h.fission
  have hoth := h.other
  set k := neutronWaveNumber (waveConstant K.hbar neutronMass) A E
  have hf : 0 ≤ Real.pi / k ^ 2 := by positivity
  have key : Holds ((ws.map fun w => levelElastic p.spin E w.1 w.2).sum
        + (ws.map fun w => coupledCapture p.spin E w.1 w.2).sum
        + (ws.map fun w => coupledFission p.spin E w.1 w.2).sum)
      (∑ l ∈ Finset.range p.nlsc, ((p.lValues.filter fun lv => lv.l = l).map (givenFactor p.spin)).sum)
      (ws.map fun w => levelElastic p.spin E w.1 w.2).sum := by
    clear hel hcap hfis h hmiss hA hd hp
    unfold LevelWaves at hwv
    generalize p.lValues = lvs at hwv hw ⊢
    induction hwv with
    | nil => simpa using Holds.zero
    | @cons lv w lvs ws h1 _ ih =>
      have i := ih fun lv hlv => hw lv (List.mem_cons_of_mem _ hlv)
      have hsum : ∑ l ∈ Finset.range p.nlsc,
          (((lv :: lvs).filter fun lv => lv.l = l).map (givenFactor p.spin)).sum
          = (if lv.l < p.nlsc then givenFactor p.spin lv else 0) + ∑ l ∈ Finset.range p.nlsc,
            ((lvs.filter fun lv => lv.l = l).map (givenFactor p.spin)).sum := by
        have : ∀ l, (((lv :: lvs).filter fun lv => lv.l = l).map (givenFactor p.spin)).sum
            = (if lv.l = l then givenFactor p.spin lv else 0)
              + ((lvs.filter fun lv => lv.l = l).map (givenFactor p.spin)).sum := by
          intro l
          by_cases hl : lv.l = l
          · rw [List.filter_cons_of_pos (by simpa using hl), if_pos hl, List.map_cons, List.sum_cons]
          · rw [List.filter_cons_of_neg (by simpa using hl), if_neg hl, zero_add]
        simp only [this, Finset.sum_add_distrib, Finset.sum_ite_eq, Finset.mem_range]
      have hspins : w.2.map Coupled.J = lv.resonances.map ReichMooreResonance.spin ∧
          (∀ a ∈ w.2, 0 ≤ a.capture) ∧ (lv.l < p.nlsc ∨ lv.resonances = []) := by
        by_cases hr : lv.resonances = []
        · rw [if_pos hr] at h1
          rw [h1, hr]
          exact ⟨rfl, fun a ha => (List.not_mem_nil ha).elim, .inr rfl⟩
        · rw [if_neg hr] at h1
          obtain ⟨-, h2, channel, scattering, -, h3⟩ := h1
          refine ⟨level_spins h3.resonances, ?_, .inl h2⟩
          intro a ha
          obtain ⟨r, hr', hra⟩ := forall₂_mem_right h3.resonances ha
          rw [hra.capture]
          exact (hw lv List.mem_cons_self r hr').2
      obtain ⟨s1, s2, s3⟩ := hspins
      have a := shadow_wave (E := E) (w := w.1) hI s2
      have hg : ∑ J ∈ (w.2.map Coupled.J).toFinset, (neutronFactor p.spin |J| : ℝ)
          = if lv.l < p.nlsc then givenFactor p.spin lv else 0 := by
        rw [s1]
        rcases s3 with s3 | s3
        · rw [if_pos s3]
          rfl
        · unfold givenFactor
          rw [s3]
          simp
      rw [hg] at a
      simp only [List.map_cons, List.sum_cons]
      rw [hsum]
      have t := a.add i
      refine t.mono ?_ (by linarith) le_rfl le_rfl
      have := t.total
      linarith
  have hall : ∑ l ∈ Finset.range p.nlsc, missingFactor p l + ∑ l ∈ Finset.range p.nlsc,
      ((p.lValues.filter fun lv => lv.l = l).map (givenFactor p.spin)).sum = (p.nlsc : ℝ) ^ 2 := by
    rw [← Finset.sum_add_distrib]
    have : ∀ n : ℕ, ∑ l ∈ Finset.range n, (2 * (l : ℝ) + 1) = (n : ℝ) ^ 2 := by
      intro n
      induction n with
      | zero => simp
      | succ n ih =>
        rw [Finset.sum_range_succ, ih]
        push_cast
        ring
    rw [← this]
    refine Finset.sum_congr rfl fun l _ => ?_
    unfold missingFactor
    ring
  have hpot := Holds.sum (Finset.range p.nlsc) fun l hl =>
    shadow_potential (φ := φ l) (hmiss l (Finset.mem_range.mp hl))
  have htot := (hpot.add key).scale hf
  rw [hall] at htot
  set el : ReactionID ⊕ LegacyID := .inl (.elastic (pairID incident target)) with hel'
  set ca : ReactionID ⊕ LegacyID := .inl (.transition (pairID incident target) "capture".toList) with hca
  set fi : ReactionID ⊕ LegacyID := .inl (.transition (pairID incident target) "fission".toList) with hfi
  have n1 : ca ≠ fi := by
    intro e
    have := ReactionID.transition.inj (Sum.inl.inj e)
    exact absurd this.2 (by decide)
  have n2 : el ≠ ca := fun e => by cases Sum.inl.inj e
  have n3 : el ≠ fi := fun e => by cases Sum.inl.inj e
  have hother : ∀ id, id ≠ el → id ≠ ca → id ≠ fi → (m id).getD 0 = 0 := by
    intro id e1 e2 e3
    cases id with
    | inl id =>
      have := hoth id (fun e => e1 (by rw [e])) (fun e => e2 (by rw [e])) fun e => e3 (by rw [e])
      rw [this]
      rfl
    | inr id =>
      rw [hleg]
      rfl
  have hsum : ∑ id ∈ ids, (m id).getD 0
      ≤ ∑ id ∈ ({el, ca, fi} : Finset (ReactionID ⊕ LegacyID)), (m id).getD 0 := by
    refine (Finset.sum_le_sum_of_subset_of_nonneg
      (Finset.subset_union_left (s₁ := ids) (s₂ := {el, ca, fi})) fun id _ _ => hnn id).trans
      (le_of_eq (Finset.sum_subset (Finset.subset_union_right (s₁ := ids) (s₂ := {el, ca, fi})) ?_).symm)
    intro id _ hid
    simp only [Finset.mem_insert, Finset.mem_singleton, not_or] at hid
    exact hother id hid.1 hid.2.1 hid.2.2
  rw [Finset.sum_insert (by simp [n2, n3]), Finset.sum_insert (by simp [n1]), Finset.sum_singleton] at hsum
  refine (htot.mono (Finset.sum_nonneg fun id _ => hnn id) (hsum.trans (le_of_eq ?_)) le_rfl
    (le_of_eq ?_)).le
  · rw [hel, hcap, hfis, Option.getD_some, Option.getD_some]
    ring
  · rw [hel, Option.getD_some]
    ring

/-- C115, R-matrix-limited ranges of all kinds: with `L = π/k² Σ g n`, where the sum is over the spin groups of the
evaluation and `n` is the number of elastic channels that it gives for the group, the square of the sum of any
reported cross sections is at most `4 L` times the elastic one. -/
theorem C115_rmatrix_limited {p : RMatrixLimited} {pairs : List ParticlePair}
    (hR : fromENDF K lib tables reactions initialBreitWigner initial neutronMass elementaryCharge incident
      target range = .ok R)
    (hp : range.parameters = .rmatrixLimited p)
    (hpairs : List.Forall₂ (IsPair reactions neutronMass elementaryCharge incident target) p.pairs pairs)
    (hids : (pairs.map ParticlePair.id).Nodup)
    (hE : range.lower ≤ E ∧ E ≤ range.upper)
    (hm : R.call K lib E = .ok (m, R')) :
    ∃ (i : ℕ) (row : ParticlePairRow) (pair : ParticlePair),
      p.pairs[i]? = some row ∧ row.mt = 2 ∧ pairs[i]? = some pair ∧
      let limit := Real.pi / (2 * pair.reducedMass * |pair.massRatio * E + row.q| / K.hbar ^ 2)
        * (p.spinGroups.map fun record => (groupFactor pair record * entranceChannels i record : ℝ)).sum
      ∀ ids : Finset (ReactionID ⊕ LegacyID),
        (∑ id ∈ ids, (m id).getD 0) ^ 2 ≤ 4 * limit * (m (.inl (.elastic pair.id))).getD 0 := by
  obtain ⟨h1, h2, hsup, nro, -, h4⟩ := C47_dispatch hR
  unfold Reconstructor.call at hm
  rw [h1, h2, if_pos ⟨hE.1, hE.2⟩] at hm
  obtain ⟨⟨m1, system⟩, hv, hm⟩ := bind_ok.mp hm
  cases hm
  rw [hp] at h4
  unfold SystemVariant.evaluate at hv
  have key : ∀ {option : BoundaryOption} {s s' : CompoundSystem} {m : CrossSectionMap},
      makeRMatrixCompoundSystem K lib initial reactions neutronMass elementaryCharge incident target p
        = .ok s → CompoundSystem.evaluate option K lib E s (fun _ => none) = .ok (m, s') →
      ∃ (i : ℕ) (row : ParticlePairRow) (pair : ParticlePair),
        p.pairs[i]? = some row ∧ row.mt = 2 ∧ pairs[i]? = some pair ∧
        let limit := Real.pi / (2 * pair.reducedMass * |pair.massRatio * E + row.q| / K.hbar ^ 2)
          * (p.spinGroups.map fun record => (groupFactor pair record * entranceChannels i record : ℝ)).sum
        ∀ ids : Finset (ReactionID ⊕ LegacyID), (∑ id ∈ ids, (ReactionMap.ofCrossSections m id).getD 0) ^ 2
          ≤ 4 * limit * (ReactionMap.ofCrossSections m (.inl (.elastic pair.id))).getD 0 := by
    intro option s s' m hs he
    obtain ⟨i, row, pair, data, consolidated, a1, a2, a3, a4, a5, a6, a7⟩ := limited_system hpairs hs
    have hsp := spins_nonneg hpairs
    have hrows := system_rows a4 a5 a6 a7
    have hmu : 0 ≤ pair.reducedMass := by
      obtain ⟨row', -, hq⟩ := forall₂_mem_right hpairs (List.mem_of_getElem? a3)
      rw [hq.reduced]
      obtain ⟨n1, n2, -⟩ := hq.notNegative
      positivity
    have hl := system_limit (E := E) hids a3 a1 hsp hmu a4 a5 a6 a7
    refine ⟨i, row, pair, a1, a2, a3, fun ids => ?_⟩
    rw [sum_inl]
    have b := shadow_system (constructed_of_data a7).1
      (fun st hst c hc => by
        obtain ⟨record, r, hr⟩ := hrows st hst c hc
        exact factor_nonneg hr hsp) (el := .elastic pair.id) (fun st hst c hc hci => by
        obtain ⟨record, r, hr⟩ := hrows st hst c hc
        rw [hr.reaction_eq, makeReactionID, if_pos (by rw [hci, hr.incident_eq])]) he
    simp only [Option.getD_none, sub_zero] at b
    exact ((b _).mono (b _).total le_rfl hl le_rfl).le
  cases hs : R.system with
  | shiftFactor s =>
    rw [hs] at h4 hv
    dsimp only at hv
    obtain ⟨⟨m, s'⟩, hv2, hm⟩ := bind_ok.mp hv
    cases hm
    exact key h4 hv2
  | constant s =>
    rw [hs] at h4 hv
    dsimp only at hv
    obtain ⟨⟨m, s'⟩, hv2, hm⟩ := bind_ok.mp hv
    cases hm
    exact key h4 hv2
  | singleLevel s => rw [hs] at h4; exact h4.elim
  | multiLevel s => rw [hs] at h4; exact h4.elim
  | unresolved s => rw [hs] at h4; exact h4.elim

open Endf.Example in
/-- The example of C70, with any flags: one group with J = 2, one elastic channel and the factor 5/8. -/
example (K : Constants) (lib : CoulombLibrary) (tables : InterpolationLibrary)
    (initialBreitWigner : Channel → Verif.BreitWigner.Cache)
    (initial : (g : SpinGroup) → MatrixCache g.channels.length) (a b : ℤ) :
    ∃ R m R', fromENDF K lib tables reactionLibrary initialBreitWigner initial 1 1 "n".toList
      "Cl35".toList (waveRange a b) = .ok R ∧ R.call K lib 10 = .ok (m, R') ∧
      ∀ ids : Finset (ReactionID ⊕ LegacyID), (∑ id ∈ ids, (m id).getD 0) ^ 2
        ≤ 4 * (Real.pi / (2 * neutronPair.reducedMass * |neutronPair.massRatio * 10 + 0| / K.hbar ^ 2)
          * (5 / 8)) * (m (.inl (.elastic neutronPair.id))).getD 0 := by
  obtain ⟨R, m, R', h1, h2⟩ := wave_evaluates K lib tables initialBreitWigner initial a b
  have hp := wave_physical a b
  obtain ⟨i, row, pair, h3, h4, h5, h6⟩ := C115_rmatrix_limited h1 rfl hp.described hp.distinct
    (by norm_num [waveRange]) h2
  refine ⟨R, m, R', h1, h2, fun ids => ?_⟩
  match i with
  | 0 =>
    cases h3
    exact absurd h4 (by norm_num)
  | 1 =>
    cases h3
    cases h5
    refine (h6 ids).trans (le_of_eq ?_)
    norm_num [waveEvaluation, waveRecord, entranceChannels, groupFactor, neutronPair]
  | i + 2 => cases h3

open Endf.Example in
/-- The example of C69 at energy 2. -/
example (K : Constants) (lib : CoulombLibrary) (tables : InterpolationLibrary) (reactions : ReactionLibrary)
    (initialBreitWigner : Channel → Verif.BreitWigner.Cache)
    (initial : (g : SpinGroup) → MatrixCache g.channels.length) (elementaryCharge : ℝ) (range : Range)
    (ht : range.type = 1 ∧ range.representation = 3) (hp : range.parameters = .reichMoore (evaluation 0))
    (hr : range.scatteringRadius = none) (hn : range.naps = 1) (hE : range.lower ≤ 2 ∧ 2 ≤ range.upper) :
    ∃ R m R', fromENDF K lib tables reactions initialBreitWigner initial 1 elementaryCharge "n".toList
        "Cl35".toList range = .ok R ∧ R.call K lib 2 = .ok (m, R') ∧
      ∀ ids : Finset (ReactionID ⊕ LegacyID), (∑ id ∈ ids, (m id).getD 0) ^ 2
        ≤ 4 * (Real.pi / neutronWaveNumber (waveConstant K.hbar 1) 35 2 ^ 2 * (evaluation 0).nlsc ^ 2)
          * (m (.inl (.elastic (pairID "n".toList "Cl35".toList)))).getD 0 := by
  obtain ⟨R, h1, h2⟩ := C69_accepted (K := K) (lib := lib) (tables := tables) (reactions := reactions)
    (initialBreitWigner := initialBreitWigner) (initial := initial) (elementaryCharge := elementaryCharge)
    (incident := "n".toList) (target := "Cl35".toList) (nro := none) (neutronMass := 1) (A := 35) ht hp
    (by rw [hr]; exact .none) (by rw [hn]; exact physical)
  rw [hn] at h2
  obtain ⟨⟨m, R'⟩, hv⟩ := h2 2 two_ne_zero (radiiAt (by norm_num [evaluation]) _ _) (by
      intro lv hlv
      refine radiiAt ?_ _ _
      simp only [evaluation, List.mem_cons, List.not_mem_nil, or_false] at hlv
      rcases hlv with rfl | rfl <;> norm_num [lengthOf, evaluation]) (by
      intro lv hlv r hr
      simp only [evaluation, List.mem_cons, List.not_mem_nil, or_false] at hlv
      rcases hlv with rfl | rfl <;> simp only [List.mem_cons, List.not_mem_nil, or_false] at hr <;>
        rcases hr with rfl | hr <;> norm_num <;> rcases hr with rfl | rfl <;> norm_num)
  exact ⟨R, m, R', h1, hv, C115_reich_moore h1 hp (by rw [hr, hn]; simp [prescribedRadii])
    physical.spin physical.ratio (by
      intro lv hlv r hr
      simp only [evaluation, List.mem_cons, List.not_mem_nil, or_false] at hlv
      rcases hlv with rfl | rfl <;> simp only [List.mem_cons, List.not_mem_nil, or_false] at hr
      · rcases hr with rfl | rfl | rfl <;> norm_num
      · rcases hr with rfl | rfl <;> norm_num) physical.different two_pos.le hE hv⟩

end Verif.Endf
