import Verif.Lemmas.ReichMooreRange
import Verif.Props.ReichMoore

/-!
# The cross sections of the compound system of a Reich-Moore evaluation
-/

namespace Verif.Endf

open Spec Blocks Complex

variable {K : Constants} {lib : CoulombLibrary} {E neutronMass A : ℝ} {incident target : Str}
  {initial : (g : SpinGroup) → MatrixCache g.channels.length} {nro : Option (ℝ → Outcome ℝ)} {naps : ℤ}
  {p : ReichMoore} {s s' : CompoundSystem} {m : CrossSectionMap}

/-- There is a spin group. -/
theorem system_ne_nil {data : List ChannelData} (h : makeCompoundSystemFromData initial data = .ok s) :
    s ≠ [] := by
  unfold makeCompoundSystemFromData at h
  obtain ⟨groups, -, h⟩ := bind_ok.mp h
  rintro rfl
  unfold makeCompoundSystem at h
  split at h
  · cases h
  · rename_i h1
    have h2 := Except.ok.inj h
    rw [h2] at h1
    simp [verifySpinGroups] at h1

/-- The blocks of an evaluation. -/
structure Layout (K : Constants) (lib : CoulombLibrary) (neutronMass : ℝ) (incident target : Str)
    (nro : Option (ℝ → Outcome ℝ)) (naps : ℤ) (p : ReichMoore) (A : ℝ) (blocks : List Block)
    (pair : ParticlePair) (radii : ChannelRadii) (remaining : List QuantumNumbers) : Prop where
  groups : blocks.map (fun b => (b.lvalue, b.J)) = groupsOf p.lValues
  valid : ∀ b ∈ blocks, b.Valid K lib neutronMass incident target p.spin p.ap nro naps
  numbered : ∀ b ∈ blocks, b.Numbered
  pair : incidentPair neutronMass incident target A p.spin = .ok pair
  radii : makeChannelRadii p.ap nro naps A neutronMass = .ok radii
  perm : (blocks.map Block.numbers ++ remaining).Perm (makeQuantumNumbers (1 / 2) p.spin p.nlsc)

theorem Block.lvalue_mem {blocks : List Block} {lvalues : List ReichMooreLValue}
    (hg : blocks.map (fun b => (b.lvalue, b.J)) = groupsOf lvalues) {b : Block} (hb : b ∈ blocks) :
    b.lvalue ∈ lvalues ∧ ∃ r ∈ b.lvalue.resonances, r.spin = b.J := by
  have : (b.lvalue, b.J) ∈ groupsOf lvalues := by
    rw [← hg]
    exact List.mem_map_of_mem (f := fun b : Block => (b.lvalue, b.J)) hb
  exact mem_groupsOf.mp this

theorem Layout.of_system (hI : HalfInt p.spin) (hA : ∀ lv ∈ p.lValues, lv.awri = A)
    (h : makeReichMooreCompoundSystem K lib initial neutronMass incident target nro naps p = .ok s) :
    ∃ blocks pair radii remaining consolidated,
      Layout K lib neutronMass incident target nro naps p A blocks pair radii remaining ∧
      consolidateChannelData ((blocks ++ remaining.map (emptyBlock A pair radii)).flatMap Block.data)
        = .ok consolidated ∧
      makeCompoundSystemFromData initial consolidated = .ok s := by
  obtain ⟨first, hfirst, pair, radii, data, remaining, consolidated, h1, h2, h3, h4, h5⟩ :=
    reichMooreSystem_ok.mp h
  have hmemf : first ∈ p.lValues := List.mem_of_mem_head? hfirst
  rw [hA first hmemf] at h1 h2
  obtain ⟨blocks, hv, hg, hr, rfl⟩ := overLValues_blocks h3
  obtain ⟨hperm, hfor, -⟩ := C06_conservation _ _ _ _ hr
  obtain ⟨hmem, -, -⟩ := C05_enumeration (1 / 2) p.spin ⟨1, by norm_num⟩ hI p.nlsc
  have hnum : ∀ b ∈ blocks, b.Numbered := by
    intro b hb
    rw [← hg, List.map_map, List.forall₂_map_left_iff, List.forall₂_map_right_iff,
      List.forall₂_same] at hfor
    have hin : b.numbers ∈ makeQuantumNumbers (1 / 2) p.spin p.nlsc :=
      hperm.mem_iff.mp (List.mem_append_left _ (List.mem_map_of_mem hb))
    obtain ⟨-, c1, c2, c3⟩ := (hmem _).mp hin
    have hs := couples_halfInt ⟨1, by norm_num⟩ hI c1
    obtain ⟨e1, e2⟩ := hfor b hb
    exact ⟨e1, e2, by rw [c3, e1]; rfl, hs, couples_halfInt (halfInt_natCast _) hs c2⟩
  refine ⟨blocks, pair, radii, remaining, consolidated, ⟨hg, hv, hnum, h1, h2, hperm⟩, ?_, h5⟩
  rw [List.flatMap_append, List.flatMap_map]
  have : (remaining.flatMap fun n => (emptyBlock A pair radii n).data)
      = remaining.map (emptyElastic pair radii) := by
    rw [List.map_eq_flatMap]
    rfl
  rw [this]
  exact h4

variable {blocks : List Block} {pair : ParticlePair} {radii : ChannelRadii} {remaining : List QuantumNumbers}

theorem Layout.left (hI : HalfInt p.spin)
    (h : Layout K lib neutronMass incident target nro naps p A blocks pair radii remaining) :
    ∀ n ∈ remaining, n.l < p.nlsc ∧ Physical n ∧ n.parity = (-1) ^ n.l := by
  intro n hn
  obtain ⟨hmem, -, -⟩ := C05_enumeration (1 / 2) p.spin ⟨1, by norm_num⟩ hI p.nlsc
  obtain ⟨c0, c1, c2, c3⟩ := (hmem _).mp (h.perm.mem_iff.mp (List.mem_append_right _ hn))
  have hs := couples_halfInt ⟨1, by norm_num⟩ hI c1
  exact ⟨c0, ⟨hs, couples_halfInt (halfInt_natCast _) hs c2⟩, c3⟩

theorem Layout.lt (hI : HalfInt p.spin)
    (h : Layout K lib neutronMass incident target nro naps p A blocks pair radii remaining) :
    ∀ b ∈ blocks, b.lvalue.l < p.nlsc := by
  intro b hb
  obtain ⟨hmem, -, -⟩ := C05_enumeration (1 / 2) p.spin ⟨1, by norm_num⟩ hI p.nlsc
  obtain ⟨c0, -⟩ := (hmem _).mp (h.perm.mem_iff.mp (List.mem_append_left _ (List.mem_map_of_mem hb)))
  rwa [(h.numbered b hb).l] at c0

/-- All blocks, those of the channels without resonances too. -/
theorem Layout.all (hI : HalfInt p.spin) (hA : ∀ lv ∈ p.lValues, lv.awri = A)
    (h : Layout K lib neutronMass incident target nro naps p A blocks pair radii remaining) :
    ∀ b ∈ blocks ++ remaining.map (emptyBlock A pair radii), b.Numbered ∧ b.Cellular K lib ∧
      b.fission.id = "fission".toList ∧ b.pair = pair := by
  intro b hb
  rcases List.mem_append.mp hb with hb | hb
  · refine ⟨h.numbered b hb, (h.valid b hb).cellular (h.numbered b hb), (h.valid b hb).fission, ?_⟩
    have h1 := (h.valid b hb).pair
    rw [hA _ (Block.lvalue_mem h.groups hb).1, h.pair] at h1
    exact (Except.ok.inj h1).symm
  · obtain ⟨n, hn, rfl⟩ := List.mem_map.mp hb
    obtain ⟨-, h2, h3⟩ := h.left hI n hn
    refine ⟨⟨rfl, ?_, h3, h2⟩, emptyBlock_cellular, rfl, rfl⟩
    show n.J = |n.J|
    obtain ⟨-, x, hx⟩ := h2
    rw [hx, abs_of_nonneg (by positivity)]

theorem Layout.nodup (hd : DistinctEnergies p)
    (hall : ∀ b ∈ blocks ++ remaining.map (emptyBlock A pair radii), b.Numbered)
    (h : Layout K lib neutronMass incident target nro naps p A blocks pair radii remaining) (x : ℚ ×ₗ ℤ) :
    (((cellsOf ((blocks ++ remaining.map (emptyBlock A pair radii)).map (Block.cell K lib)) x).flatMap
      Cell.rows).map Row.energy).Nodup := by
  have e1 : ∀ bs : List Block, (∀ b ∈ bs, b.Numbered) →
      ((cellsOf (bs.map (Block.cell K lib)) x).flatMap Cell.rows).map Row.energy
      = ((bs.filter fun b => |b.J| = (ofLex x).1 ∧ (-1) ^ b.lvalue.l = (ofLex x).2).flatMap
        Block.current).map ReichMooreResonance.energy := by
    intro bs hbs
    unfold cellsOf
    rw [List.filter_map, List.flatMap_map, List.map_flatMap, List.map_flatMap]
    have e2 : (bs.filter ((fun c : Cell => decide (c.jpi = x)) ∘ Block.cell K lib))
        = bs.filter fun b => decide (|b.J| = (ofLex x).1 ∧ (-1) ^ b.lvalue.l = (ofLex x).2) := by
      refine List.filter_congr fun b hb => ?_
      simp only [Function.comp, (Block.cell_jpi (K := K) (lib := lib) (hbs b hb)).1]
      congr 1
      rw [eq_iff_iff]
      constructor
      · rintro rfl
        exact ⟨rfl, rfl⟩
      · rintro ⟨h1, h2⟩
        rw [h1, h2]
        rfl
    refine (congrArg (fun l => List.flatMap _ l) e2).trans (List.flatMap_congr fun b _ => ?_)
    simp only [Block.cell, List.map_map]
    rfl
  rw [e1 _ hall, List.filter_append, List.flatMap_append]
  have e3 : (((remaining.map (emptyBlock A pair radii)).filter
      fun b => decide (|b.J| = (ofLex x).1 ∧ (-1) ^ b.lvalue.l = (ofLex x).2)).flatMap Block.current) = [] := by
    rw [List.flatMap_eq_nil_iff]
    intro b hb
    obtain ⟨n, -, rfl⟩ := List.mem_map.mp (List.mem_filter.mp hb).1
    rfl
  rw [e3, List.append_nil]
  exact ((blocks_energies h.groups _ _).map _).nodup_iff.mpr (hd _ _)

/-- The statistical factors of the channels without resonances. -/
theorem Layout.missing (hI : HalfInt p.spin)
    (h : Layout K lib neutronMass incident target nro naps p A blocks pair radii remaining) {l : ℕ}
    (hl : l < p.nlsc) :
    ((remaining.filter fun n => n.l = l).map fun n => (neutronFactor p.spin n.J : ℝ)).sum
      = missingFactor p l := by
  have h1 := C02_spin_factors_exhaust (1 / 2) p.spin ⟨1, by norm_num⟩ hI p.nlsc l hl
  have h2 : (((blocks.map Block.numbers ++ remaining).filter fun q => q.l = l).map
      fun q => neutronFactor p.spin q.J).sum = 2 * l + 1 := by
    rw [← h1, ((h.perm.filter _).map _).sum_eq]
    congr 1
    refine List.map_congr_left fun q _ => (neutron_factor q.J p.spin).symm
  rw [List.filter_append, List.map_append, List.sum_append, List.filter_map, List.map_map] at h2
  have h3 : ((blocks.filter ((fun q : QuantumNumbers => decide (q.l = l)) ∘ Block.numbers)).map
      ((fun q => neutronFactor p.spin q.J) ∘ Block.numbers)).sum
      = (blocks.map fun b => if b.lvalue.l = l then neutronFactor p.spin |b.J| else 0).sum := by
    have hn := h.numbered
    clear h h1 h2
    induction blocks with
    | nil => rfl
    | cons b bs ih =>
      have ih := ih fun b hb => hn b (List.mem_cons_of_mem _ hb)
      have hb := hn b List.mem_cons_self
      rw [List.map_cons, List.sum_cons, ← ih]
      by_cases hbl : b.lvalue.l = l
      · rw [List.filter_cons_of_pos (by simp [hb.l, hbl]), List.map_cons, List.sum_cons, if_pos hbl]
        simp only [Function.comp, hb.J]
      · rw [List.filter_cons_of_neg (by simp [hb.l, hbl]), if_neg hbl, zero_add]
  rw [h3] at h2
  have h4 : (((blocks.map fun b => if b.lvalue.l = l then neutronFactor p.spin |b.J| else 0).sum : ℚ) : ℝ)
      = ((p.lValues.filter fun lv => lv.l = l).map (givenFactor p.spin)).sum := by
    have e := sum_groupsOf (lvalues := p.lValues)
      (fun lv J => ((if lv.l = l then neutronFactor p.spin |J| else 0 : ℚ) : ℝ))
    rw [← h.groups, List.map_map] at e
    rw [Rat.cast_list_sum, List.map_map]
    refine Eq.trans e ?_
    clear e
    generalize p.lValues = lvs
    induction lvs with
    | nil => rfl
    | cons lv lvs ih =>
      rw [List.map_cons, List.sum_cons, ih]
      by_cases hbl : lv.l = l
      · rw [List.filter_cons_of_pos (by simp [hbl]), List.map_cons, List.sum_cons]
        simp [hbl, givenFactor]
      · rw [List.filter_cons_of_neg (by simp [hbl])]
        simp [hbl]
  unfold missingFactor
  rw [← h4]
  have h5 : (((remaining.filter fun n => n.l = l).map fun n => neutronFactor p.spin n.J).sum : ℝ)
      = ((remaining.filter fun n => n.l = l).map fun n => (neutronFactor p.spin n.J : ℝ)).sum := by
    rw [Rat.cast_list_sum, List.map_map]
    rfl
  rw [← h5]
  have h6 := congrArg (fun q : ℚ => (q : ℝ)) h2
  push_cast at h6
  push_cast
  linarith

theorem lChannel_belowThreshold {pair : ParticlePair} {radii : ChannelRadii}
    (h : incidentPair neutronMass incident target A p.spin = .ok pair) (hE : 0 ≤ E) :
    ¬ pair.massRatio * E + 0 < 0 := by
  obtain ⟨h1, h2, -, rfl⟩ := incidentPair_ok h
  rw [add_zero, not_lt]
  exact mul_nonneg (div_nonneg h2 (by linarith)) hE

/-- The cross sections of the compound system of a Reich-Moore evaluation. -/
theorem system_reichMoore (hI : HalfInt p.spin) (hn : prescribedRadii nro.isSome naps ≠ none)
    (hA : ∀ lv ∈ p.lValues, lv.awri = A)
    (hw : ∀ lv ∈ p.lValues, ∀ r ∈ lv.resonances, 0 ≤ r.neutronWidth ∧ 0 ≤ r.gammaWidth)
    (hd : DistinctEnergies p) (hE : 0 ≤ E)
    (h : makeReichMooreCompoundSystem K lib initial neutronMass incident target nro naps p = .ok s)
    (hm : CompoundSystem.evaluate .shiftFactor K lib E s (fun _ => none) = .ok (m, s')) :
    ∃ ws, IsReichMoore K neutronMass A E incident target nro naps p ws m := by
  obtain ⟨blocks, pair, radii, remaining, consolidated, hL, h4, h5⟩ := Layout.of_system hI hA h
  have hall := hL.all hI hA
  have hpid : pair.id = pairID incident target := by rw [(incidentPair_ok hL.pair).2.2.2]
  have hspin : pair.particle.spin = 1 / 2 ∧ pair.residual.spin = p.spin := by
    rw [(incidentPair_ok hL.pair).2.2.2]
    exact ⟨rfl, rfl⟩
  obtain ⟨dk, dc⟩ := data_cells fun b hb => (hall b hb).2.1
  have hgood : ∀ c ∈ (blocks ++ remaining.map (emptyBlock A pair radii)).map (Block.cell K lib), c.Good := by
    intro c hc
    obtain ⟨b, -, rfl⟩ := List.mem_map.mp hc
    exact b.cell_good
  obtain ⟨jpis, j1, j2, j3⟩ := system_groups dk (by
      intro d hd
      obtain ⟨b, hb, hd⟩ := List.mem_flatMap.mp hd
      exact (hall b hb).2.1.lengths d hd) (by
      intro c hc
      obtain ⟨b, hb, rfl⟩ := List.mem_map.mp hc
      exact (Block.cell_jpi (hall b hb).1).2) hgood dc
    (fun x => hL.nodup hd (fun b hb => (hall b hb).1) x) h4 h5
  have hne : (blocks ++ remaining.map (emptyBlock A pair radii)).map (Block.cell K lib) ≠ [] := by
    intro h0
    rw [h0] at j3
    cases j3 with
    | nil => exact system_ne_nil h5 rfl
    | cons hx _ => exact hx.2.1 rfl
  have hk : ∀ b ∈ blocks ++ remaining.map (emptyBlock A pair radii),
      (elasticChannel b.pair b.radii b.numbers).waveNumber K E
        = neutronWaveNumber (waveConstant K.hbar neutronMass) A E := by
    intro b hb
    rw [(hall b hb).2.2.2]
    exact lChannel_waveNumber hL.pair b.radii b.numbers.l E
  have hG : ∀ b ∈ blocks ++ remaining.map (emptyBlock A pair radii),
      (elasticChannel b.pair b.radii b.numbers).spinFactor = neutronFactor p.spin |b.J| := by
    intro b hb
    rw [(hall b hb).2.2.2, ← (hall b hb).1.J, ← neutron_factor, ← hspin.1, ← hspin.2]
    rfl
  obtain ⟨v1, v2, v3, v4, v5, v6⟩ := system_values (K := K) (lib := lib)
    (spinFactor := fun x => (neutronFactor p.spin (ofLex x).1 : ℝ))
    (k := neutronWaveNumber (waveConstant K.hbar neutronMass) A E) (id := pairID incident target)
    j1 j2 j3 hne hgood (by
      intro c hc
      obtain ⟨b, hb, rfl⟩ := List.mem_map.mp hc
      exact Block.cell_neutronic (by rw [(hall b hb).2.2.2, hpid]) (hall b hb).2.2.1) (by
      intro c hc j _
      obtain ⟨b, hb, rfl⟩ := List.mem_map.mp hc
      have hnb := lChannel_belowThreshold (radii := radii) hL.pair hE
      have hbp := (hall b hb).2.2.2
      fin_cases j
      · show ¬ b.pair.massRatio * E + 0 < 0
        rw [hbp]; exact hnb
      · show ¬ b.pair.massRatio * E + 0 < 0
        rw [hbp]; exact hnb
      · show ¬ b.pair.massRatio * E + 0 < 0
        rw [hbp]; exact hnb) (by
      intro c hc
      obtain ⟨b, hb, rfl⟩ := List.mem_map.mp hc
      exact hk b hb) (by
      intro c hc
      obtain ⟨b, hb, rfl⟩ := List.mem_map.mp hc
      show (((elasticChannel b.pair b.radii b.numbers).spinFactor : ℚ) : ℝ) = _
      rw [hG b hb, (Block.cell_jpi (K := K) (lib := lib) (hall b hb).1).1]
      rfl) hm
  -- the channel of an l value
  obtain ⟨cf, hcf⟩ : ∃ cf : ReichMooreLValue → Channel, ∀ b ∈ blocks,
      lChannel b.pair b.radii b.lvalue.l = cf b.lvalue := by
    refine ⟨fun lv => lChannel pair (match makeChannelRadii (if lv.apl ≠ 0 then lv.apl else p.ap) nro naps
      lv.awri neutronMass with | .ok r => r | .error _ => radii) lv.l, fun b hb => ?_⟩
    simp only [(hL.valid b hb).radii, (hall b (List.mem_append_left _ hb)).2.2.2]
  have hval : ∀ b ∈ blocks ++ remaining.map (emptyBlock A pair radii),
      (∃ P, (elasticChannel b.pair b.radii b.numbers).penetrability K lib E = .ok P ∧ 0 ≤ P) ∧
      ∃ φ, (elasticChannel b.pair b.radii b.numbers).phaseShift K lib E = .ok φ := by
    intro b hb
    exact v2 _ (List.mem_map_of_mem hb) 0 (Block.mem_roles.mpr (Or.inl rfl))
  have hcoll : ∀ b ∈ blocks, (b.cell K lib).collision K lib E = collisionOf E (waveOf K lib E (cf b.lvalue))
      (b.lvalue.resonances.map (coupledOf K lib (cf b.lvalue))) b.J := by
    intro b hb
    obtain ⟨P, hP, hP0⟩ := (hval b (List.mem_append_left _ hb)).1
    rw [← hcf b hb]
    exact Block.cell_collision (hL.valid b hb) (hL.numbered b hb)
      (hw _ (Block.lvalue_mem hL.groups hb).1) hP0 hP
  -- sums over all cells
  have hsum : ∀ F : Matrix (Fin 3) (Fin 3) ℂ → ℝ,
      (((blocks ++ remaining.map (emptyBlock A pair radii)).map (Block.cell K lib)).map fun c =>
        ((c.channel 0).spinFactor : ℝ) * F (c.collision K lib E)).sum
      = ((p.lValues.map fun lv => (waveOf K lib E (cf lv), lv.resonances.map (coupledOf K lib (cf lv)))).map
          fun w => ∑ J ∈ (w.2.map Coupled.J).toFinset,
            (neutronFactor p.spin |J| : ℝ) * F (collisionOf E w.1 w.2 J)).sum
        + (remaining.map fun n => (neutronFactor p.spin n.J : ℝ)
          * F (((emptyBlock A pair radii n).cell K lib).collision K lib E)).sum := by
    intro F
    rw [List.map_map, List.map_append, List.sum_append]
    congr 1
    · have e1 := sum_groupsOf (lvalues := p.lValues) fun lv J => (neutronFactor p.spin |J| : ℝ)
        * F (collisionOf E (waveOf K lib E (cf lv)) (lv.resonances.map (coupledOf K lib (cf lv))) J)
      rw [← hL.groups, List.map_map] at e1
      rw [List.map_map]
      refine Eq.trans ?_ (e1.trans ?_)
      · congr 1
        refine List.map_congr_left fun b hb => ?_
        simp only [Function.comp]
        rw [hcoll b hb]
        have := hG b (List.mem_append_left _ hb)
        show (((elasticChannel b.pair b.radii b.numbers).spinFactor : ℚ) : ℝ) * _ = _
        rw [this]
      · congr 1
        refine List.map_congr_left fun lv _ => ?_
        simp only [Function.comp, List.map_map]
        rfl
    · rw [List.map_map]
      congr 1
      refine List.map_congr_left fun n hn' => ?_
      simp only [Function.comp]
      have hb : emptyBlock A pair radii n ∈ blocks ++ remaining.map (emptyBlock A pair radii) :=
        List.mem_append_right _ (List.mem_map_of_mem hn')
      have := hG _ hb
      rw [← (hall _ hb).1.J] at this
      show (((elasticChannel _ _ _).spinFactor : ℚ) : ℝ) * _ = _
      rw [this]
      rfl
  have hzero : ∀ F : Matrix (Fin 3) (Fin 3) ℂ → ℝ, (∀ n ∈ remaining,
      F (((emptyBlock A pair radii n).cell K lib).collision K lib E) = 0) →
      (remaining.map fun n => (neutronFactor p.spin n.J : ℝ)
          * F (((emptyBlock A pair radii n).cell K lib).collision K lib E)).sum = 0 := by
    intro F hF
    apply List.sum_eq_zero
    intro x hx
    obtain ⟨n, hn', rfl⟩ := List.mem_map.mp hx
    rw [hF n hn', mul_zero]
  obtain ⟨-, hA0, -, -⟩ := incidentPair_ok hL.pair
  have hkf : ∀ (radii : ChannelRadii) (l : ℕ), (lChannel pair radii l).waveNumber K
      = neutronWaveNumber (waveConstant K.hbar neutronMass) A :=
    fun radii l => funext fun E => lChannel_waveNumber hL.pair radii l E
  refine ⟨p.lValues.map fun lv => (waveOf K lib E (cf lv), lv.resonances.map (coupledOf K lib (cf lv))),
    v1, ?_, ?_, ?_, ?_, v6⟩
  · unfold LevelWaves
    rw [List.forall₂_map_right_iff, List.forall₂_same]
    intro lv hlv
    have hblock : ∀ r ∈ lv.resonances, ∃ b ∈ blocks, b.lvalue = lv ∧ b.J = r.spin := by
      intro r hr
      have hmem : (lv, r.spin) ∈ groupsOf p.lValues := mem_groupsOf.mpr ⟨hlv, r, hr, rfl⟩
      rw [← hL.groups] at hmem
      obtain ⟨b, hb, e⟩ := List.mem_map.mp hmem
      obtain ⟨e1, e2⟩ := Prod.mk.inj e
      exact ⟨b, hb, e1, e2⟩
    split
    · rename_i h0
      simp [h0]
    · rename_i h0
      obtain ⟨r, hr⟩ := List.exists_mem_of_ne_nil _ h0
      obtain ⟨b, hb, rfl, -⟩ := hblock r hr
      have hbp := (hall b (List.mem_append_left _ hb)).2.2.2
      have hbl := (hL.numbered b hb).l
      obtain ⟨⟨P, hP, -⟩, φ, hφ⟩ := hval b (List.mem_append_left _ hb)
      rw [(elastic_lChannel _ _ _ _).1, hbl] at hP
      rw [(elastic_lChannel _ _ _ _).2.1, hbl] at hφ
      obtain ⟨hl, radius, hr1, hr2⟩ := neutron_penetrability rfl hP
      obtain ⟨radius', hr3, hr4⟩ := neutron_phaseShift rfl hl hφ
      have hbr := (hL.valid b hb).radii
      rw [hA _ hlv] at hbr
      refine ⟨hl, hL.lt hI b hb, b.radii.penetrability, b.radii.phaseShift, (radii_ok hA0 hn hbr).1, ?_⟩
      simp only [← hcf b hb]
      rw [hbp] at hP hφ hr1 hr2 hr3 hr4 ⊢
      rw [hkf] at hr2 hr4
      refine ⟨rfl, ⟨radius, hr1, ?_⟩, ⟨radius', hr3, ?_⟩, ?_⟩
      · show okValue _ = _
        rw [okValue_ok hP]
        exact hr2
      · show exp (2 * I * ((okValue _ : ℝ) : ℂ)) = _
        rw [okValue_ok hφ]
        exact hr4
      · rw [List.forall₂_map_right_iff, List.forall₂_same]
        intro r hr
        obtain ⟨b', hb', e1, e2⟩ := hblock r hr
        have hcur : r ∈ b'.current := List.mem_filter.mpr ⟨e1 ▸ hr, by simp [e2]⟩
        obtain ⟨P, hP, hP0, -⟩ := Block.width_ok (hL.valid b' hb') (hL.numbered b' hb') hcur
        rw [hcf b' hb', e1, ← hcf b hb, hbp] at hP
        obtain ⟨-, radius, hr1, hr2⟩ := neutron_penetrability rfl hP
        rw [hkf] at hr2
        refine ⟨rfl, rfl, rfl, rfl, rfl, rfl, ⟨radius, hr1, ?_⟩, ?_⟩
        · show okValue _ = _
          rw [okValue_ok hP]
          exact hr2
        · show okValue _ ≠ _
          rw [okValue_ok hP]
          exact hP0
  · rw [v4, hsum fun U => 1 - ∑ j, normSq (U 0 j),
      hzero (fun U => 1 - ∑ j, normSq (U 0 j)) fun n _ => empty_values.2.1, add_zero]
    rfl
  · rw [v5, hsum fun U => normSq (U 0 1) + normSq (U 0 2),
      hzero (fun U => normSq (U 0 1) + normSq (U 0 2)) fun n _ => empty_values.2.2, add_zero]
    rfl
  · refine ⟨fun l => okValue ((lChannel pair radii l).phaseShift K lib E), ?_, ?_⟩
    · intro l hl hmiss
      obtain ⟨n, hn', rfl⟩ : ∃ n ∈ remaining, n.l = l := by
        by_contra hcon
        apply hmiss
        rw [← hL.missing hI hl]
        have : (remaining.filter fun n => n.l = l) = [] := by
          rw [List.filter_eq_nil_iff]
          intro n hn' hnl
          exact hcon ⟨n, hn', by simpa using hnl⟩
        rw [this]
        rfl
      have hb : emptyBlock A pair radii n ∈ blocks ++ remaining.map (emptyBlock A pair radii) :=
        List.mem_append_right _ (List.mem_map_of_mem hn')
      obtain ⟨⟨P, hP, -⟩, φ, hφ⟩ := hval _ hb
      have hP' : (lChannel pair radii n.l).penetrability K lib E = .ok P := hP
      have hφ' : (lChannel pair radii n.l).phaseShift K lib E = .ok φ := hφ
      obtain ⟨hl4, -⟩ := neutron_penetrability rfl hP'
      obtain ⟨radius', hr3, hr4⟩ := neutron_phaseShift rfl hl4 hφ'
      refine ⟨hl4, radii.penetrability, radii.phaseShift, radius', (radii_ok hA0 hn hL.radii).1, hr3, ?_⟩
      rw [hkf] at hr4
      show exp (2 * I * ((okValue _ : ℝ) : ℂ)) = _
      rw [okValue_ok hφ']
      exact hr4
    · rw [v3, hsum fun U => normSq (1 - U 0 0)]
      congr 3
      have e1 : (remaining.map fun n => (neutronFactor p.spin n.J : ℝ) * normSq (1 -
          ((emptyBlock A pair radii n).cell K lib).collision K lib E 0 0)).sum
          = (remaining.map fun n => (neutronFactor p.spin n.J : ℝ)
            * (4 * Real.sin (okValue ((lChannel pair radii n.l).phaseShift K lib E)) ^ 2)).sum := by
        congr 1
        refine List.map_congr_left fun n _ => ?_
        rw [empty_values.1]
      rw [e1]
      have hlt : ∀ n ∈ remaining, n.l < p.nlsc := fun n hn' => (hL.left hI n hn').1
      have e2 : ∀ l ∈ Finset.range p.nlsc, missingFactor p l
          * (4 * Real.sin (okValue ((lChannel pair radii l).phaseShift K lib E)) ^ 2)
          = ((remaining.filter fun n => n.l = l).map fun n => (neutronFactor p.spin n.J : ℝ)
            * (4 * Real.sin (okValue ((lChannel pair radii n.l).phaseShift K lib E)) ^ 2)).sum := by
        intro l hl
        rw [← hL.missing hI (Finset.mem_range.mp hl), ← List.sum_map_mul_right]
        congr 1
        refine List.map_congr_left fun n hn' => ?_
        rw [of_decide_eq_true (List.mem_filter.mp hn').2]
      rw [Finset.sum_congr rfl e2]
      clear e1 e2 hzero hsum hval hcoll v1 v2 v3 v4 v5 v6 hG hk hne hgood dk dc hall h4 hL j2 j3
      generalize (fun n : QuantumNumbers => (neutronFactor p.spin n.J : ℝ)
        * (4 * Real.sin (okValue ((lChannel pair radii n.l).phaseShift K lib E)) ^ 2)) = f
      induction remaining with
      | nil => simp
      | cons n ns ih =>
        have ih := ih fun n hn' => hlt n (List.mem_cons_of_mem _ hn')
        have hnl := hlt n List.mem_cons_self
        rw [List.map_cons, List.sum_cons, ih]
        have e3 : ∀ l ∈ Finset.range p.nlsc, (((n :: ns).filter fun n => n.l = l).map f).sum
            = (if n.l = l then f n else 0) + ((ns.filter fun n => n.l = l).map f).sum := by
          intro l _
          by_cases hnl' : n.l = l
          · rw [List.filter_cons_of_pos (by simpa using hnl'), List.map_cons, List.sum_cons, if_pos hnl']
          · rw [List.filter_cons_of_neg (by simpa using hnl'), if_neg hnl', zero_add]
        rw [Finset.sum_congr rfl e3, Finset.sum_add_distrib, Finset.sum_ite_eq,
          if_pos (Finset.mem_range.mpr hnl)]

end Verif.Endf
