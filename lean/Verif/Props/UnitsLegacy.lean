import Verif.Props.Units
import Verif.Props.UnresolvedGrid
import Verif.Props.LegacyResolvedExamples

/-!
# Property C92: cross sections do not depend on the units (Breit-Wigner and unresolved resonances)
-/

namespace Verif

open Spec (Units)

variable {K : Constants} {lib : CoulombLibrary} {E : ℝ} (u : Units)

theorem units_add (m : LegacyMap) (id : LegacyID) {v v' : ℝ} (hv : v' = u.length ^ 2 * v) :
    LegacyMap.add (u.crossSections m) id v' = u.crossSections (LegacyMap.add m id v) := by
  subst hv
  funext i
  unfold LegacyMap.add Units.crossSections
  by_cases h : i = id
  · subst h
    rw [Function.update_self, Function.update_self]
    cases m i <;> simp [mul_add]
  · rw [Function.update_of_ne h, Function.update_of_ne h]

theorem units_id (c : Channel) (kind : LegacyKind) : legacyID (u.channel c) kind = legacyID c kind := rfl

/-! ## Breit-Wigner resonances -/

namespace BreitWigner

open SpinGroup

/-- C92: the constructor makes the converted resonance of converted data. -/
theorem C92_resonance (E elastic capture fission competition P Q S : ℝ) :
    makeResonance (u.energy * E) (u.energy * elastic) (u.energy * capture) (u.energy * fission)
        (u.energy * competition) P Q S
      = (makeResonance E elastic capture fission competition P Q S).map u.level := by
  unfold makeResonance
  split
  · rfl
  · simp only [mul_div_assoc]
    rfl

theorem units_competition (g : SpinGroup) (p : ℝ) :
    (u.levelGroup g).competitionPenetrability (u.constants K) lib (u.energy * E) p
      = g.competitionPenetrability K lib E p := by
  unfold competitionPenetrability
  have hq : (u.levelGroup g).qx ≠ 0 ↔ g.qx ≠ 0 := by
    change u.energy * g.qx ≠ 0 ↔ _
    rw [mul_ne_zero_iff]
    exact and_iff_right u.energy_pos.ne'
  by_cases h : g.qx ≠ 0
  · rw [if_pos h, if_pos (hq.mpr h)]
    change (u.channel g.channel).penetrability (u.constants K) lib (u.energy * E - u.energy * g.qx) = _
    rw [← mul_sub, (units_functions u).1]
  · rw [if_neg h, if_neg (fun h0 => h (hq.mp h0))]

/-- The vectors of a group after `precompute`. -/
noncomputable def vectors (rs : List Resonance) (E p q s : ℝ) : Cache :=
  ⟨rs.map fun r => r.elasticAt p, rs.map fun r => r.capture, rs.map fun r => r.fission,
    rs.map fun r => r.totalAt p q, rs.map fun r => E - r.energyPrime s,
    List.zipWith (fun d t => d * d + 0.25 * t * t) (rs.map fun r => E - r.energyPrime s)
      (rs.map fun r => r.totalAt p q)⟩

theorem units_vectors (rs : List Resonance) (p q s : ℝ) :
    vectors (rs.map u.level) (u.energy * E) p q s = u.cache (vectors rs E p q s) := by
  unfold vectors Units.cache
  simp only [List.map_map, List.zipWith_map, List.map_zipWith, Cache.mk.injEq]
  have h1 : ∀ r : Resonance, (u.level r).totalAt p q = u.energy * r.totalAt p q := by
    intro r
    unfold Resonance.totalAt Resonance.elasticAt Resonance.competitionAt
    change p * (u.energy * r.elasticToPenetrability) + u.energy * r.capture + u.energy * r.fission
      + q * (u.energy * r.competitionToPenetrability) = _
    ring
  have h2 : ∀ r : Resonance, u.energy * E - (u.level r).energyPrime s = u.energy * (E - r.energyPrime s) := by
    intro r
    unfold Resonance.energyPrime
    change u.energy * E - (u.energy * r.energy + (r.shiftfactor - s) / 2 * (u.energy * r.elasticToPenetrability)) = _
    ring
  refine ⟨?_, ?_, ?_, ?_, ?_, ?_⟩
  · refine List.map_congr_left fun r _ => ?_
    change p * (u.energy * r.elasticToPenetrability) = u.energy * (p * r.elasticToPenetrability)
    ring
  · rfl
  · rfl
  · exact List.map_congr_left fun r _ => h1 r
  · exact List.map_congr_left fun r _ => h2 r
  · congr 1
    funext r r'
    simp only [Function.comp_apply, h1, h2]
    ring

theorem units_precompute_eq (g : SpinGroup) :
    g.precompute K lib E = (do
      let p ← g.channel.penetrability K lib E
      let q ← g.competitionPenetrability K lib E p
      let s ← g.channel.shiftFactor K lib E
      pure { g with cache := vectors g.resonances E p q s }) := rfl

theorem units_precompute (g : SpinGroup) :
    (u.levelGroup g).precompute (u.constants K) lib (u.energy * E)
      = (g.precompute K lib E).map u.levelGroup := by
  rw [units_precompute_eq, units_precompute_eq]
  change (do
      let p ← (u.channel g.channel).penetrability (u.constants K) lib (u.energy * E)
      let q ← (u.levelGroup g).competitionPenetrability (u.constants K) lib (u.energy * E) p
      let s ← (u.channel g.channel).shiftFactor (u.constants K) lib (u.energy * E)
      pure { u.levelGroup g with cache := vectors (g.resonances.map u.level) (u.energy * E) p q s }) = _
  rw [(units_functions u).1, (units_functions (lib := lib) u).2.1]
  cases g.channel.penetrability K lib E with
  | error e => rfl
  | ok p =>
    simp only [bind, Except.bind, units_competition]
    cases g.competitionPenetrability K lib E p with
    | error e => rfl
    | ok q =>
      simp only
      cases g.channel.shiftFactor K lib E with
      | error e => rfl
      | ok s =>
        simp only [pure, Except.pure, units_vectors]
        rfl

theorem zipped_cache (c : Cache) :
    zipped (u.cache c) = (zipped c).map fun v => (u.energy * v.1, u.energy * v.2.1, u.energy * v.2.2.1,
      u.energy * v.2.2.2.1, u.energy * v.2.2.2.2.1, u.energy ^ 2 * v.2.2.2.2.2) := by
  unfold zipped Units.cache
  simp only [List.zip_map]
  refine List.map_congr_left ?_
  rintro ⟨a, b, c, d, e, f⟩ _
  rfl

theorem units_calculate (a b x1 x2 x3 x4 x5 x6 : ℝ) :
    calculate a b (u.energy * x1, u.energy * x2, u.energy * x3, u.energy * x4, u.energy * x5, u.energy ^ 2 * x6)
      = calculate a b (x1, x2, x3, x4, x5, x6) := by
  have he := u.energy_pos.ne'
  have h : ∀ x : ℝ, u.energy ^ 2 * x / (u.energy ^ 2 * x6) = x / x6 := fun x => mul_div_mul_left _ _ (pow_ne_zero 2 he)
  unfold calculate
  simp only [Data.mk.injEq]
  refine ⟨?_, ?_, ?_, trivial⟩
  · rw [← h]
    congr 1
    ring
  · rw [← h]
    congr 1
    ring
  · rw [← h]
    congr 1
    ring

/-- C92 for a single-level Breit-Wigner group: the result of an evaluation in the new units is the converted result,
including the reasons for failures and the vectors that the group keeps. -/
theorem C92_single_level (g : SpinGroup) (m : LegacyMap) :
    (u.levelGroup g).evaluateSLBW (u.constants K) lib (u.energy * E) (u.crossSections m)
      = u.result u.levelGroup (g.evaluateSLBW K lib E m) := by
  unfold evaluateSLBW
  simp only
  have hc : (u.levelGroup g).channel = u.channel g.channel := rfl
  rw [hc, (units_functions u).1, (units_functions (lib := lib) u).2.1, (units_functions (lib := lib) u).2.2.1,
    units_waveNumber, units_precompute]
  cases g.channel.penetrability K lib E with
  | error e => rfl
  | ok p =>
    simp only [bind, Except.bind, units_competition]
    cases g.competitionPenetrability K lib E p with
    | error e => rfl
    | ok q =>
      simp only
      cases g.channel.shiftFactor K lib E with
      | error e => rfl
      | ok s =>
        simp only
        cases g.channel.phaseShift K lib E with
        | error e => rfl
        | ok phi =>
          simp only
          have hk : g.channel.waveNumber K E / u.length = 0 ↔ g.channel.waveNumber K E = 0 := by
            rw [div_eq_zero_iff]
            exact or_iff_left u.length_pos.ne'
          by_cases h0 : g.channel.waveNumber K E = 0
          · rw [if_pos h0, if_pos (hk.mpr h0)]
            rfl
          · rw [if_neg h0, if_neg (fun h => h0 (hk.mp h))]
            cases g.precompute K lib E with
            | error e => rfl
            | ok g' =>
              simp only [Except.map]
              have hz : (0 : ℝ) ∈ (u.levelGroup g').cache.denominator ↔ (0 : ℝ) ∈ g'.cache.denominator := by
                change (0 : ℝ) ∈ g'.cache.denominator.map (u.energy ^ 2 * ·) ↔ _
                rw [List.mem_map]
                constructor
                · rintro ⟨x, h1, h2⟩
                  rwa [(mul_eq_zero.mp h2).resolve_left (pow_ne_zero 2 u.energy_pos.ne')] at h1
                · exact fun h => ⟨0, h, mul_zero _⟩
              by_cases h1 : (0 : ℝ) ∈ g'.cache.denominator
              · rw [if_pos h1, if_pos (hz.mpr h1)]
                rfl
              · rw [if_neg h1, if_neg (fun h => h1 (hz.mp h))]
                have hsum : ∀ a b, (zipped (u.levelGroup g').cache).map (calculate a b)
                    = (zipped g'.cache).map (calculate a b) := by
                  intro a b
                  change (zipped (u.cache g'.cache)).map (calculate a b) = _
                  rw [zipped_cache, List.map_map]
                  refine List.map_congr_left ?_
                  rintro ⟨x1, x2, x3, x4, x5, x6⟩ _
                  exact units_calculate u a b x1 x2 x3 x4 x5 x6
                rw [hsum]
                generalize ((zipped g'.cache).map _).foldl Data.add ⟨0, 0, 0, 0⟩ = comp
                have hf : ∀ x : ℝ, Real.pi / (g.channel.waveNumber K E / u.length * (g.channel.waveNumber K E / u.length))
                    * g.channel.spinFactor * x = u.length ^ 2 * (Real.pi / (g.channel.waveNumber K E
                      * g.channel.waveNumber K E) * g.channel.spinFactor * x) := by
                  intro x
                  have := u.length_pos.ne'
                  field_simp
                have hs : (u.channel g.channel).spinFactor = g.channel.spinFactor := rfl
                simp only [hs, units_id, pure, Except.pure]
                rw [units_add u _ _ (hf _), units_add u _ _ (hf _)]
                unfold Units.result Except.map
                simp only
                split
                · rw [units_add u _ _ (hf _)]
                · rfl

theorem units_getD (l : List ℝ) (s : ℝ) (i : ℕ) : (l.map (s * ·)).getD i 0 = s * l.getD i 0 := by
  rw [List.getD_eq_getElem?_getD, List.getD_eq_getElem?_getD, List.getElem?_map]
  cases l[i]? <;> simp

theorem units_crossTerm (c : Cache) (n : ℕ) : crossTerm (u.cache c) n = crossTerm c n := by
  unfold crossTerm Units.cache
  have he := u.energy_pos.ne'
  simp only [units_getD]
  congr 1
  funext term r
  congr 1
  funext term rp
  congr 1
  generalize c.elastic.getD r 0 = a, c.elastic.getD rp 0 = a', c.delta.getD r 0 = d, c.delta.getD rp 0 = d',
    c.total.getD r 0 = t, c.total.getD rp 0 = t', c.denominator.getD r 0 = z, c.denominator.getD rp 0 = z'
  rw [div_div, div_div, show 2 * (u.energy * a) * (u.energy * a') * (u.energy * d * (u.energy * d')
      + 0.25 * (u.energy * t) * (u.energy * t')) = u.energy ^ 4 * (2 * a * a' * (d * d' + 0.25 * t * t')) by ring,
    show u.energy ^ 2 * z * (u.energy ^ 2 * z') = u.energy ^ 4 * (z * z') by ring,
    mul_div_mul_left _ _ (pow_ne_zero 4 he)]

/-- C92 for a multi-level Breit-Wigner group. -/
theorem C92_multi_level (g : SpinGroup) (m : LegacyMap) :
    (u.levelGroup g).evaluateMLBW (u.constants K) lib (u.energy * E) (u.crossSections m)
      = u.result u.levelGroup (g.evaluateMLBW K lib E m) := by
  unfold evaluateMLBW
  rw [C92_single_level]
  cases g.evaluateSLBW K lib E m with
  | error e => rfl
  | ok v =>
    obtain ⟨m', g'⟩ := v
    have hc : (u.levelGroup g).channel = u.channel g.channel := rfl
    simp only [Units.result, Except.map, bind, Except.bind, pure, Except.pure, hc, units_waveNumber, units_id]
    have h1 : crossTerm (u.levelGroup g').cache (u.levelGroup g').resonances.length
        = crossTerm g'.cache g'.resonances.length := by
      change crossTerm (u.cache g'.cache) (g'.resonances.map u.level).length = _
      rw [units_crossTerm, List.length_map]
    rw [h1]
    rw [units_add u _ _ (v := Real.pi / (g.channel.waveNumber K E * g.channel.waveNumber K E)
      * g.channel.spinFactor * crossTerm g'.cache g'.resonances.length)]
    have hs : (u.channel g.channel).spinFactor = g.channel.spinFactor := rfl
    rw [hs]
    have := u.length_pos.ne'
    field_simp

/-- C92: the energy grid of a Breit-Wigner group is the converted grid. -/
theorem C92_level_grid (g : SpinGroup) : (u.levelGroup g).grid = g.grid.map (u.energy * ·) := by
  unfold SpinGroup.grid
  rw [← sortUnique_scaled u.energy_pos]
  congr 1
  change (g.resonances.map u.level).flatMap _ = _
  rw [List.flatMap_map, List.map_flatMap]
  congr 1
  funext r
  have hpos : (u.level r).energy > 0 ↔ r.energy > 0 := by
    change 0 < u.energy * r.energy ↔ _
    exact mul_pos_iff_of_pos_left u.energy_pos
  have ht : (u.level r).total = u.energy * r.total := by
    change u.energy * r.elastic + u.energy * r.capture + u.energy * r.fission + u.energy * r.competition = _
    unfold Resonance.total
    ring
  by_cases h : r.energy > 0
  · rw [if_pos h, if_pos (hpos.mpr h), ht]
    change [u.energy * r.energy - 0.5 * (u.energy * r.total), u.energy * r.energy,
      u.energy * r.energy + 0.5 * (u.energy * r.total)] = [u.energy * (r.energy - 0.5 * r.total), u.energy * r.energy,
        u.energy * (r.energy + 0.5 * r.total)]
    rw [mul_sub, mul_add, mul_left_comm]
  · rw [if_neg h, if_neg (fun h0 => h (hpos.mp h0))]
    rfl

/-- C92: the energy grid of a system of Breit-Wigner groups is the converted grid. -/
theorem C92_levels_grid (s : LegacySystem SpinGroup) :
    grid (Units.system u.levelGroup s) = (grid s).map (u.energy * ·) := by
  unfold grid
  rw [← sortUnique_scaled u.energy_pos]
  congr 1
  change (s.groups.map u.levelGroup).flatMap _ = _
  rw [List.flatMap_map, List.map_flatMap]
  congr 1
  funext g
  exact C92_level_grid u g

end BreitWigner

/-! ## Systems -/

namespace LegacySystem

variable {G : Type} {channel : G → Channel} {step step' : G → LegacyMap → Outcome (LegacyMap × G)} {f : G → G}

theorem units_groups (hstep : ∀ g m, step' (f g) (u.crossSections m) = u.result f (step g m)) (gs : List G)
    (m : LegacyMap) :
    evaluateGroups step' (gs.map f) (u.crossSections m)
      = (evaluateGroups step gs m).map fun v => (u.crossSections v.1, v.2.map f) := by
  induction gs generalizing m with
  | nil => rfl
  | cons g gs ih =>
    rw [List.map_cons]
    unfold evaluateGroups
    rw [hstep]
    cases step g m with
    | error e => rfl
    | ok v =>
      obtain ⟨m', g'⟩ := v
      simp only [Units.result, Except.map, bind, Except.bind, ih]
      cases evaluateGroups step gs m' with
      | error e => rfl
      | ok w => rfl

/-- The evaluation of a system in other units, if its groups can be evaluated in other units. -/
theorem units_evaluate (hstep : ∀ g m, step' (f g) (u.crossSections m) = u.result f (step g m))
    (hchannel : ∀ g, channel (f g) = u.channel (channel g)) (s : LegacySystem G) (m : LegacyMap) :
    evaluate (u.constants K) lib channel step' (u.energy * E) (Units.system f s) (u.crossSections m)
      = u.result (Units.system f) (evaluate K lib channel step E s m) := by
  unfold evaluate
  change (do
    let (result, groups) ← evaluateGroups step' (s.groups.map f) (u.crossSections m)
    match groups with
    | [] => .error .undefined
    | first :: _ =>
      let c := channel first
      let waveNumber := c.waveNumber (u.constants K) (u.energy * E)
      let radius ← c.radii.phaseShift (u.energy * E)
      if waveNumber = 0 then .error .notFinite
      else
        let factor := 4 * Real.pi / (waveNumber * waveNumber)
        let value ← potential lib (waveNumber * radius) s.lmax
        pure (result.add (legacyID c .elastic) (factor * value), (⟨groups, s.lmax⟩ : LegacySystem G))) = _
  rw [units_groups u hstep]
  cases evaluateGroups step s.groups m with
  | error e => rfl
  | ok v =>
    obtain ⟨m', gs⟩ := v
    cases gs with
    | nil => rfl
    | cons first rest =>
      simp only [Except.map, bind, Except.bind, List.map_cons, hchannel, units_waveNumber, units_id]
      have hr : (u.channel (channel first)).radii.phaseShift (u.energy * E)
          = Units.scaled u.length ((channel first).radii.phaseShift E) := by
        change Units.scaled u.length ((channel first).radii.phaseShift (u.energy * E / u.energy)) = _
        rw [units_ratio]
      rw [hr]
      cases (channel first).radii.phaseShift E with
      | error e => rfl
      | ok radius =>
        simp only [Units.scaled, Except.map]
        generalize hk : (channel first).waveNumber K E = k
        have hL := u.length_pos.ne'
        have h1 : k / u.length = 0 ↔ k = 0 := by
          rw [div_eq_zero_iff]
          exact or_iff_left hL
        by_cases h0 : k = 0
        · rw [if_pos h0, if_pos (h1.mpr h0)]
          rfl
        · rw [if_neg h0, if_neg (fun h => h0 (h1.mp h))]
          have h2 : k / u.length * (u.length * radius) = k * radius := by field_simp
          rw [h2]
          cases potential lib (k * radius) s.lmax with
          | error e => rfl
          | ok x =>
            simp only [pure, Except.pure, Units.result, Except.map]
            rw [units_add u _ _ (v := 4 * Real.pi / (k * k) * x)]
            · rfl
            · field_simp

end LegacySystem

/-- C92 for systems of Breit-Wigner groups: every cross section is the old one converted to the new unit of area. -/
theorem C92_levels (s : LegacySystem BreitWigner.SpinGroup) (m : LegacyMap) :
    LegacySystem.evaluate (u.constants K) lib BreitWigner.SpinGroup.channel
        (fun g => g.evaluateSLBW (u.constants K) lib (u.energy * E)) (u.energy * E) (Units.system u.levelGroup s)
        (u.crossSections m)
      = u.result (Units.system u.levelGroup) (LegacySystem.evaluate K lib BreitWigner.SpinGroup.channel
        (fun g => g.evaluateSLBW K lib E) E s m) ∧
    LegacySystem.evaluate (u.constants K) lib BreitWigner.SpinGroup.channel
        (fun g => g.evaluateMLBW (u.constants K) lib (u.energy * E)) (u.energy * E) (Units.system u.levelGroup s)
        (u.crossSections m)
      = u.result (Units.system u.levelGroup) (LegacySystem.evaluate K lib BreitWigner.SpinGroup.channel
        (fun g => g.evaluateMLBW K lib E) E s m) :=
  ⟨LegacySystem.units_evaluate (channel := BreitWigner.SpinGroup.channel) u (BreitWigner.C92_single_level u) (fun _ => rfl) s m,
    LegacySystem.units_evaluate (channel := BreitWigner.SpinGroup.channel) u (BreitWigner.C92_multi_level u) (fun _ => rfl) s m⟩

/-- C92: the constructor accepts the groups in the new units if and only if it accepts them in the old ones. -/
theorem C92_legacy_construction {G : Type} {channel : G → Channel} {f : G → G}
    (hchannel : ∀ g, channel (f g) = u.channel (channel g)) (gs : List G) :
    LegacySystem.make channel (gs.map f) = (LegacySystem.make channel gs).map (Units.system f) := by
  have hn : ∀ g, (channel (f g)).numbers = (channel g).numbers := by
    intro g
    rw [hchannel]
    rfl
  have h1 : LegacySystem.getLMax channel (gs.map f) = LegacySystem.getLMax channel gs := by
    cases gs with
    | nil => rfl
    | cons g gs =>
      unfold LegacySystem.getLMax
      rw [List.map_cons]
      simp only [List.foldl_map, hn]
  have h2 : LegacySystem.verifySpinGroups channel (gs.map f) = LegacySystem.verifySpinGroups channel gs := by
    unfold LegacySystem.verifySpinGroups
    simp only [List.length_map, List.mem_map, exists_exists_and_eq_and, List.countP_map, hn, Function.comp_def]
  unfold LegacySystem.make
  rw [h1, h2]
  cases LegacySystem.verifySpinGroups channel gs <;> rfl

/-! ## Unresolved resonances -/

namespace Unresolved

theorem accumulate_scaled {s : ℝ} (hs : s ≠ 0) (terms : List (ℝ × Data ℝ)) :
    accumulate (terms.map fun t => (s * t.1, t.2)) = (accumulate terms).map fun d =>
      ⟨d.elastic / s, d.capture / s, d.fission / s, d.competition / s⟩ := by
  unfold accumulate
  have h0 : (∃ t ∈ terms.map fun t => (s * t.1, t.2), t.1 = 0) ↔ ∃ t ∈ terms, t.1 = 0 := by
    simp only [List.mem_map, exists_exists_and_eq_and, mul_eq_zero, hs, false_or]
  by_cases h : ∃ t ∈ terms, t.1 = 0
  · rw [if_pos h, if_pos (h0.mpr h)]
    rfl
  · rw [if_neg h, if_neg (fun h1 => h (h0.mp h1))]
    change Except.ok _ = Except.ok _
    congr 1
    have key : ∀ a b c d : ℝ, (terms.map fun t => (s * t.1, t.2)).foldl (fun result t => result.add
        ⟨t.2.elastic / t.1, t.2.capture / t.1, t.2.fission / t.1, t.2.competition / t.1⟩)
          (⟨a / s, b / s, c / s, d / s⟩ : Data ℝ)
        = ⟨(terms.foldl (fun result t => result.add
        ⟨t.2.elastic / t.1, t.2.capture / t.1, t.2.fission / t.1, t.2.competition / t.1⟩)
          (⟨a, b, c, d⟩ : Data ℝ)).elastic / s, (terms.foldl (fun result t => result.add
        ⟨t.2.elastic / t.1, t.2.capture / t.1, t.2.fission / t.1, t.2.competition / t.1⟩)
          (⟨a, b, c, d⟩ : Data ℝ)).capture / s, (terms.foldl (fun result t => result.add
        ⟨t.2.elastic / t.1, t.2.capture / t.1, t.2.fission / t.1, t.2.competition / t.1⟩)
          (⟨a, b, c, d⟩ : Data ℝ)).fission / s, (terms.foldl (fun result t => result.add
        ⟨t.2.elastic / t.1, t.2.capture / t.1, t.2.fission / t.1, t.2.competition / t.1⟩)
          (⟨a, b, c, d⟩ : Data ℝ)).competition / s⟩ := by
      clear h h0
      induction terms with
      | nil => intros; rfl
      | cons t terms ih =>
        intro a b c d
        simp only [List.map_cons, List.foldl_cons]
        have e : (⟨a / s, b / s, c / s, d / s⟩ : Data ℝ).add
            ⟨t.2.elastic / (s * t.1), t.2.capture / (s * t.1), t.2.fission / (s * t.1), t.2.competition / (s * t.1)⟩
            = ⟨(a + t.2.elastic / t.1) / s, (b + t.2.capture / t.1) / s, (c + t.2.fission / t.1) / s,
              (d + t.2.competition / t.1) / s⟩ := by
          simp only [Data.add, add_div, div_div, mul_comm s]
        rw [e, ih]
        rfl
    have := key 0 0 0 0
    simpa only [zero_div] using this

theorem units_integrals {s : ℝ} (hs : s ≠ 0) (widths : Data ℝ) (degrees : Data ℕ) :
    calculateFluctuationIntegrals
      ⟨s * widths.elastic, s * widths.capture, s * widths.fission, s * widths.competition⟩ degrees
      = (calculateFluctuationIntegrals widths degrees).map fun d =>
        ⟨d.elastic / s, d.capture / s, d.fission / s, d.competition / s⟩ := by
  unfold calculateFluctuationIntegrals
  dsimp only
  generalize unsignedPred degrees.elastic = mu
  generalize (if degrees.fission ≠ 0 then unsignedPred degrees.fission else 0) = nu
  generalize (if degrees.competition ≠ 0 then unsignedPred degrees.competition else 0) = lam
  simp only [mul_ne_zero_iff, ne_eq, hs, not_false_eq_true, true_and]
  by_cases hf : widths.fission = 0 <;> by_cases hx : widths.competition = 0
  · simp only [hf, hx, not_true_eq_false, not_false_eq_true, and_self, if_true]
    split
    · rfl
    · rw [← accumulate_scaled hs, List.map_map]
      congr 1
      refine List.map_congr_left fun i _ => ?_
      simp only [Function.comp_apply]
      congr 1
      ring
  · simp only [hf, hx, not_true_eq_false, not_false_eq_true, and_self, and_false, false_and, true_and, if_true, if_false]
    split
    · rfl
    · rw [← accumulate_scaled hs, List.map_flatMap]
      congr 2
      funext i
      rw [List.map_map]
      refine List.map_congr_left fun j _ => ?_
      simp only [Function.comp_apply]
      congr 1
      ring
  · simp only [hf, hx, not_true_eq_false, not_false_eq_true, and_self, and_true, false_and, true_and, if_true, if_false]
    split
    · rfl
    · rw [← accumulate_scaled hs, List.map_flatMap]
      congr 2
      funext i
      rw [List.map_map]
      refine List.map_congr_left fun j _ => ?_
      simp only [Function.comp_apply]
      congr 1
      ring
  · simp only [hf, hx, not_true_eq_false, not_false_eq_true, and_self, and_true, and_false, false_and, true_and,
      if_true, if_false]
    split
    · rfl
    · rw [← accumulate_scaled hs, List.map_flatMap]
      congr 2
      funext i
      rw [List.map_flatMap]
      congr 1
      funext j
      rw [List.map_map]
      refine List.map_congr_left fun k _ => ?_
      simp only [Function.comp_apply]
      congr 1
      ring

theorem units_call (t : Table) : (u.table t).call (u.energy * E) = (t.call E).map u.average := by
  unfold Table.call
  change (do
    let spacing ← Units.scaled u.energy (t.spacing (u.energy * E / u.energy))
    let elastic ← Units.scaled (Real.sqrt u.energy) (t.elastic (u.energy * E / u.energy))
    let capture ← Units.scaled u.energy (t.capture (u.energy * E / u.energy))
    let fission ← Units.scaled u.energy (t.fission (u.energy * E / u.energy))
    let competition ← Units.scaled u.energy (t.competition (u.energy * E / u.energy))
    pure (⟨u.energy * E, spacing, elastic, capture, fission, competition⟩ : Resonance)) = _
  rw [units_ratio]
  cases t.spacing E with
  | error e => rfl
  | ok x1 =>
    cases t.elastic E with
    | error e => rfl
    | ok x2 =>
      cases t.capture E with
      | error e => rfl
      | ok x3 =>
        cases t.fission E with
        | error e => rfl
        | ok x4 => cases t.competition E <;> rfl

/-- C92 for a group of unresolved resonances. -/
theorem C92_unresolved_group (g : SpinGroup) (m : LegacyMap) :
    (u.averageGroup g).evaluate (u.constants K) lib (u.energy * E) (u.crossSections m)
      = u.result u.averageGroup (g.evaluate K lib E m) := by
  unfold SpinGroup.evaluate
  simp only
  have hc : (u.averageGroup g).channel = u.channel g.channel := rfl
  have ht : (u.averageGroup g).table = u.table g.table := rfl
  rw [hc, ht, (units_functions u).1, (units_functions (lib := lib) u).2.2.1, units_waveNumber, units_call]
  have hr : (u.channel g.channel).radii.penetrability (u.energy * E)
      = Units.scaled u.length (g.channel.radii.penetrability E) := by
    change Units.scaled u.length (g.channel.radii.penetrability (u.energy * E / u.energy)) = _
    rw [units_ratio]
  rw [hr]
  cases g.channel.penetrability K lib E with
  | error e => rfl
  | ok P =>
    simp only [bind, Except.bind]
    cases g.channel.phaseShift K lib E with
    | error e => rfl
    | ok phi =>
      simp only
      cases g.channel.radii.penetrability E with
      | error e => rfl
      | ok R =>
        simp only [Units.scaled, Except.map]
        cases g.table.call E with
        | error e => rfl
        | ok t =>
          simp only
          generalize hk : g.channel.waveNumber K E = k
          have hL := u.length_pos.ne'
          have he := u.energy_pos
          have h2 : k / u.length * (u.length * R) = k * R := by field_simp
          have hcond : (k / u.length = 0 ∨ k / u.length * (u.length * R) = 0 ∨ u.energy * E < 0 ∨
              (u.average t).spacing = 0) ↔ (k = 0 ∨ k * R = 0 ∨ E < 0 ∨ t.spacing = 0) := by
            rw [h2]
            have h3 : u.energy * E < 0 ↔ E < 0 := by
              rw [mul_neg_iff]
              simp [he, not_lt.mpr he.le]
            have h4 : (u.average t).spacing = 0 ↔ t.spacing = 0 := by
              change u.energy * t.spacing = 0 ↔ _
              rw [mul_eq_zero]
              exact or_iff_right he.ne'
            have h5 : k / u.length = 0 ↔ k = 0 := by
              rw [div_eq_zero_iff]
              exact or_iff_left hL
            rw [h3, h4, h5]
          by_cases h0 : k = 0 ∨ k * R = 0 ∨ E < 0 ∨ t.spacing = 0
          · rw [if_pos h0, if_pos (hcond.mpr h0)]
            rfl
          · rw [if_neg h0, if_neg (fun h => h0 (hcond.mp h)), h2]
            obtain ⟨hk0, hR0, hE0, hD0⟩ : k ≠ 0 ∧ k * R ≠ 0 ∧ ¬ E < 0 ∧ t.spacing ≠ 0 := by
              push Not at h0
              exact ⟨h0.1, h0.2.1, not_lt.mpr h0.2.2.1, h0.2.2.2⟩
            have hdeg : (u.table g.table).degrees = g.table.degrees := rfl
            have hsp : (u.channel g.channel).spinFactor = g.channel.spinFactor := rfl
            simp only [hdeg, hsp, units_id]
            generalize hV : (g.table.degrees.elastic : ℝ) * P / (k * R) = V
            have h6 : (u.average t).elastic * Real.sqrt (u.energy * E) * V
                = u.energy * (t.elastic * Real.sqrt E * V) := by
              change Real.sqrt u.energy * t.elastic * Real.sqrt (u.energy * E) * V = _
              rw [Real.sqrt_mul he.le]
              calc _ = (Real.sqrt u.energy * Real.sqrt u.energy) * (t.elastic * Real.sqrt E * V) := by ring
                _ = _ := by rw [Real.mul_self_sqrt he.le]
            have h7 := units_integrals he.ne' ⟨t.elastic * Real.sqrt E * V, t.capture, t.fission, t.competition⟩
              g.table.degrees
            simp only at h7
            have h8 : (u.average t).capture = u.energy * t.capture := rfl
            have h9 : (u.average t).fission = u.energy * t.fission := rfl
            have h10 : (u.average t).competition = u.energy * t.competition := rfl
            have h11 : (u.average t).spacing = u.energy * t.spacing := rfl
            rw [h6, h8, h9, h10, h11, h7]
            generalize t.elastic * Real.sqrt E * V = x
            cases calculateFluctuationIntegrals ⟨x, t.capture, t.fission, t.competition⟩ g.table.degrees with
            | error e => rfl
            | ok d =>
              simp only [Except.map, pure, Except.pure, Units.result]
              have he' := he.ne'
              rw [units_add u _ _ (v := 2 * Real.pi * Real.pi / (k * k) * (g.channel.spinFactor / t.spacing *
                (x * (x * d.elastic - 2 * (Real.sin phi * Real.sin phi))))) (by field_simp),
                units_add u _ _ (v := 2 * Real.pi * Real.pi / (k * k) * g.channel.spinFactor / t.spacing *
                  (x * t.capture * d.capture)) (by field_simp)]
              have hf : u.energy * t.fission ≠ 0 ↔ t.fission ≠ 0 := by
                rw [mul_ne_zero_iff]
                exact and_iff_right he'
              by_cases h12 : t.fission ≠ 0
              · rw [if_pos h12, if_pos (hf.mpr h12), units_add u _ _ (v := 2 * Real.pi * Real.pi / (k * k)
                  * g.channel.spinFactor / t.spacing * (x * t.fission * d.fission)) (by field_simp)]
              · rw [if_neg h12, if_neg (fun h => h12 (hf.mp h))]

/-- C92 for systems of unresolved resonances. -/
theorem C92_unresolved (s : LegacySystem SpinGroup) (m : LegacyMap) :
    LegacySystem.evaluate (u.constants K) lib SpinGroup.channel
        (fun g => g.evaluate (u.constants K) lib (u.energy * E)) (u.energy * E) (Units.system u.averageGroup s)
        (u.crossSections m)
      = u.result (Units.system u.averageGroup) (LegacySystem.evaluate K lib SpinGroup.channel
        (fun g => g.evaluate K lib E) E s m) :=
  LegacySystem.units_evaluate (channel := SpinGroup.channel) u (C92_unresolved_group u) (fun _ => rfl) s m

/-- C92: with an interpolation that does not depend on the units, the constructor of the tables of average parameters
makes the converted table of the converted parameters. -/
theorem C92_table {interpolation : Interpolation}
    (h : ∀ s t : ℝ, 0 < s → 0 < t → ∀ xs ys, interpolation (xs.map (s * ·)) (ys.map (t * ·))
      = (interpolation xs ys).map fun f E => Units.scaled t (f (E / s)))
    (rs : List Resonance) (degrees : Data ℕ) :
    makeTable interpolation (rs.map u.average) degrees = (makeTable interpolation rs degrees).map u.table := by
  have he := u.energy_pos
  have hs := Real.sqrt_pos.mpr he
  have key : ∀ (p : Resonance → ℝ) (t : ℝ), 0 < t → (∀ r, p (u.average r) = t * p r) →
      interpolation ((rs.map u.average).map Resonance.energy) ((rs.map u.average).map p)
        = (interpolation (rs.map Resonance.energy) (rs.map p)).map fun f E => Units.scaled t (f (E / u.energy)) := by
    intro p t ht hp
    rw [← h u.energy t he ht]
    simp only [List.map_map]
    congr 1
    exact List.map_congr_left fun r _ => hp r
  unfold makeTable
  simp only
  rw [key Resonance.spacing _ he (fun _ => rfl), key Resonance.elastic _ hs (fun _ => rfl),
    key Resonance.capture _ he (fun _ => rfl), key Resonance.fission _ he (fun _ => rfl),
    key Resonance.competition _ he (fun _ => rfl)]
  have hv : verifyTable (rs.map u.average) degrees = verifyTable rs degrees := by
    unfold verifyTable
    rw [List.length_map]
  rw [hv]
  cases interpolation (rs.map Resonance.energy) (rs.map Resonance.spacing) with
  | error e => rfl
  | ok x1 =>
    cases interpolation (rs.map Resonance.energy) (rs.map Resonance.elastic) with
    | error e => rfl
    | ok x2 =>
      cases interpolation (rs.map Resonance.energy) (rs.map Resonance.capture) with
      | error e => rfl
      | ok x3 =>
        cases interpolation (rs.map Resonance.energy) (rs.map Resonance.fission) with
        | error e => rfl
        | ok x4 =>
          cases interpolation (rs.map Resonance.energy) (rs.map Resonance.competition) with
          | error e => rfl
          | ok x5 => cases verifyTable rs degrees <;> rfl

/-- The hypothesis of `C92_table` can be met: by linear interpolation. -/
theorem Example.linear_units (s t : ℝ) (hs : 0 < s) (xs ys : List ℝ) :
    Example.linear (xs.map (s * ·)) (ys.map (t * ·))
      = (Example.linear xs ys).map fun f E => Units.scaled t (f (E / s)) := by
  unfold Example.linear
  change Except.ok _ = Except.ok _
  congr 1
  funext E
  rw [List.zip_map]
  generalize xs.zip ys = l
  induction l with
  | nil => rfl
  | cons a l ih =>
    cases l with
    | nil => rfl
    | cons b l =>
      simp only [List.map_cons] at ih ⊢
      unfold Example.linearAt
      simp only [Prod.map]
      have h : (s * a.1 ≤ E ∧ E ≤ s * b.1) ↔ (a.1 ≤ E / s ∧ E / s ≤ b.1) := by
        rw [le_div_iff₀ hs, div_le_iff₀ hs, mul_comm s, mul_comm s]
      by_cases h0 : a.1 ≤ E / s ∧ E / s ≤ b.1
      · rw [if_pos h0, if_pos (h.mpr h0)]
        change Except.ok _ = Except.ok _
        congr 1
        have e : (E - s * a.1) / (s * b.1 - s * a.1) = (E / s - a.1) / (b.1 - a.1) := by
          rw [← mul_sub, show E - s * a.1 = s * (E / s - a.1) by field_simp, mul_div_mul_left _ _ hs.ne']
        rw [e]
        ring
      · rw [if_neg h0, if_neg (fun h1 => h0 (h.mp h1))]
        exact ih

end Unresolved

/-- Two Breit-Wigner resonances in other units (C92). -/
example (lib : CoulombLibrary) (m : LegacyMap) :
    ∃ m' g', (Example.units.levelGroup (BreitWigner.Example.sGroup 1
        [BreitWigner.Example.resonance, BreitWigner.Example.broad])).evaluateSLBW
          (Example.units.constants Example.constants) lib 2000 (Example.units.crossSections m)
        = .ok (Example.units.crossSections m', g') := by
  have hV := BreitWigner.Example.sValues lib 1 [BreitWigner.Example.resonance, BreitWigner.Example.broad] (by
    intro r hr
    simp only [List.mem_cons, List.not_mem_nil, or_false] at hr
    rcases hr with rfl | rfl <;> norm_num [BreitWigner.Example.resonance, BreitWigner.Example.broad])
  have h := BreitWigner.evaluateSLBW_of hV m
  have h2 := BreitWigner.C92_single_level (K := Example.constants) (lib := lib) (E := 2) Example.units
    (BreitWigner.Example.sGroup 1 [BreitWigner.Example.resonance, BreitWigner.Example.broad]) m
  rw [h, show Example.units.energy * 2 = 2000 by norm_num [Example.units]] at h2
  exact ⟨_, _, h2⟩

end Verif
