import Verif.Props.LegacyResolvedMore
import Mathlib.Analysis.SpecialFunctions.Trigonometric.Bounds

/-!
# Examples and counterexamples for Breit-Wigner resonances (C32 to C36, C54)
-/

namespace Verif.BreitWigner

open Verif.Example (constants pair)

namespace Example

/-- A neutron channel on a target of spin 0 with wave number 1 at energy 2. -/
noncomputable def channel (l : ℕ) (J : ℚ) (phase : ℝ) : Channel :=
  makeChannel .neutron pair pair pair.id 0 ⟨l, 1 / 2, J, (-1) ^ l⟩
    ⟨fun _ => .ok 1, fun _ => .ok 1, fun _ => .ok phase⟩ 0

theorem waveNumber (l : ℕ) (J : ℚ) (phase : ℝ) : (channel l J phase).waveNumber constants 2 = 1 := by
  simp [Channel.waveNumber, channel, makeChannel, pair, constants]

theorem spinFactor (l : ℕ) (J : ℚ) (phase : ℝ) :
    (channel l J phase).spinFactor = statisticalSpinFactor J (1 / 2) 0 := rfl

theorem penetrability (lib : CoulombLibrary) (l : ℕ) (J : ℚ) (phase : ℝ) :
    (channel l J phase).penetrability constants lib 2 = calculatePenetrability lib .neutron l 1 0 := by
  unfold Channel.penetrability
  rw [waveNumber]
  simp [Channel.eta, channel, makeChannel, bind, Except.bind]

theorem shiftFactor (lib : CoulombLibrary) (l : ℕ) (J : ℚ) (phase : ℝ) :
    (channel l J phase).shiftFactor constants lib 2 = calculateShiftFactor lib .neutron l 1 0 := by
  unfold Channel.shiftFactor
  rw [waveNumber]
  simp [Channel.eta, channel, makeChannel, bind, Except.bind]

theorem phaseShift (lib : CoulombLibrary) (l : ℕ) (J : ℚ) (phase : ℝ) :
    (channel l J phase).phaseShift constants lib 2
      = calculatePhaseShift lib .neutron l phase 0 := by
  unfold Channel.phaseShift
  rw [waveNumber]
  simp [Channel.eta, channel, makeChannel, bind, Except.bind]

/-- A resonance at energy 2 with only a neutron width. -/
noncomputable def resonance : Resonance := ⟨2, 1, 0, 0, 0, 1, 0, none, 0⟩

theorem resonance_made : makeResonance 2 1 0 0 0 1 1 0 = .ok resonance := by
  unfold makeResonance resonance
  rw [if_neg (by norm_num)]
  norm_num

/-- A resonance with all widths. -/
noncomputable def broad : Resonance := ⟨3, 1 / 2, 1 / 10, 1 / 5, 0, 1 / 2, 0, none, 0⟩

noncomputable def noCache : Cache := ⟨[], [], [], [], [], []⟩

/-- An s-wave group. -/
noncomputable def sGroup (phase : ℝ) (resonances : List Resonance) : SpinGroup :=
  makeSpinGroup (channel 0 (1 / 2) phase) resonances 0 noCache

theorem sValues (lib : CoulombLibrary) (phase : ℝ) (resonances : List Resonance)
    (h : ∀ r ∈ resonances, r.shiftfactor = 0 ∧ ¬ (r.energy = 2 ∧
      r.elasticToPenetrability + r.capture + r.fission + r.competitionToPenetrability = 0)) :
    Values constants lib (sGroup phase resonances) 2 1 1 0 phase := by
  refine ⟨penetrability _ _ _ _, ?_, shiftFactor _ _ _ _, phaseShift _ _ _ _,
    by rw [show (sGroup phase resonances).channel = channel 0 (1 / 2) phase from rfl, waveNumber]; exact one_ne_zero, ?_⟩
  · simp [SpinGroup.competitionPenetrability, sGroup, makeSpinGroup]
  · intro r hr h0
    obtain ⟨h1, h2⟩ := h r hr
    apply h2
    have e1 : r.energyPrime 0 = r.energy := by simp [Resonance.energyPrime, h1]
    have e2 : r.totalAt 1 1 = r.elasticToPenetrability + r.capture + r.fission
        + r.competitionToPenetrability := by
      simp [Resonance.totalAt, Resonance.elasticAt, Resonance.competitionAt]
    rw [e1, e2] at h0
    generalize r.elasticToPenetrability + r.capture + r.fission + r.competitionToPenetrability = T at *
    have h3 : (2 - r.energy) ^ 2 + T ^ 2 / 4 = 0 := by rw [← h0]; ring
    constructor
    · nlinarith [sq_nonneg (2 - r.energy), sq_nonneg T]
    · nlinarith [sq_nonneg (2 - r.energy), sq_nonneg T]

end Example

/-- Several resonances with all kinds of widths can be evaluated (C32, C33, C34). -/
example (lib : CoulombLibrary) (f : Formalism) (m : LegacyMap) :
    ∃ v, evaluate constants lib 2 f (Example.sGroup 1 [Example.resonance, Example.broad]) m = .ok v := by
  have hV := Example.sValues lib 1 [Example.resonance, Example.broad] (by
    intro r hr
    simp only [List.mem_cons, List.not_mem_nil, or_false] at hr
    rcases hr with rfl | rfl <;> norm_num [Example.resonance, Example.broad])
  cases f with
  | singleLevel => exact ⟨_, evaluateSLBW_of hV m⟩
  | multiLevel => exact ⟨_, evaluateMLBW_of hV m⟩

example : NonnegWidths (Example.sGroup 1 [Example.resonance, Example.broad]) := by
  intro r hr
  have hr : r ∈ [Example.resonance, Example.broad] := hr
  simp only [List.mem_cons, List.not_mem_nil, or_false] at hr
  rcases hr with rfl | rfl <;> norm_num [Example.resonance, Example.broad]

/-- C33: the single-level elastic cross section, potential scattering included, can be negative: two
equal resonances in an accepted system. -/
theorem C33_elastic_can_be_negative (lib : CoulombLibrary) :
    ∃ (s s' : LegacySystem SpinGroup) (m' : LegacyMap) (value : ℝ),
      LegacySystem.make SpinGroup.channel
        [Example.sGroup (Real.pi / 2) [Example.resonance, Example.resonance]] = .ok s ∧
      s.evaluate constants lib SpinGroup.channel (evaluate constants lib 2 .singleLevel) 2
        (fun _ => none) = .ok (m', s') ∧
      m' ⟨"n".toList, "T".toList, .elastic⟩ = some value ∧ value < 0 := by
  have hV := Example.sValues lib (Real.pi / 2) [Example.resonance, Example.resonance] (by
    intro r hr
    simp only [List.mem_cons, List.not_mem_nil, or_false] at hr
    rcases hr with rfl | rfl <;> norm_num [Example.resonance])
  set g := Example.sGroup (Real.pi / 2) [Example.resonance, Example.resonance] with hg
  have hk : g.channel.waveNumber constants 2 = 1 := Example.waveNumber 0 (1 / 2) (Real.pi / 2)
  obtain ⟨v, hv⟩ := LegacySystem.potential_exists (lib := lib) (ratio := 1 * (Real.pi / 2))
    (Nat.zero_le 4)
  have hstep := evaluateSLBW_of hV (fun _ => none)
  have hev := LegacySystem.evaluate_of (K := constants) (lib := lib) (E := 2)
    (channel := SpinGroup.channel) (step := evaluate constants lib 2 .singleLevel)
    (s := ⟨[g], 0⟩) (m := fun _ => none) (radius := Real.pi / 2) (v := v)
    (LegacySystem.evaluateGroups_cons_ok.mpr ⟨_, _, [], hstep, rfl, rfl⟩) rfl
    (by rw [hk]; exact one_ne_zero) (by rw [hk]; exact hv)
  refine ⟨⟨[g], 0⟩, _, _, _, ?_, hev, LegacyMap.add_self _ _ _, ?_⟩
  · unfold LegacySystem.make LegacySystem.verifySpinGroups
    simp [bind, Except.bind, pure, Except.pure]
    rfl
  · simp only
    rw [slbwMap_getD]
    obtain ⟨φ, h1, rfl⟩ := LegacySystem.potential_ok hv
    have h2 : φ 0 = Real.pi / 2 := by
      have := h1 0 le_rfl
      simp only [calculatePhaseShift, one_mul, Except.ok.injEq] at this
      exact this.symm
    have n1 : legacyID g.channel .elastic ≠ legacyID g.channel .capture := fun h =>
      absurd (legacyID_inj h) (by decide)
    have n2 : legacyID g.channel .elastic ≠ legacyID g.channel .fission := fun h =>
      absurd (legacyID_inj h) (by decide)
    have h3 : (components g 2 1 1 0 (Real.pi / 2)).elastic = -8 := by
      rw [components_eq]
      simp only [hg, Example.sGroup, makeSpinGroup, List.map_cons, List.map_nil, List.sum_cons,
        List.sum_nil, Resonance.elasticAt, Resonance.totalAt, Resonance.competitionAt,
        Resonance.energyPrime, Example.resonance, Real.sin_pi_div_two]
      norm_num
    have h4 : factor constants g 2 = Real.pi := by
      unfold factor
      rw [hk, show g.channel.spinFactor = statisticalSpinFactor (1 / 2) (1 / 2) 0 from rfl]
      norm_num [statisticalSpinFactor]
    rw [if_pos rfl, if_neg n1, if_neg n2, h3, h4, hk]
    simp only [Option.getD_none, Finset.range_one, zero_add, Finset.sum_singleton, h2,
      Real.sin_pi_div_two]
    have := Real.pi_pos
    norm_num
    linarith

/-! ## C54 -/

/-- C54 as stated: whatever the radii given for the values of `l`, the elastic cross section of a
multi-level Breit-Wigner system with physically allowed quantum numbers is not negative. -/
def C54_claim : Prop :=
  ∀ (K : Constants) (lib : CoulombLibrary) (E : ℝ) (i I : ℚ) (groups : List SpinGroup)
    (s s' : LegacySystem SpinGroup) (m m' : LegacyMap) (first : SpinGroup) (rest : List SpinGroup),
    LegacySystem.make SpinGroup.channel groups = .ok s → groups = first :: rest →
    Physical i I groups →
    (∀ g ∈ groups, g.channel.type = .neutron ∧ g.channel.pair = first.channel.pair ∧
      g.channel.waveNumber K E = first.channel.waveNumber K E) →
    s.evaluate K lib SpinGroup.channel (evaluate K lib E .multiLevel) E m = .ok (m', s') →
    (m (legacyID first.channel .elastic)).getD 0 ≤ (m' (legacyID first.channel .elastic)).getD 0

namespace Example

/-- A p-wave group. -/
noncomputable def pGroup (phase : ℝ) (resonances : List Resonance) : SpinGroup :=
  makeSpinGroup (channel 1 (1 / 2) phase) resonances 0 noCache

/-- A p-wave resonance at energy 12 with only a neutron width. -/
noncomputable def far : Resonance := ⟨12, 1 / 2, 0, 0, 0, 1, 0, none, -1 / 2⟩

theorem far_made : makeResonance 12 (1 / 2) 0 0 0 (1 / 2) (1 / 2) (-1 / 2) = .ok far := by
  unfold makeResonance far
  rw [if_neg (by norm_num)]
  norm_num

theorem pValues (lib : CoulombLibrary) (phase : ℝ) :
    Values constants lib (pGroup phase [far]) 2 (1 / 2) (1 / 2) (-1 / 2)
      (phase - Real.arctan phase) := by
  refine ⟨?_, ?_, ?_, phaseShift _ _ _ _,
    by rw [show (pGroup phase [far]).channel = channel 1 (1 / 2) phase from rfl, waveNumber]; exact one_ne_zero, ?_⟩
  · exact (penetrability _ _ _ _).trans (by norm_num [calculatePenetrability])
  · simp [SpinGroup.competitionPenetrability, pGroup, makeSpinGroup]
  · exact (shiftFactor _ _ _ _).trans (by norm_num [calculateShiftFactor])
  · intro r hr
    have hr : r ∈ [far] := hr
    simp only [List.mem_cons, List.not_mem_nil, or_false] at hr
    subst hr
    norm_num [far, Resonance.energyPrime, Resonance.totalAt, Resonance.elasticAt,
      Resonance.competitionAt]

theorem physical (a b : ℝ) (rs rs' : List Resonance) :
    Physical (1 / 2) 0 [sGroup a rs, pGroup b rs'] := by
  refine ⟨⟨1, by norm_num⟩, ⟨0, by norm_num⟩, fun g hg => ?_⟩
  have hc : Spec.Couples (1 / 2) 0 (1 / 2) := ⟨by norm_num [abs_le], by norm_num, 1, by norm_num⟩
  simp only [List.mem_cons, List.not_mem_nil, or_false] at hg
  rcases hg with rfl | rfl
  · refine ⟨rfl, 1 / 2, hc, ?_⟩
    change Spec.Couples ((0 : ℕ) : ℚ) (1 / 2) (1 / 2)
    exact ⟨by norm_num [abs_le], by norm_num, 1, by norm_num⟩
  · refine ⟨rfl, 1 / 2, hc, ?_⟩
    change Spec.Couples ((1 : ℕ) : ℚ) (1 / 2) (1 / 2)
    exact ⟨by norm_num [abs_le], by norm_num, 2, by norm_num⟩

theorem made (a b : ℝ) (rs rs' : List Resonance) :
    LegacySystem.make SpinGroup.channel [sGroup a rs, pGroup b rs']
      = .ok ⟨[sGroup a rs, pGroup b rs'], 1⟩ := by
  obtain ⟨s, hs⟩ := (C35_accepted SpinGroup.channel [sGroup a rs, pGroup b rs']).mpr
    ⟨by simp, by
      simp only [List.map_cons, List.map_nil, List.nodup_cons, List.mem_singleton, List.not_mem_nil,
        not_false_eq_true, List.nodup_nil, and_true]
      intro h
      have := congrArg Prod.fst h
      exact absurd (show (0 : ℕ) = 1 from this) (by decide)⟩
  rw [hs]
  unfold LegacySystem.make at hs
  simp only [bind, Except.bind] at hs
  split at hs
  · cases hs
  · simp only [pure, Except.pure, Except.ok.injEq] at hs
    rw [← hs]
    rfl

/-- A system with an s-wave and a p-wave group and its evaluation. -/
theorem evaluates (lib : CoulombLibrary) (a b : ℝ) (m : LegacyMap) : ∃ v,
    LegacySystem.potential lib a 1 = .ok v ∧
    LegacySystem.evaluate constants lib SpinGroup.channel (evaluate constants lib 2 .multiLevel) 2
      ⟨[sGroup a [], pGroup b [far]], 1⟩ m
    = .ok ((((slbwMap constants (pGroup b [far]) 2
            (components (pGroup b [far]) 2 (1 / 2) (1 / 2) (-1 / 2) (b - Real.arctan b))
            ((slbwMap constants (sGroup a []) 2 (components (sGroup a []) 2 1 1 0 a) m).add
              (legacyID (channel 0 (1 / 2) a) .elastic)
              (factor constants (sGroup a []) 2
                * SpinGroup.crossTerm (stored (sGroup a []) 2 1 1 0) 0))).add
            (legacyID (channel 1 (1 / 2) b) .elastic)
            (factor constants (pGroup b [far]) 2
              * SpinGroup.crossTerm (stored (pGroup b [far]) 2 (1 / 2) (1 / 2) (-1 / 2)) 1)).add
          (legacyID (channel 0 (1 / 2) a) .elastic) (4 * Real.pi / (1 * 1) * v)),
        ⟨[{ sGroup a [] with cache := stored (sGroup a []) 2 1 1 0 },
          { pGroup b [far] with cache := stored (pGroup b [far]) 2 (1 / 2) (1 / 2) (-1 / 2) }], 1⟩) := by
  obtain ⟨v, hv⟩ := LegacySystem.potential_exists (lib := lib) (ratio := a) (show 1 ≤ 4 by norm_num)
  refine ⟨v, hv, ?_⟩
  have hk : (channel 0 (1 / 2) a).waveNumber constants 2 = 1 := waveNumber _ _ _
  have hev := LegacySystem.evaluate_of (K := constants) (lib := lib) (E := 2)
    (channel := SpinGroup.channel) (step := evaluate constants lib 2 .multiLevel)
    (s := ⟨[sGroup a [], pGroup b [far]], 1⟩) (m := m) (radius := a) (v := v)
    (LegacySystem.evaluateGroups_cons_ok.mpr ⟨_, _, _, evaluateMLBW_of (sValues lib a [] (by simp)) m,
      LegacySystem.evaluateGroups_cons_ok.mpr ⟨_, _, [], evaluateMLBW_of (pValues lib b) _, rfl, rfl⟩,
      rfl⟩) rfl
    (by change (channel 0 (1 / 2) a).waveNumber constants 2 ≠ 0; rw [hk]; exact one_ne_zero)
    (by change LegacySystem.potential lib ((channel 0 (1 / 2) a).waveNumber constants 2 * a) 1 = _
        rw [hk, one_mul]; exact hv)
  rw [hev]
  simp only
  rw [show (sGroup a []).channel = channel 0 (1 / 2) a from rfl, hk]
  rfl

end Example

/-- C32: the hypotheses of `C32_physical` can be met with resonances. -/
example (lib : CoulombLibrary) (m : LegacyMap) :
    ∃ s m' s', LegacySystem.make SpinGroup.channel [Example.sGroup 1 [], Example.pGroup 1 [Example.far]]
        = .ok s ∧
      Physical (1 / 2) 0 [Example.sGroup 1 [], Example.pGroup 1 [Example.far]] ∧
      (∀ g ∈ [Example.sGroup 1 [], Example.pGroup 1 [Example.far]],
        SamePotential constants 2 (Example.sGroup 1 []).channel g.channel) ∧
      s.evaluate constants lib SpinGroup.channel (evaluate constants lib 2 .multiLevel) 2 m
        = .ok (m', s') := by
  obtain ⟨v, -, hv⟩ := Example.evaluates lib 1 1 m
  refine ⟨_, _, _, Example.made _ _ _ _, Example.physical _ _ _ _, ?_, hv⟩
  intro g hg
  simp only [List.mem_cons, List.not_mem_nil, or_false] at hg
  rcases hg with rfl | rfl <;> exact ⟨rfl, rfl, rfl, rfl, rfl, rfl⟩

/-- C54 is false: potential scattering is computed with the radius of the first group for every `l`, so
with radii that depend on `l` it does not match the interference terms of the groups. -/
theorem C54_disproved : ¬ C54_claim := by
  intro h
  obtain ⟨v, hv, hev⟩ := Example.evaluates (fun _ _ _ => .ok ⟨1, 0, 0, 0⟩) (1 / 100) 1 (fun _ => none)
  have hlt := h constants _ 2 (1 / 2) 0 _ _ _ (fun _ => none) _ _ _
    (Example.made (1 / 100) 1 [] [Example.far]) rfl
    (Example.physical _ _ _ _) (by
      intro g hg
      simp only [List.mem_cons, List.not_mem_nil, or_false] at hg
      rcases hg with rfl | rfl <;> exact ⟨rfl, rfl, rfl⟩) hev
  clear hev h
  have k1 : (Example.sGroup (1 / 100) []).channel = Example.channel 0 (1 / 2) (1 / 100) := rfl
  have k2 : (Example.pGroup 1 [Example.far]).channel = Example.channel 1 (1 / 2) 1 := rfl
  have k3 : legacyID (Example.channel 0 (1 / 2) (1 / 100)) .elastic
      = legacyID (Example.channel 1 (1 / 2) 1) .elastic := rfl
  have n1 : legacyID (Example.channel 1 (1 / 2) 1) .elastic
      ≠ legacyID (Example.channel 1 (1 / 2) 1) .capture := by decide
  have n2 : legacyID (Example.channel 1 (1 / 2) 1) .elastic
      ≠ legacyID (Example.channel 1 (1 / 2) 1) .fission := by decide
  have n3 : legacyID (Example.channel 1 (1 / 2) 1) .elastic
      ≠ legacyID (Example.channel 0 (1 / 2) (1 / 100)) .capture := by decide
  have n4 : legacyID (Example.channel 1 (1 / 2) 1) .elastic
      ≠ legacyID (Example.channel 0 (1 / 2) (1 / 100)) .fission := by decide
  have c1 : (components (Example.sGroup (1 / 100) []) 2 1 1 0 (1 / 100)).elastic = 0 := by
    rw [components_eq]
    simp [Example.sGroup, makeSpinGroup]
  have c2 : ∀ c, SpinGroup.crossTerm c 0 = 0 := fun c => rfl
  have c3 : ∀ c, SpinGroup.crossTerm c 1 = 0 := fun c => rfl
  have f2 : factor constants (Example.pGroup 1 [Example.far]) 2 = Real.pi := by
    unfold factor
    rw [k2, Example.waveNumber, Example.spinFactor]
    norm_num [statisticalSpinFactor]
  simp only [LegacyMap.add_getD, slbwMap_getD, k1, k2, k3, n1, n2, n3, n4, if_true, if_false, c1, c2, c3, f2,
    mul_zero, add_zero, zero_add, Option.getD_none] at hlt
  have c4 : (components (Example.pGroup 1 [Example.far]) 2 (1 / 2) (1 / 2) (-1 / 2)
      (1 - Real.arctan 1)).elastic
      = (1 / 4 - Real.sin (1 - Real.arctan 1) ^ 2 / 2 - 10 * Real.sin (2 * (1 - Real.arctan 1)))
        / (100 + 1 / 16) := by
    rw [components_eq]
    simp only [Example.pGroup, makeSpinGroup, List.map_cons, List.map_nil, List.sum_cons,
      List.sum_nil, Resonance.elasticAt, Resonance.totalAt, Resonance.competitionAt,
      Resonance.energyPrime, Example.far]
    ring
  have h1 : Real.sin (2 * (1 - Real.arctan 1)) ≥ 31 / 81 := by
    have e : 2 * (1 - Real.arctan 1) = -(Real.pi / 2 - 2 * 1) := by rw [Real.arctan_one]; ring
    rw [e, Real.sin_neg, Real.sin_pi_div_two_sub, Real.cos_two_mul]
    have h2 := Real.cos_one_le
    have h3 := Real.cos_one_pos
    nlinarith
  obtain ⟨φ, hφ, rfl⟩ := LegacySystem.potential_ok hv
  have p0 : φ 0 = 1 / 100 := by
    have := hφ 0 (by norm_num)
    simp only [calculatePhaseShift, Except.ok.injEq] at this
    exact this.symm
  have p1 : φ 1 = 1 / 100 - Real.arctan (1 / 100) := by
    have := hφ 1 (by norm_num)
    simp only [calculatePhaseShift, Except.ok.injEq] at this
    exact this.symm
  have a1 : 0 ≤ Real.arctan (1 / 100) := Real.arctan_nonneg.mpr (by norm_num)
  have a2 : Real.arctan (1 / 100) ≤ 1 / 100 := by
    have h := Real.le_tan a1 (Real.arctan_lt_pi_div_two _)
    rwa [Real.tan_arctan] at h
  have s0 : Real.sin (φ 0) ^ 2 ≤ 1 / 10000 := by
    refine le_trans Real.sin_sq_le_sq ?_
    rw [p0]
    norm_num
  have s1 : Real.sin (φ 1) ^ 2 ≤ 1 / 10000 := by
    refine le_trans Real.sin_sq_le_sq ?_
    rw [p1]
    nlinarith
  rw [c4, Finset.sum_range_succ, Finset.sum_range_one] at hlt
  have hs2 := sq_nonneg (Real.sin (1 - Real.arctan 1))
  have hX : (1 / 4 - Real.sin (1 - Real.arctan 1) ^ 2 / 2
      - 10 * Real.sin (2 * (1 - Real.arctan 1))) / (100 + 1 / 16) ≤ -(3 / 101) := by
    rw [div_le_iff₀ (by norm_num)]
    linarith
  have hpi := Real.pi_pos
  push_cast at hlt
  nlinarith

end Verif.BreitWigner
