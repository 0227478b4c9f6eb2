import Verif.Lemmas.LowEnergyLegacy
import Verif.Props.LowEnergy
import Verif.Props.LegacyResolvedExamples

/-!
# Property C89: Breit-Wigner cross sections at very low energies
-/

namespace Verif

open Filter Topology Complex

variable {K : Constants} {lib : CoulombLibrary}

namespace BreitWigner

/-- A Breit-Wigner spin group of neutrons close to the energy zero, made from the parameters `xs`. `a` and `b`
are the channel radius and the scattering radius there, `q` is the penetrability of the competitive channel. No
resonance of vanishing width is at the energy zero. -/
structure Slow (K : Constants) (lib : CoulombLibrary) (g : SpinGroup) (xs : List Spec.Parameters)
    (a b q : ℝ) : Prop where
  channel : Spec.SlowChannel g.channel
  incident : g.channel.isIncident
  made : List.Forall₂ Made xs g.resonances
  channelRadius : g.channel.radii.penetrability 0 = .ok a
  phaseRadius : g.channel.radii.phaseShift 0 = .ok b
  competition : if g.qx = 0 then q = 0 else
    Spec.ContinuousRadius g.channel.radii.penetrability (-g.qx) ∧
      g.channel.penetrability K lib (-g.qx) = .ok q
  noPole : ∀ x ∈ xs, x.denominator 0 0 q (-g.channel.numbers.l) ≠ 0

/-- The limits of the cross sections times the square root of the energy: only s-waves react. -/
noncomputable def slowReaction (K : Constants) (g : SpinGroup) (xs : List Spec.Parameters) (a q : ℝ)
    (id : LegacyID) : ℝ :=
  if g.channel.numbers.l ≠ 0 then 0
  else if id = legacyID g.channel .capture then
    Real.pi * g.channel.spinFactor * a / g.channel.waveNumber K 1 * Spec.slowCapture q 0 xs
  else if id = legacyID g.channel .fission then
    Real.pi * g.channel.spinFactor * a / g.channel.waveNumber K 1 * Spec.slowFission q 0 xs
  else 0

/-- The limit of the contribution of the resonances to elastic scattering. -/
noncomputable def slowScattering (multi : Bool) (g : SpinGroup) (xs : List Spec.Parameters) (a b q : ℝ)
    (id : LegacyID) : ℝ :=
  if g.channel.numbers.l = 0 ∧ id = legacyID g.channel .elastic then
    4 * Real.pi * g.channel.spinFactor * Spec.slowElastic multi q 0 a b xs
  else 0

/-- The formalism of an evaluation. -/
def formalismOf (multi : Bool) : Formalism := if multi then .multiLevel else .singleLevel

theorem Slow.wave {g : SpinGroup} {xs : List Spec.Parameters} {a b q : ℝ} (h : Slow K lib g xs a b q) :
    ∃ P Q S φ, SlowWave P Q S φ (Spec.sWaveRatio K g.channel a) (Spec.sWaveRatio K g.channel b) q
        (-g.channel.numbers.l) ∧
      ∀ᶠ E in 𝓝[>] 0, Values K lib g E (P E) (Q E) (S E) (φ E) := by
  obtain ⟨P, S, φ, hf⟩ := h.channel.functions (K := K) (lib := lib)
  obtain ⟨ht, hq, hμ⟩ := h.channel.incident h.incident
  obtain ⟨h1, h2⟩ := hf.incident h.incident a b h.channelRadius h.phaseRadius
  have heta : ∀ E, g.channel.eta K E = .ok 0 := fun E => if_neg h.channel.neutral
  have hl := h.channel.momentum ht
  have hk0 : g.channel.waveNumber K 0 = 0 := waveNumber_threshold K (by
    unfold Spec.AtThreshold
    rw [mul_zero, hq, add_zero])
  have hS0 : S 0 = -(g.channel.numbers.l : ℝ) := by
    obtain ⟨b', -, hb'⟩ := h.channel.shiftFactor
    have e := hf.values.self_of_nhds.2.1
    simp only [Channel.shiftFactor, heta, hb'.self_of_nhds, ht, Bind.bind, Except.bind] at e
    rw [calculateShiftFactor_eq lib hl, hk0, zero_mul, hsS_at_zero hl] at e
    exact (Except.ok.inj e).symm
  have hS : Tendsto S (𝓝[>] 0) (𝓝 (-(g.channel.numbers.l : ℝ))) := by
    have := hf.shiftFactor.tendsto.mono_left (nhdsWithin_le_nhds (s := Set.Ioi 0))
    rwa [hS0] at this
  have hP0 : P 0 = 0 := by
    have e := hf.values.self_of_nhds.1
    simp only [Channel.penetrability, heta, h.channelRadius, ht, Bind.bind, Except.bind] at e
    rw [calculatePenetrability_eq lib hl, hk0, zero_mul, hsP_at_zero hl] at e
    exact (Except.ok.inj e).symm
  obtain ⟨Q, hQ, vQ⟩ : ∃ Q : ℝ → ℝ, Tendsto Q (𝓝[>] 0) (𝓝 q) ∧ ∀ᶠ E in 𝓝[>] 0,
      g.competitionPenetrability K lib E (P E) = .ok (Q E) := by
    have hc := h.competition
    by_cases hx : g.qx = 0
    · rw [if_pos hx] at hc
      refine ⟨P, ?_, Eventually.of_forall fun E => if_neg (not_not.mpr hx)⟩
      have := hf.penetrability.tendsto.mono_left (nhdsWithin_le_nhds (s := Set.Ioi 0))
      rw [hP0] at this
      rwa [hc]
    · rw [if_neg hx] at hc
      obtain ⟨⟨e, he, hev⟩, hq0⟩ := hc
      have vP : ∀ {E x}, g.channel.radii.penetrability E = .ok x →
          g.channel.penetrability K lib E = .ok (hsP g.channel.numbers.l (g.channel.waveNumber K E * x)) := by
        intro E x h1
        simp only [Channel.penetrability, heta, h1, ht]
        exact calculatePenetrability_eq lib hl _ 0
      have hsub : ContinuousAt (fun E => E - g.qx) 0 := by fun_prop
      have he' : ContinuousAt e (0 - g.qx) := by rwa [zero_sub]
      refine ⟨fun E => hsP g.channel.numbers.l (g.channel.waveNumber K (E - g.qx) * e (E - g.qx)), ?_, ?_⟩
      · have hcont : ContinuousAt (fun E => hsP g.channel.numbers.l
            (g.channel.waveNumber K (E - g.qx) * e (E - g.qx))) 0 := by
          refine (hsP_continuous hl).continuousAt.comp
            (f := fun E => g.channel.waveNumber K (E - g.qx) * e (E - g.qx)) ?_
          exact ((waveNumber_continuous K g.channel).continuousAt.comp (f := fun E => E - g.qx) hsub).mul
            (ContinuousAt.comp (f := fun E => E - g.qx) he' hsub)
        have e0 : hsP g.channel.numbers.l (g.channel.waveNumber K (0 - g.qx) * e (0 - g.qx)) = q := by
          rw [zero_sub]
          exact Except.ok.inj ((vP hev.self_of_nhds).symm.trans hq0)
        have := hcont.tendsto.mono_left (nhdsWithin_le_nhds (s := Set.Ioi 0))
        rwa [e0] at this
      · have hev' : ∀ᶠ E in 𝓝 (0 - g.qx), g.channel.radii.penetrability E = .ok (e E) := by rwa [zero_sub]
        filter_upwards [nhdsWithin_le_nhds (hsub.eventually hev')] with E hE
        unfold SpinGroup.competitionPenetrability
        rw [if_pos hx]
        exact vP hE
  have hw : SlowWave P Q S φ (Spec.sWaveRatio K g.channel a) (Spec.sWaveRatio K g.channel b) q
      (-g.channel.numbers.l) := ⟨h1, hQ, hS, h2⟩
  refine ⟨P, Q, S, φ, hw, ?_⟩
  have hden : ∀ᶠ E in 𝓝[>] 0, ∀ x ∈ {x | x ∈ xs}, x.denominator E (P E) (Q E) (S E) ≠ 0 :=
    (eventually_all_finite (List.finite_toSet _)).mpr fun x hx =>
      (hw.denominator x).eventually_ne (h.noPole x hx)
  filter_upwards [nhdsWithin_le_nhds hf.values, vQ, hden, self_mem_nhdsWithin] with E c1 c2 c3 c4
  refine ⟨c1.1, c2, c1.2.1, c1.2.2.2.1, (waveNumber_pos hμ ?_).ne', fun r hr => ?_⟩
  · rw [hq, add_zero]
    exact (mul_pos h.channel.massRatio c4).ne'
  · obtain ⟨x, hx, hxr⟩ := Endf.forall₂_mem_right h.made hr
    rw [(made_values hxr E (P E) (Q E) (S E)).2.2.2.2.2]
    exact c3 x hx

theorem slowElastic_scale (multi : Bool) (q s κ a b : ℝ) (xs : List Spec.Parameters) :
    Spec.slowElastic multi q s (κ * a) (κ * b) xs = κ ^ 2 * Spec.slowElastic multi q s a b xs := by
  have e : ∀ Λ : ℂ, normSq (((κ * b : ℝ) : ℂ) - ((κ * a : ℝ) : ℂ) / 2 * Λ) - (κ * b) ^ 2
      = κ ^ 2 * (normSq ((b : ℂ) - a / 2 * Λ) - b ^ 2) := by
    intro Λ
    rw [ofReal_mul, ofReal_mul, show (κ : ℂ) * b - κ * a / 2 * Λ = κ * (b - a / 2 * Λ) by ring, normSq_mul,
      normSq_ofReal]
    ring
  unfold Spec.slowElastic
  simp only [e]
  split
  · rfl
  · rw [← List.sum_map_mul_left]

theorem slowElastic_zero (multi : Bool) (q s : ℝ) (xs : List Spec.Parameters) :
    Spec.slowElastic multi q s 0 0 xs = 0 := by
  unfold Spec.slowElastic
  simp

theorem levels_made {xs : List Spec.Parameters} {rs : List Resonance} (h : List.Forall₂ Made xs rs)
    {p q s : ℝ} : (xs.map fun x => (⟨x.neutronWidth p, x.totalWidth p q, x.position s⟩ : Spec.Level))
      = rs.map fun r => ⟨r.elasticAt p, r.totalAt p q, r.energyPrime s⟩ := by
  induction h with
  | nil => rfl
  | cons h1 _ ih =>
    obtain ⟨k1, -, -, k4, k5, -⟩ := made_values h1 0 p q s
    rw [List.map_cons, List.map_cons, ih, k1, k4, k5]

theorem components_sums {g : SpinGroup} {xs : List Spec.Parameters} (h : List.Forall₂ Made xs g.resonances)
    {E p q s φ : ℝ} : components g E p q s φ = ⟨(xs.map fun x => x.elasticTerm E p q s φ).sum,
      (xs.map fun x => x.captureTerm E p q s).sum, (xs.map fun x => x.fissionTerm E p q s).sum, 0⟩ := by
  rw [components_eq]
  congr 1
  · refine map_made h fun x r hr => ?_
    obtain ⟨k1, k2, k3, k4, k5, k6⟩ := made_values hr E p q s
    rw [k6, k1, k4, k5]
    unfold Spec.Parameters.elasticTerm
    congr 1
    ring
  · refine map_made h fun x r hr => ?_
    obtain ⟨k1, k2, k3, k4, k5, k6⟩ := made_values hr E p q s
    rw [k6, k1, k2]
    unfold Spec.Parameters.captureTerm
    rw [mul_comm]
  · refine map_made h fun x r hr => ?_
    obtain ⟨k1, k2, k3, k4, k5, k6⟩ := made_values hr E p q s
    rw [k6, k1, k3]
    unfold Spec.Parameters.fissionTerm
    rw [mul_comm]

/-- Cross sections of a group that have limits. -/
theorem group_slow {g : SpinGroup} {xs : List Spec.Parameters} {a b q : ℝ} (multi : Bool)
    (h : Slow K lib g xs a b q) :
    ∃ f, SlowMaps f (slowReaction K g xs a q) (slowScattering multi g xs a b q) (fun id => id.kind = .elastic) ∧
      ∀ᶠ E in 𝓝[>] 0, ∀ m, ∃ m' g', evaluate K lib E (formalismOf multi) g m = .ok (m', g') ∧
        g'.channel = g.channel ∧ ∀ id, (m' id).getD 0 = (m id).getD 0 + f E id := by
  obtain ⟨P, Q, S, φ, hw, hV⟩ := h.wave
  obtain ⟨ht, hq, hμ⟩ := h.channel.incident h.incident
  set κ := g.channel.waveNumber K 1 with hκ
  have hκ0 : 0 < κ := waveNumber_pos hμ (by
    rw [hq, mul_one, add_zero]
    exact h.channel.massRatio.ne')
  have hfac : ∀ E, 0 < E → factor K g E = Real.pi * g.channel.spinFactor / κ ^ 2 / E := by
    intro E hE
    unfold factor
    rw [waveNumber_root hq hE.le h.channel.massRatio.le hμ.le, ← hκ,
      show κ * Real.sqrt E * (κ * Real.sqrt E) = κ ^ 2 * E by
        nlinarith [Real.mul_self_sqrt hE.le]]
    field_simp
  set el : ℝ → ℝ := fun E => if multi then
      normSq (1 - Spec.levelCollision (φ E) E (xs.map fun x =>
        ⟨x.neutronWidth (P E), x.totalWidth (P E) (Q E), x.position (S E)⟩)) - 4 * Real.sin (φ E) ^ 2
    else (xs.map fun x => x.elasticTerm E (P E) (Q E) (S E) (φ E)).sum with hel
  set ca : ℝ → ℝ := fun E => (xs.map fun x => x.captureTerm E (P E) (Q E) (S E)).sum with hca
  set fi : ℝ → ℝ := fun E => (xs.map fun x => x.fissionTerm E (P E) (Q E) (S E)).sum with hfi
  set α := Spec.sWaveRatio K g.channel a with hα
  set β := Spec.sWaveRatio K g.channel b with hβ
  have tca := hw.capture h.noPole
  have tfi := hw.fission h.noPole
  have tel : Tendsto (fun E => el E / E) (𝓝[>] 0)
      (𝓝 (4 * Spec.slowElastic multi q (-g.channel.numbers.l) α β xs)) := by
    cases multi with
    | true => exact hw.elastic h.noPole
    | false =>
      simp only [hel, Spec.slowElastic, Bool.false_eq_true, if_false]
      rw [← List.sum_map_mul_left]
      simp only [SlowWave.sum_map_div]
      refine SlowWave.sum_map_tendsto xs fun x hx => ?_
      have h1 := hw.elastic (xs := [x]) fun y hy => by
        obtain rfl := List.mem_singleton.mp hy
        exact h.noPole y hx
      refine h1.congr' ?_
      filter_upwards [(hw.denominator x).eventually_ne (h.noPole x hx)] with E hE
      rw [elasticTerm_eq hE]
      rfl
  refine ⟨fun E id => (if id = legacyID g.channel .elastic then factor K g E * el E else 0)
    + (if id = legacyID g.channel .capture then factor K g E * ca E else 0)
    + if id = legacyID g.channel .fission then factor K g E * fi E else 0, ⟨?_, ?_, ?_⟩, ?_⟩
  · refine ⟨[legacyID g.channel .elastic, legacyID g.channel .capture, legacyID g.channel .fission],
      fun E id hid => ?_⟩
    simp only [List.mem_cons, List.not_mem_nil, or_false, not_or] at hid
    simp [hid.1, hid.2.1, hid.2.2]
  · intro id
    have hre : ∀ {x : ℝ → ℝ} {y : ℝ}, Tendsto (fun E => x E / Real.sqrt E) (𝓝[>] 0) (𝓝 (α * y)) →
        Tendsto (fun E => Real.sqrt E * (factor K g E * x E)) (𝓝[>] 0)
          (𝓝 (Real.pi * g.channel.spinFactor / κ ^ 2 * (α * y))) := by
      intro x y hx
      refine (hx.const_mul (Real.pi * g.channel.spinFactor / κ ^ 2)).congr' ?_
      filter_upwards [self_mem_nhdsWithin] with E h0
      rw [hfac E h0]
      have h3 := (Real.sqrt_pos.mpr (Set.mem_Ioi.mp h0)).ne'
      have h4 : E = Real.sqrt E * Real.sqrt E := (Real.mul_self_sqrt (Set.mem_Ioi.mp h0).le).symm
      generalize Real.sqrt E = r at *
      rw [h4]
      generalize x (r * r) = z
      field_simp
    have hval : ∀ y : ℝ → ℝ, Real.pi * g.channel.spinFactor / κ ^ 2 * (α * y (-g.channel.numbers.l))
        = if g.channel.numbers.l ≠ 0 then 0 else Real.pi * g.channel.spinFactor * a / κ * y 0 := by
      intro y
      rw [hα, Spec.sWaveRatio]
      by_cases hl : g.channel.numbers.l = 0
      · rw [if_pos hl, if_neg (not_not.mpr hl), hl, Nat.cast_zero, neg_zero, ← hκ]
        field_simp
      · rw [if_neg hl, if_pos hl, zero_mul, mul_zero]
    unfold slowReaction
    by_cases h1 : id = legacyID g.channel .capture
    · subst h1
      have d1 : legacyID g.channel .capture ≠ legacyID g.channel .elastic := fun h =>
        absurd (legacyID_inj h) (by decide)
      have d2 : legacyID g.channel .capture ≠ legacyID g.channel .fission := fun h =>
        absurd (legacyID_inj h) (by decide)
      simp only [if_neg d1, if_neg d2, if_true, add_zero, zero_add]
      have := hre tca
      rwa [hval fun s => Spec.slowCapture q s xs] at this
    by_cases h2 : id = legacyID g.channel .fission
    · subst h2
      have d1 : legacyID g.channel .fission ≠ legacyID g.channel .elastic := fun h =>
        absurd (legacyID_inj h) (by decide)
      simp only [if_neg d1, if_neg h1, if_true, zero_add]
      have := hre tfi
      rwa [hval fun s => Spec.slowFission q s xs] at this
    simp only [if_neg h1, if_neg h2, ite_self, add_zero]
    split
    · have := (root_vanishes.mul tel).const_mul (Real.pi * g.channel.spinFactor / κ ^ 2)
      rw [zero_mul, mul_zero] at this
      refine this.congr' ?_
      filter_upwards [self_mem_nhdsWithin] with E h0
      rw [hfac E h0]
      ring
    · simpa using tendsto_const_nhds
  · intro id hid
    have d1 : id ≠ legacyID g.channel .capture := by
      rintro rfl
      cases hid
    have d2 : id ≠ legacyID g.channel .fission := by
      rintro rfl
      cases hid
    simp only [if_neg d1, if_neg d2, add_zero]
    unfold slowScattering
    by_cases h1 : id = legacyID g.channel .elastic
    swap
    · simp only [if_neg h1, h1, and_false, if_false]
      exact tendsto_const_nhds
    simp only [h1, and_true, if_true]
    have := tel.const_mul (Real.pi * g.channel.spinFactor / κ ^ 2)
    have e : Real.pi * g.channel.spinFactor / κ ^ 2
        * (4 * Spec.slowElastic multi q (-g.channel.numbers.l) α β xs)
        = if g.channel.numbers.l = 0 then 4 * Real.pi * g.channel.spinFactor * Spec.slowElastic multi q 0 a b xs
          else 0 := by
      rw [hα, hβ]
      unfold Spec.sWaveRatio
      by_cases hl : g.channel.numbers.l = 0
      · simp only [if_pos hl, hl, Nat.cast_zero, neg_zero]
        rw [← hκ]
        simp only [if_true]
        rw [slowElastic_scale]
        field_simp
      · simp only [if_neg hl]
        rw [slowElastic_zero]
        simp
    rw [e] at this
    refine this.congr' ?_
    filter_upwards [self_mem_nhdsWithin] with E h0
    rw [hfac E h0]
    ring
  · filter_upwards [hV] with E hE m
    cases multi with
    | false =>
      refine ⟨_, _, evaluateSLBW_of hE m, rfl, fun id => ?_⟩
      rw [slbwMap_getD, components_sums h.made]
      simp only [hel, hca, hfi, Bool.false_eq_true, if_false]
      ring
    | true =>
      refine ⟨_, _, evaluateMLBW_of hE m, rfl, fun id => ?_⟩
      rw [LegacyMap.add_getD, slbwMap_getD]
      have e := mlbw_components g E (P E) (Q E) (S E) (φ E) hE.denominator
      rw [← levels_made h.made] at e
      rw [← eq_sub_iff_add_eq] at e
      simp only [hel, hca, hfi, if_true]
      rw [← e, components_sums h.made]
      split <;> ring

/-- C89 for a Breit-Wigner spin group: it can be evaluated at all sufficiently small energies; what it adds to
the cross sections, multiplied with the square root of the energy, approaches the limit for reactions, and what
it adds to elastic scattering approaches that for scattering. -/
theorem C89_spin_group {g : SpinGroup} {xs : List Spec.Parameters} {a b q : ℝ} (multi : Bool)
    (h : Slow K lib g xs a b q) {ε : ℝ} (hε : 0 < ε) :
    ∃ δ > 0, ∀ E, 0 < E → E < δ → ∃ m g',
      evaluate K lib E (formalismOf multi) g (fun _ => none) = .ok (m, g') ∧
      ∀ id, |Real.sqrt E * (m id).getD 0 - slowReaction K g xs a q id| < ε ∧
        (id.kind = .elastic → |(m id).getD 0 - slowScattering multi g xs a b q id| < ε) := by
  obtain ⟨f, hf, hnear⟩ := group_slow multi h
  obtain ⟨δ, hδ, hall⟩ := mem_nhdsGT_iff_exists_Ioo_subset.mp (hnear.and (hf.close hε))
  refine ⟨δ, hδ, fun E h0 hE => ?_⟩
  obtain ⟨h1, h2⟩ := hall ⟨h0, hE⟩
  obtain ⟨m, g', h3, -, h4⟩ := h1 fun _ => none
  refine ⟨m, g', h3, fun id => ?_⟩
  rw [h4 id, Option.getD_none, zero_add]
  exact h2 id

/-- The spin groups of a system, their parameters, and radii and competitive penetrabilities at the energy
zero. -/
structure SlowData where
  parameters : List Spec.Parameters
  channelRadius : ℝ
  scatteringRadius : ℝ
  competition : ℝ

theorem groups_slow (multi : Bool) {gs : List SpinGroup} {ds : List SlowData}
    (h : List.Forall₂ (fun g (d : SlowData) =>
      Slow K lib g d.parameters d.channelRadius d.scatteringRadius d.competition) gs ds) :
    ∃ f, SlowMaps f (fun id => (List.zipWith (fun g (d : SlowData) =>
          slowReaction K g d.parameters d.channelRadius d.competition id) gs ds).sum)
        (fun id => (List.zipWith (fun g (d : SlowData) =>
          slowScattering multi g d.parameters d.channelRadius d.scatteringRadius d.competition id) gs ds).sum)
        (fun id => id.kind = .elastic) ∧
      ∀ᶠ E in 𝓝[>] 0, ∀ m, ∃ m' gs',
        LegacySystem.evaluateGroups (evaluate K lib E (formalismOf multi)) gs m = .ok (m', gs') ∧
        gs'.map SpinGroup.channel = gs.map SpinGroup.channel ∧
        ∀ id, (m' id).getD 0 = (m id).getD 0 + f E id := by
  induction h with
  | nil =>
    refine ⟨fun _ _ => 0, ⟨⟨[], fun _ _ _ => rfl⟩, fun _ => ?_, fun _ _ => ?_⟩,
      Eventually.of_forall fun E m => ⟨m, [], rfl, rfl, fun id => (add_zero _).symm⟩⟩
    · simp only [mul_zero, List.zipWith_nil_left, List.sum_nil]
      exact tendsto_const_nhds
    · simp only [List.zipWith_nil_left, List.sum_nil]
      exact tendsto_const_nhds
  | cons h1 _ ih =>
    obtain ⟨f, hf, hnear⟩ := group_slow multi h1
    obtain ⟨k, hk, hnear'⟩ := ih
    refine ⟨fun E id => f E id + k E id, ⟨?_, fun id => ?_, fun id hid => ?_⟩, ?_⟩
    · obtain ⟨ids, h2⟩ := hf.support
      obtain ⟨ids', h3⟩ := hk.support
      refine ⟨ids ++ ids', fun E id hid => ?_⟩
      rw [List.mem_append, not_or] at hid
      rw [h2 E id hid.1, h3 E id hid.2, add_zero]
    · simp only [mul_add, List.zipWith_cons_cons, List.sum_cons]
      exact (hf.reaction id).add (hk.reaction id)
    · simp only [List.zipWith_cons_cons, List.sum_cons]
      exact (hf.scattering id hid).add (hk.scattering id hid)
    · filter_upwards [hnear, hnear'] with E h3 h4 m
      obtain ⟨m1, g1, k1, k2, k3⟩ := h3 m
      obtain ⟨m2, gs2, k4, k5, k6⟩ := h4 m1
      refine ⟨m2, g1 :: gs2, LegacySystem.evaluateGroups_cons_ok.mpr ⟨m1, g1, gs2, k1, k4, rfl⟩,
        by rw [List.map_cons, List.map_cons, k2, k5], fun id => ?_⟩
      rw [k6, k3, add_assoc]

/-- The potential scattering at small ratios. -/
theorem potential_slow {κ : ℝ} {b : ℝ → ℝ} (hb : ContinuousAt b 0) {lmax : ℕ} (hl : lmax ≤ 4) :
    ∃ v : ℝ → ℝ, (∀ E, LegacySystem.potential lib (κ * Real.sqrt E * b E) lmax = .ok (v E)) ∧
      Tendsto (fun E => v E / E) (𝓝[>] 0) (𝓝 ((κ * b 0) ^ 2)) := by
  refine ⟨fun E => ∑ l ∈ Finset.range (lmax + 1), (2 * (l : ℝ) + 1)
    * Real.sin (κ * Real.sqrt E * b E - atanQuotient (hsX l (κ * Real.sqrt E * b E))
      (hsY l (κ * Real.sqrt E * b E))) ^ 2, fun E => ?_, ?_⟩
  · obtain ⟨v, hv⟩ := LegacySystem.potential_exists (lib := lib) (ratio := κ * Real.sqrt E * b E) hl
    obtain ⟨φ, h1, h2⟩ := LegacySystem.potential_ok hv
    rw [hv, h2]
    congr 1
    refine Finset.sum_congr rfl fun l hl' => ?_
    have hl4 : l ≤ lmax := by have := Finset.mem_range.mp hl'; omega
    have := (h1 l hl4).symm.trans (calculatePhaseShift_eq lib (hl4.trans hl) _ 0)
    rw [Except.ok.inj this]
  · have hterm : ∀ l ∈ Finset.range (lmax + 1), Tendsto (fun E => (2 * (l : ℝ) + 1)
        * Real.sin (κ * Real.sqrt E * b E - atanQuotient (hsX l (κ * Real.sqrt E * b E))
          (hsY l (κ * Real.sqrt E * b E))) ^ 2 / E) (𝓝[>] 0)
        (𝓝 ((2 * (l : ℝ) + 1) * (if l = 0 then κ * b 0 else 0) ^ 2)) := by
      intro l hl'
      have hl4 : l ≤ 4 := by have := Finset.mem_range.mp hl'; omega
      obtain ⟨h0, h1⟩ := hsPhase_deriv hl4
      have h := root_slope h1 hb κ
      have e : 2 * I * (((if l = 0 then κ * b 0 else 0 : ℝ)) : ℂ)
          = (κ * b 0) • (if l = 0 then 2 * I else 0) := by
        split
        · rw [real_smul, mul_comm]
        · simp
      rw [← e] at h
      have hw : SlowWave (fun _ => 0) (fun _ => 0) (fun _ => 0) (fun E => κ * Real.sqrt E * b E
          - atanQuotient (hsX l (κ * Real.sqrt E * b E)) (hsY l (κ * Real.sqrt E * b E))) 0
          (if l = 0 then κ * b 0 else 0) 0 0 := by
        refine ⟨by simp, tendsto_const_nhds, tendsto_const_nhds, h.congr fun E => ?_⟩
        rw [h0, real_smul, ofReal_inv, inv_mul_eq_div]
        rfl
      refine (hw.sin_sq.const_mul (2 * (l : ℝ) + 1)).congr fun E => ?_
      rw [mul_div_assoc]
    have hsum := tendsto_finsetSum (Finset.range (lmax + 1)) hterm
    have e : (∑ l ∈ Finset.range (lmax + 1), (2 * (l : ℝ) + 1) * (if l = 0 then κ * b 0 else 0) ^ 2)
        = (κ * b 0) ^ 2 := by
      rw [Finset.sum_eq_single 0]
      · simp
      · intro l _ hl
        simp [hl]
      · simp
    rw [e] at hsum
    refine hsum.congr fun E => ?_
    rw [Finset.sum_div]

/-- The limit of the elastic cross section of a system: `4π b²` for the scattering radius of the first group,
and the contributions of the resonances. -/
noncomputable def slowTotal (multi : Bool) (gs : List SpinGroup) (ds : List SlowData) (id : LegacyID) : ℝ :=
  (match gs, ds with
    | g :: _, d :: _ => if id = legacyID g.channel .elastic then 4 * Real.pi * d.scatteringRadius ^ 2 else 0
    | _, _ => 0)
  + (List.zipWith (fun g (d : SlowData) =>
    slowScattering multi g d.parameters d.channelRadius d.scatteringRadius d.competition id) gs ds).sum

theorem system_slow (multi : Bool) {s : LegacySystem SpinGroup} {ds : List SlowData} (hl : s.lmax ≤ 4)
    (hs : s.groups ≠ [])
    (h : List.Forall₂ (fun g (d : SlowData) =>
      Slow K lib g d.parameters d.channelRadius d.scatteringRadius d.competition) s.groups ds) :
    ∃ f, SlowMaps f (fun id => (List.zipWith (fun g (d : SlowData) =>
          slowReaction K g d.parameters d.channelRadius d.competition id) s.groups ds).sum)
        (slowTotal multi s.groups ds) (fun id => id.kind = .elastic) ∧
      ∀ᶠ E in 𝓝[>] 0, ∀ m, ∃ m' s',
        s.evaluate K lib SpinGroup.channel (evaluate K lib E (formalismOf multi)) E m = .ok (m', s') ∧
        ∀ id, (m' id).getD 0 = (m id).getD 0 + f E id := by
  obtain ⟨f, hf, hnear⟩ := groups_slow multi h
  obtain ⟨groups, lmax⟩ := s
  simp only at hl hs h hf hnear ⊢
  cases h with
  | nil => exact absurd rfl hs
  | @cons g d gs ds h1 h2 =>
    obtain ⟨ht, hq, hμ⟩ := h1.channel.incident h1.incident
    obtain ⟨b, hb, hbv⟩ := h1.channel.phaseShift
    have hb0 : b 0 = d.scatteringRadius := Except.ok.inj (hbv.self_of_nhds.symm.trans h1.phaseRadius)
    set κ := g.channel.waveNumber K 1 with hκ
    have hκ0 : 0 < κ := waveNumber_pos hμ (by
      rw [hq, mul_one, add_zero]
      exact h1.channel.massRatio.ne')
    obtain ⟨v, hv, hlim⟩ := potential_slow (lib := lib) (κ := κ) hb hl
    have hpot : Tendsto (fun E => 4 * Real.pi / (g.channel.waveNumber K E * g.channel.waveNumber K E) * v E)
        (𝓝[>] 0) (𝓝 (4 * Real.pi * d.scatteringRadius ^ 2)) := by
      have := hlim.const_mul (4 * Real.pi / κ ^ 2)
      rw [hb0, show 4 * Real.pi / κ ^ 2 * (κ * d.scatteringRadius) ^ 2 = 4 * Real.pi * d.scatteringRadius ^ 2 by
        field_simp] at this
      refine this.congr' ?_
      filter_upwards [self_mem_nhdsWithin] with E hE
      have hE := Set.mem_Ioi.mp hE
      rw [waveNumber_root hq hE.le h1.channel.massRatio.le hμ.le, ← hκ,
        show κ * Real.sqrt E * (κ * Real.sqrt E) = κ ^ 2 * E by nlinarith [Real.mul_self_sqrt hE.le]]
      field_simp
    refine ⟨fun E id => f E id + if id = legacyID g.channel .elastic then
      4 * Real.pi / (g.channel.waveNumber K E * g.channel.waveNumber K E) * v E else 0, ⟨?_, ?_, ?_⟩, ?_⟩
    · obtain ⟨ids, hids⟩ := hf.support
      refine ⟨legacyID g.channel .elastic :: ids, fun E id hid => ?_⟩
      rw [List.mem_cons, not_or] at hid
      rw [hids E id hid.2, if_neg hid.1, add_zero]
    · intro id
      have h3 := hf.reaction id
      simp only [mul_add]
      rw [← add_zero ((List.zipWith _ _ _).sum)]
      refine h3.add ?_
      split
      · have := root_vanishes.mul hpot
        rwa [zero_mul] at this
      · simp
    · intro id hid
      have h3 := hf.scattering id hid
      unfold slowTotal
      simp only
      rw [add_comm (ite _ _ _)]
      refine h3.add ?_
      split
      · exact hpot
      · exact tendsto_const_nhds
    · filter_upwards [hnear, nhdsWithin_le_nhds hbv, self_mem_nhdsWithin] with E c1 c2 hE m
      have hE := Set.mem_Ioi.mp hE
      obtain ⟨m1, gs1, d1, d2, d3⟩ := c1 m
      cases gs1 with
      | nil => cases d2
      | cons g1 gs1 =>
        rw [List.map_cons, List.map_cons] at d2
        have hch : g1.channel = g.channel := (List.cons.inj d2).1
        refine ⟨_, _, LegacySystem.evaluate_of (m := m) (v := v E) d1 (by rw [hch]; exact c2) (by
          rw [hch]
          refine (waveNumber_pos hμ ?_).ne'
          rw [hq, add_zero]
          exact (mul_pos h1.channel.massRatio hE).ne') (by
          rw [hch, waveNumber_root hq hE.le h1.channel.massRatio.le hμ.le]
          exact hv E), fun id => ?_⟩
        rw [LegacyMap.add_getD, d3, hch, add_assoc]

/-- C89 for a system of Breit-Wigner groups: the limits are the sums of those of its groups, and the elastic
cross section has in addition the potential scattering `4π b²` of the first one. -/
theorem C89_system (multi : Bool) {s : LegacySystem SpinGroup} {ds : List SlowData} (hl : s.lmax ≤ 4)
    (hs : s.groups ≠ [])
    (h : List.Forall₂ (fun g (d : SlowData) =>
      Slow K lib g d.parameters d.channelRadius d.scatteringRadius d.competition) s.groups ds)
    {ε : ℝ} (hε : 0 < ε) :
    ∃ δ > 0, ∀ E, 0 < E → E < δ → ∃ m s',
      s.evaluate K lib SpinGroup.channel (evaluate K lib E (formalismOf multi)) E (fun _ => none) = .ok (m, s') ∧
      ∀ id, |Real.sqrt E * (m id).getD 0 - (List.zipWith (fun g (d : SlowData) =>
          slowReaction K g d.parameters d.channelRadius d.competition id) s.groups ds).sum| < ε ∧
        (id.kind = .elastic → |(m id).getD 0 - slowTotal multi s.groups ds id| < ε) := by
  obtain ⟨f, hf, hnear⟩ := system_slow multi hl hs h
  obtain ⟨δ, hδ, hall⟩ := mem_nhdsGT_iff_exists_Ioo_subset.mp (hnear.and (hf.close hε))
  refine ⟨δ, hδ, fun E h0 hE => ?_⟩
  obtain ⟨h1, h2⟩ := hall ⟨h0, hE⟩
  obtain ⟨m, s', h3, h4⟩ := h1 fun _ => none
  refine ⟨m, s', h3, fun id => ?_⟩
  rw [h4 id, Option.getD_none, zero_add]
  exact h2 id

/-! ### An example: a group with one resonance -/

namespace SlowExample

/-- The parameters of the resonance. -/
noncomputable def parameters : Spec.Parameters := ⟨2, 1 / 2, 1 / 10, 1 / 5, 0, 1, 1, 0⟩

/-- The group. -/
noncomputable def group : SpinGroup :=
  makeSpinGroup Verif.Example.elastic [⟨2, 1 / 2, 1 / 10, 1 / 5, 0, 1 / 2, 0, none, 0⟩] 0 Example.noCache

theorem slow (K : Constants) (lib : CoulombLibrary) : Slow K lib group [parameters] 1 1 0 where
  channel := Verif.Example.elastic_slow
  incident := by decide
  made := by
    refine .cons ?_ .nil
    unfold Made makeResonance parameters
    rw [if_neg (by norm_num)]
    norm_num
  channelRadius := rfl
  phaseRadius := rfl
  competition := by rw [if_pos (show group.qx = 0 from rfl)]
  noPole := by
    intro x hx
    obtain rfl := List.mem_singleton.mp hx
    have e : group.channel.numbers.l = 0 := rfl
    rw [e]
    norm_num [parameters, Spec.Parameters.denominator, Spec.Parameters.position, Spec.Parameters.totalWidth,
      Spec.Parameters.neutronWidth]

/-- C89 applies to the group and to the system that consists of it, for both formalisms. -/
example (K : Constants) (lib : CoulombLibrary) (multi : Bool) {ε : ℝ} (hε : 0 < ε) :
    ∃ δ > 0, ∀ E, 0 < E → E < δ → ∃ m s',
      (⟨[group], 0⟩ : LegacySystem SpinGroup).evaluate K lib SpinGroup.channel
        (evaluate K lib E (formalismOf multi)) E (fun _ => none) = .ok (m, s') ∧
      |(m (legacyID Verif.Example.elastic .elastic)).getD 0
        - (4 * Real.pi * 1 ^ 2 + (slowScattering multi group [parameters] 1 1 0
          (legacyID Verif.Example.elastic .elastic) + 0))| < ε := by
  obtain ⟨δ, hδ, h⟩ := C89_system (K := K) (lib := lib) multi (s := ⟨[group], 0⟩)
    (ds := [⟨[parameters], 1, 1, 0⟩]) (by norm_num) (by simp) (.cons (slow K lib) .nil) hε
  refine ⟨δ, hδ, fun E h0 hE => ?_⟩
  obtain ⟨m, s', h1, h2⟩ := h E h0 hE
  refine ⟨m, s', h1, ?_⟩
  have h3 := (h2 (legacyID Verif.Example.elastic .elastic)).2 rfl
  unfold slowTotal at h3
  simp only [List.zipWith_cons_cons, List.zipWith_nil_left, List.sum_cons, List.sum_nil] at h3
  rw [if_pos (by rfl)] at h3
  exact h3

/-- Capture of the group: the neutrons' `1/v` law with a positive coefficient. -/
example (K : Constants) : 0 < slowReaction K group [parameters] 1 0 (legacyID Verif.Example.elastic .capture) := by
  have e : group.channel.numbers.l = 0 := rfl
  have hk : 0 < group.channel.waveNumber K 1 := by
    obtain ⟨h1, h2, h3⟩ := Verif.Example.elastic_slow.incident (by decide)
    exact waveNumber_pos h3 (by
      have : group.channel.q = 0 := h2
      rw [this, mul_one, add_zero]
      exact Verif.Example.elastic_slow.massRatio.ne')
  have hs : 0 < (group.channel.spinFactor : ℝ) := by
    have : group.channel.spinFactor = Verif.Example.elastic.spinFactor := rfl
    rw [this]
    norm_num [Channel.spinFactor, Verif.Example.elastic, makeChannel, Verif.Example.pair, statisticalSpinFactor,
      Verif.Example.neutron, Verif.Example.target]
  unfold slowReaction
  rw [if_neg (not_not.mpr e), if_pos (by rfl)]
  refine mul_pos (by positivity) ?_
  norm_num [Spec.slowCapture, parameters, Spec.Parameters.denominator, Spec.Parameters.position,
    Spec.Parameters.totalWidth, Spec.Parameters.neutronWidth]

end SlowExample

end BreitWigner

end Verif
