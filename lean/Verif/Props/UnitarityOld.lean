import Verif.Props.UnitarityRange
import Verif.Props.OldReichMooreAccepted
import Verif.Props.IdleReichMoore

/-!
# C16 and C74 for the older Reich-Moore code, C16 for Reich-Moore ranges
-/

namespace Verif.Old.ReichMoore

open Spec Complex

variable {c : WaveConstant} {channel scattering : ℝ → Outcome ℝ} {E : ℝ} {x : CrossSection}
  {sort : Sorting Resonance.flaggedStatisticalFactor} {rm : Endf.ReichMoore} {tag : Tag} {S : System}

theorem spins_eq {k : ℝ → ℝ} {ch sc : ℝ → Outcome ℝ} {lv : Endf.ReichMooreLValue} {w : CoupledWave}
    {as : List Coupled} (h : IsCoupledWave k ch sc E lv w as) :
    as.map Coupled.J = lv.resonances.map Endf.ReichMooreResonance.spin := by
  have := h.resonances
  clear h
  generalize lv.resonances = rs at this
  induction this with
  | nil => rfl
  | cons k1 _ ih => rw [List.map_cons, List.map_cons, ih, k1.J]

/-- C74 for the older Reich-Moore code: if the J values of the resonances are allowed ones, capture and fission
together do not exceed `π/k² ∑ (2l+1)`, and all cross sections together do not exceed four times that. -/
theorem C74_old_reich_moore (hI : HalfInt rm.spin)
    (hc : ∀ lv ∈ rm.lValues, ∀ r ∈ lv.resonances, 0 ≤ r.gammaWidth)
    (hJ : ∀ lv ∈ rm.lValues, Assignable rm.spin lv.l (lv.resonances.map (·.spin)).toFinset)
    (h : build c sort rm tag channel scattering tag.channel? = .ok S) (hx : S.evaluate c E = .ok x) :
    ∃ first rest, rm.lValues = first :: rest ∧
      let k := neutronWaveNumber c.value first.awri E
      k ≠ 0 ∧ 0 ≤ x.elastic ∧ 0 ≤ x.capture ∧ 0 ≤ x.fission ∧
      x.capture + x.fission ≤ Real.pi / k ^ 2 * (rm.lValues.map fun lv => 2 * (lv.l : ℝ) + 1).sum ∧
      x.elastic + x.capture + x.fission
        ≤ 4 * Real.pi / k ^ 2 * (rm.lValues.map fun lv => 2 * (lv.l : ℝ) + 1).sum := by
  have hI0 : 0 < 4 * rm.spin + 2 := by
    obtain ⟨n, hn⟩ := hI
    rw [hn]
    positivity
  obtain ⟨first, rest, hl, ws, h1, h0, e0, e1, e2⟩ := C59 hI0 hc h hx
  obtain ⟨n1, n2, n3⟩ := C60_nonneg hI hc h hx
  refine ⟨first, rest, hl, h0, n3 hJ, n1, n2, ?_⟩
  have key : (ws.map fun w => coupledCapture rm.spin E w.1 w.2).sum
        + (ws.map fun w => coupledFission rm.spin E w.1 w.2).sum
        ≤ (rm.lValues.map fun lv => 2 * (lv.l : ℝ) + 1).sum ∧
      (ws.map fun w => coupledElastic rm.spin E w.1 w.2).sum
        + (ws.map fun w => coupledCapture rm.spin E w.1 w.2).sum
        + (ws.map fun w => coupledFission rm.spin E w.1 w.2).sum
        ≤ 4 * (rm.lValues.map fun lv => 2 * (lv.l : ℝ) + 1).sum := by
    clear hl e0 e1 e2 n1 n2 n3 h hx
    generalize rm.lValues = lvs at h1 hc hJ
    induction h1 with
    | nil => simp
    | @cons lv w lvs ws hw _ ih =>
      obtain ⟨i1, i2⟩ := ih (fun lv hlv => hc lv (List.mem_cons_of_mem _ hlv))
        fun lv hlv => hJ lv (List.mem_cons_of_mem _ hlv)
      obtain ⟨-, -, -, w4, w5⟩ := Endf.wave_limits (E := E) (w := w.1) (as := w.2) hI (by
        intro a ha
        obtain ⟨r, hr, hra⟩ := Endf.forall₂_mem_right hw.2.resonances ha
        rw [hra.capture]
        exact hc lv List.mem_cons_self r hr)
      have hle := (hJ lv List.mem_cons_self).le hI
      have hle : ((∑ J ∈ (lv.resonances.map (·.spin)).toFinset, neutronFactor rm.spin |J| : ℚ) : ℝ)
          ≤ ((2 * lv.l + 1 : ℚ) : ℝ) := by exact_mod_cast hle
      push_cast at hle
      have hel : coupledElastic rm.spin E w.1 w.2 ≤ levelElastic rm.spin E w.1 w.2
          + (2 * (lv.l : ℝ) + 1 - ∑ J ∈ (w.2.map Coupled.J).toFinset, (neutronFactor rm.spin |J| : ℝ)) * 4 := by
        unfold coupledElastic levelElastic
        rw [hw.2.l]
        have hs := Real.sin_sq_le_one w.1.φ
        rw [spins_eq hw.2]
        have : 0 ≤ 2 * (lv.l : ℝ) + 1 - ∑ J ∈ (lv.resonances.map (·.spin)).toFinset,
            (neutronFactor rm.spin |J| : ℝ) := by linarith
        have := mul_le_mul_of_nonneg_left (show 4 * Real.sin w.1.φ ^ 2 ≤ 4 by linarith) this
        linarith
      rw [spins_eq hw.2] at w4 w5 hel
      simp only [List.map_cons, List.sum_cons]
      constructor <;> linarith
  have hf : 0 ≤ Real.pi / neutronWaveNumber c.value first.awri E ^ 2 := by positivity
  rw [e0, e1, e2]
  constructor
  · rw [← mul_add]
    exact mul_le_mul_of_nonneg_left key.1 hf
  · rw [← mul_add, ← mul_add, mul_div_assoc, mul_assoc, mul_left_comm]
    exact mul_le_mul_of_nonneg_left key.2 hf

/-- The example of C60: at 20 eV all cross sections together do not exceed `16π/k²`. -/
example (c : WaveConstant) (sort : Sorting Resonance.flaggedStatisticalFactor) : ∃ S x,
    build c sort exampleEvaluation .both (constantRadius 0.6) (constantRadius 0.6) true = .ok S ∧
    S.evaluate c 20 = .ok x ∧
    x.elastic + x.capture + x.fission ≤ 4 * Real.pi / neutronWaveNumber c.value 100 20 ^ 2 * 4 := by
  obtain ⟨S, h1, h2⟩ := C59_exists (c := c) (sort := sort) (tag := .both) (use := true) example_physical
  obtain ⟨x, hx⟩ := h2 20 (by norm_num)
  obtain ⟨first, rest, e, -, -, -, -, -, k⟩ := C74_old_reich_moore (tag := .both) example_physical.spin
    (fun lv hlv r hr => (example_physical.widths lv hlv r hr).2.le) example_assignable h1 hx
  obtain ⟨rfl, rfl⟩ := List.cons.inj e
  refine ⟨S, x, h1, hx, k.trans (le_of_eq ?_)⟩
  norm_num [exampleEvaluation]

end Verif.Old.ReichMoore

namespace Verif.Endf

open Spec Complex

/-- The sum of the cross sections of a partial wave: the optical theorem. -/
noncomputable def coupledTotal (spin : ℚ) (E : ℝ) (w : CoupledWave) (as : List Coupled) : ℝ :=
  ∑ J ∈ (as.map Coupled.J).toFinset, (neutronFactor spin |J| : ℝ) * (2 * (1 - (collisionOf E w as J 0 0).re))

theorem coupled_total {E : ℝ} {spin : ℚ} {w : CoupledWave} {as : List Coupled} :
    levelElastic spin E w as + coupledCapture spin E w as + coupledFission spin E w as
      = coupledTotal spin E w as := by
  unfold levelElastic coupledCapture coupledFission coupledTotal
  rw [← Finset.sum_add_distrib, ← Finset.sum_add_distrib]
  refine Finset.sum_congr rfl fun J _ => ?_
  rw [← mul_add, ← mul_add, Fin.sum_univ_three]
  have h4 := normSq_sub 1 (collisionOf E w as J 0 0)
  simp only [map_one, one_mul, conj_re] at h4
  rw [h4]
  congr 1
  ring

/-- C16 for the older Reich-Moore code: the cross sections sum up to `2π/k² ∑ g (1 - Re U)`, where U is the
collision matrix of the ENDF manual, plus the potential scattering of what is not covered by resonances. -/
theorem C16_old_reich_moore {E : ℝ} {x : Old.CrossSection} {c : Old.WaveConstant}
    {sort : Old.Sorting Old.ReichMoore.Resonance.flaggedStatisticalFactor} {rm : ReichMoore}
    {tag : Old.ReichMoore.Tag} {S : Old.ReichMoore.System} {channel scattering : ℝ → Outcome ℝ}
    (hI : 0 < 4 * rm.spin + 2)
    (hc : ∀ lv ∈ rm.lValues, ∀ r ∈ lv.resonances, 0 ≤ r.gammaWidth)
    (h : Old.ReichMoore.build c sort rm tag channel scattering tag.channel? = .ok S)
    (hx : S.evaluate c E = .ok x) :
    ∃ first rest, rm.lValues = first :: rest ∧ ∃ ws : List (CoupledWave × List Coupled),
      let k := neutronWaveNumber c.value first.awri
      List.Forall₂ (fun lv w => lv.l ≤ 4 ∧ IsCoupledWave k (lRadius tag.channel? lv channel)
        (lRadius tag.scattering? lv scattering) E lv w.1 w.2) rm.lValues ws ∧
      x.elastic + x.capture + x.fission = Real.pi / k E ^ 2 * (ws.map fun w =>
        coupledTotal rm.spin E w.1 w.2
          + (2 * w.1.l + 1 - ∑ J ∈ (w.2.map Coupled.J).toFinset, (neutronFactor rm.spin |J| : ℝ))
            * (2 * (1 - (exp (-(2 * I * w.1.φ))).re))).sum := by
  obtain ⟨first, rest, hl, ws, h1, h0, e0, e1, e2⟩ := Old.ReichMoore.C59 hI hc h hx
  refine ⟨first, rest, hl, ws, h1, ?_⟩
  rw [e0, e1, e2, ← mul_add, ← mul_add, ← List.sum_map_add, ← List.sum_map_add]
  congr 3
  funext w
  rw [← coupled_total]
  have h5 := normSq_one_sub_exp w.1.φ
  rw [normSq_sub, normSq_exp_neg] at h5
  simp only [map_one, one_mul, conj_re] at h5
  unfold coupledElastic levelElastic
  have : 2 * (1 - (exp (-(2 * I * w.1.φ))).re) = 4 * Real.sin w.1.φ ^ 2 := by linarith
  rw [this]
  ring

variable {K : Constants} {lib : CoulombLibrary} {tables : InterpolationLibrary}
  {initialBreitWigner : Channel → Verif.BreitWigner.Cache} {neutronMass E A : ℝ} {incident target : Str}
  {reactions : ReactionLibrary} {initial : (g : SpinGroup) → MatrixCache g.channels.length}
  {elementaryCharge : ℝ} {range : Range} {R R' : Reconstructor} {m : ReactionMap} {p : ReichMoore}

/-- C16 for Reich-Moore ranges: all cross sections that are reported sum up to `2π/k² ∑ g (1 - Re U)`, where U is
the collision matrix of the ENDF manual for the J with resonances, and `exp(-2iφ)` for the other ones. -/
theorem C16_reich_moore
    (hR : fromENDF K lib tables reactions initialBreitWigner initial neutronMass elementaryCharge incident
      target range = .ok R)
    (hp : range.parameters = .reichMoore p)
    (hn : prescribedRadii range.scatteringRadius.isSome range.naps ≠ none)
    (hI : HalfInt p.spin) (hA : ∀ lv ∈ p.lValues, lv.awri = A)
    (hw : ∀ lv ∈ p.lValues, ∀ r ∈ lv.resonances, 0 ≤ r.neutronWidth ∧ 0 ≤ r.gammaWidth)
    (hd : DistinctEnergies p) (h0 : 0 ≤ E) (hE : range.lower ≤ E ∧ E ≤ range.upper)
    (hm : R.call K lib E = .ok (m, R')) :
    ∃ nro ws, Option.Rel (IsRadiusTable tables) range.scatteringRadius nro ∧
      LevelWaves K neutronMass A E nro range.naps p ws ∧ ∃ φ : ℕ → ℝ,
      (∀ l < p.nlsc, missingFactor p l ≠ 0 → l ≤ 4 ∧ ∃ channel scattering radius,
        IsRadii p.ap nro range.naps (A * neutronMass) channel scattering ∧ scattering E = .ok radius ∧
        exp (2 * I * φ l) = hardSpherePhase
          (neutronWaveNumber (waveConstant K.hbar neutronMass) A E * radius) l) ∧
      ∀ ids : Finset (ReactionID ⊕ LegacyID), (∀ id, m id ≠ none → id ∈ ids) →
        ∑ id ∈ ids, (m id).getD 0 = Real.pi / neutronWaveNumber (waveConstant K.hbar neutronMass) A E ^ 2
          * ((ws.map fun w => coupledTotal p.spin E w.1 w.2).sum
            + ∑ l ∈ Finset.range p.nlsc, missingFactor p l * (2 * (1 - (exp (-(2 * I * φ l))).re))) := by
  obtain ⟨nro, ws, h1, h, hleg⟩ := C69_cross_sections hR hp hn hI hA hw hd h0 hE hm
  obtain ⟨φ, a1, a2⟩ := h.elastic
  refine ⟨nro, ws, h1, h.waves, φ, a1, fun ids hids => ?_⟩
  set el : ReactionID ⊕ LegacyID := .inl (.elastic (pairID incident target)) with hel'
  set ca : ReactionID ⊕ LegacyID := .inl (.transition (pairID incident target) "capture".toList) with hca
  set fi : ReactionID ⊕ LegacyID := .inl (.transition (pairID incident target) "fission".toList) with hfi
  have n1 : ca ≠ fi := by
    intro e
    have := ReactionID.transition.inj (Sum.inl.inj e)
    exact absurd this.2 (by decide)
  have n2 : el ≠ ca := fun e => by cases Sum.inl.inj e
  have n3 : el ≠ fi := fun e => by cases Sum.inl.inj e
  have hother : ∀ id, id ≠ el → id ≠ ca → id ≠ fi → (m id).getD 0 = 0 := by
    intro id e1 e2 e3
    cases id with
    | inl id =>
      have := h.other id (fun e => e1 (by rw [e])) (fun e => e2 (by rw [e])) fun e => e3 (by rw [e])
      rw [this]
      rfl
    | inr id =>
      rw [hleg]
      rfl
  have hsum : ∑ id ∈ ids, (m id).getD 0 = ∑ id ∈ ({el, ca, fi} : Finset (ReactionID ⊕ LegacyID)), (m id).getD 0 := by
    refine (Finset.sum_subset (Finset.subset_union_left (s₁ := ids) (s₂ := {el, ca, fi})) ?_).trans
      (Finset.sum_subset (Finset.subset_union_right (s₁ := ids) (s₂ := {el, ca, fi})) ?_).symm
    · intro id _ hid
      by_contra hne
      refine hid (hids id fun e => hne ?_)
      rw [e]
      rfl
    · intro id _ hid
      simp only [Finset.mem_insert, Finset.mem_singleton, not_or] at hid
      exact hother id hid.1 hid.2.1 hid.2.2
  rw [hsum, Finset.sum_insert (by simp [n2, n3]), Finset.sum_insert (by simp [n1]), Finset.sum_singleton]
  rw [hel', hca, hfi, a2, h.capture, h.fission, Option.getD_some, Option.getD_some, ← mul_add, ← mul_add]
  congr 1
  have hl : (ws.map fun w => coupledTotal p.spin E w.1 w.2).sum
      = (ws.map fun w => levelElastic p.spin E w.1 w.2).sum + (ws.map fun w => coupledCapture p.spin E w.1 w.2).sum
        + (ws.map fun w => coupledFission p.spin E w.1 w.2).sum := by
    rw [← List.sum_map_add, ← List.sum_map_add]
    congr 2
    funext w
    rw [coupled_total]
  have hs : ∀ l, 2 * (1 - (exp (-(2 * I * φ l))).re) = 4 * Real.sin (φ l) ^ 2 := by
    intro l
    have h5 := normSq_one_sub_exp (φ l)
    rw [normSq_sub, normSq_exp_neg] at h5
    simp only [map_one, one_mul, conj_re] at h5
    linarith
  simp only [hs]
  rw [hl]
  ring

/-- C16 applies to the example of C60. -/
example (c : Old.WaveConstant) (sort : Old.Sorting Old.ReichMoore.Resonance.flaggedStatisticalFactor) :
    ∃ S x, ∃ ws : List (CoupledWave × List Coupled), Old.ReichMoore.build c sort Old.ReichMoore.exampleEvaluation .both (Old.constantRadius 0.6)
        (Old.constantRadius 0.6) true = .ok S ∧ S.evaluate c 20 = .ok x ∧
      x.elastic + x.capture + x.fission = Real.pi / neutronWaveNumber c.value 100 20 ^ 2 * (ws.map fun w =>
        coupledTotal (1 / 2) 20 w.1 w.2
          + (2 * w.1.l + 1 - ∑ J ∈ (w.2.map Coupled.J).toFinset, (neutronFactor (1 / 2) |J| : ℝ))
            * (2 * (1 - (exp (-(2 * I * w.1.φ))).re))).sum := by
  obtain ⟨S, h1, h2⟩ := Old.ReichMoore.C59_exists (c := c) (sort := sort) (tag := .both) (use := true)
    Old.ReichMoore.example_physical
  obtain ⟨x, hx⟩ := h2 20 (by norm_num)
  obtain ⟨first, rest, e, ws, -, k⟩ := C16_old_reich_moore (tag := .both)
    (by norm_num [Old.ReichMoore.exampleEvaluation])
    (fun lv hlv r hr => (Old.ReichMoore.example_physical.widths lv hlv r hr).2.le) h1 hx
  obtain ⟨rfl, rfl⟩ := List.cons.inj e
  exact ⟨S, x, ws, h1, hx, k⟩

/-- And to the range that is the example of C77. -/
example (K : Constants) (lib : CoulombLibrary) (tables : InterpolationLibrary) (reactions : ReactionLibrary)
    (initialBreitWigner : Channel → Verif.BreitWigner.Cache)
    (initial : (g : SpinGroup) → MatrixCache g.channels.length) (elementaryCharge : ℝ) (incident target : Str) :
    ∃ R m R₁, ∃ ws : List (CoupledWave × List Coupled), ∃ φ : ℕ → ℝ, fromENDF K lib tables reactions initialBreitWigner initial 1 elementaryCharge incident
        target ⟨1 / 2, 2, 1, 3, 1, none, .reichMoore Example.idle⟩ = .ok R ∧
      R.call K lib 1 = .ok (m, R₁) ∧
      ∀ ids : Finset (ReactionID ⊕ LegacyID), (∀ id, m id ≠ none → id ∈ ids) →
        ∑ id ∈ ids, (m id).getD 0 = Real.pi / neutronWaveNumber (waveConstant K.hbar 1) 10 1 ^ 2
          * ((ws.map fun w => coupledTotal (1 / 2) 1 w.1 w.2).sum
            + ∑ l ∈ Finset.range 2, missingFactor Example.idle l * (2 * (1 - (exp (-(2 * I * φ l))).re))) := by
  obtain ⟨R, h1, h2⟩ := C69_accepted (K := K) (lib := lib) (tables := tables) (reactions := reactions)
    (initialBreitWigner := initialBreitWigner) (initial := initial) (elementaryCharge := elementaryCharge)
    (incident := incident) (target := target) (nro := none) (neutronMass := 1) (A := 10)
    (range := ⟨1 / 2, 2, 1, 3, 1, none, .reichMoore Example.idle⟩) ⟨rfl, rfl⟩ rfl .none Example.idle_physical
  obtain ⟨⟨m, R₁⟩, hv⟩ := h2 1 one_ne_zero (Example.radiiAt (by norm_num [Example.idle]) _ _) (by
      intro lv hlv
      refine Example.radiiAt ?_ _ _
      simp only [Example.idle, List.mem_singleton] at hlv
      subst hlv
      norm_num [lengthOf, Example.idle]) (by norm_num [Example.idle])
  obtain ⟨nro, ws, -, -, φ, -, k⟩ := C16_reich_moore (A := 10) h1 rfl (by simp [prescribedRadii])
    Example.idle_physical.spin Example.idle_physical.ratio (by norm_num [Example.idle])
    Example.idle_physical.different zero_le_one (by norm_num) hv
  exact ⟨R, m, R₁, ws, φ, h1, hv, k⟩

end Verif.Endf
