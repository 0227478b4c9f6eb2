import Verif.Props.OldReichMoore
import Verif.Props.OldAccepted

/-!
# Property C59: the older Reich-Moore code gives cross sections for every physical evaluation
-/

namespace Verif.Old.ReichMoore

open Spec (Coupled CoupledWave neutronFactor neutronWaveNumber penetration IsCoupled IsCoupledWave lRadius)

/-- An evaluation that makes sense physically, for given radii: masses and capture widths are positive,
neutron widths not negative, there are no resonances at zero energy, and the radii exist at all positive
energies. -/
structure Physical (rm : Endf.ReichMoore) (channel scattering : ℝ → Outcome ℝ) : Prop where
  spin : Spec.HalfInt rm.spin
  nonempty : rm.lValues ≠ []
  awri : ∀ lv ∈ rm.lValues, 0 < lv.awri
  l : ∀ lv ∈ rm.lValues, lv.l ≤ 4
  apl : ∀ lv ∈ rm.lValues, 0 ≤ lv.apl
  channel : ∀ e, 0 < e → ∃ a, 0 < a ∧ channel e = .ok a
  scattering : ∀ e, 0 < e → ∃ a, scattering e = .ok a
  energies : ∀ lv ∈ rm.lValues, ∀ r ∈ lv.resonances, r.energy ≠ 0
  widths : ∀ lv ∈ rm.lValues, ∀ r ∈ lv.resonances, 0 ≤ r.neutronWidth ∧ 0 < r.gammaWidth

variable {c : WaveConstant} {channel : ℝ → Outcome ℝ} {I : ℚ} {lv : Endf.ReichMooreLValue}

theorem convertResonance_exists {A : ℝ} {l : ℕ} {use : Bool} (hA : 0 < A) (hl : l ≤ 4) (hapl : 0 ≤ lv.apl)
    (hc : ∀ e, 0 < e → ∃ a, 0 < a ∧ channel e = .ok a) {x : Endf.ReichMooreResonance} (he : x.energy ≠ 0)
    (hw : 0 ≤ x.neutronWidth ∧ 0 < x.gammaWidth) :
    ∃ r, convertResonance (fun energy => do
      let r ← if lv.apl ≠ 0 ∧ use then constantRadius lv.apl energy else channel energy
      pure (r * waveNumber c (A / (A + 1)) energy)) I l x = .ok r ∧ 0 < r.captureWidth := by
  have ha : ∃ a, 0 < a ∧ (show Outcome ℝ from do
      let r ← if lv.apl ≠ 0 ∧ use then constantRadius lv.apl |x.energy| else channel |x.energy|
      pure (r * waveNumber c (A / (A + 1)) |x.energy|))
      = .ok (a * neutronWaveNumber c.value A |x.energy|) := by
    dsimp only
    split
    · rename_i h
      exact ⟨lv.apl, lt_of_le_of_ne hapl (Ne.symm h.1), rfl⟩
    · obtain ⟨a, h1, h2⟩ := hc _ (abs_pos.mpr he)
      rw [h2]
      exact ⟨a, h1, rfl⟩
  obtain ⟨a, ha, hca⟩ := ha
  have hP := penetration_pos l (mul_pos ha (neutronWaveNumber_pos c hA (abs_ne_zero.mpr he)))
  unfold convertResonance
  dsimp only at hca ⊢
  rw [hca, ok_bind, oldPenetrationShift_eq hl, ok_bind]
  unfold makeResonance
  rw [if_neg (by push Not; exact ⟨hw.1, hP⟩)]
  exact ⟨_, rfl, hw.2⟩

theorem convertLValue_exists {A : ℝ} {use : Bool} (hA : 0 < A) (hl : lv.l ≤ 4) (hapl : 0 ≤ lv.apl)
    (hc : ∀ e, 0 < e → ∃ a, 0 < a ∧ channel e = .ok a) (he : ∀ r ∈ lv.resonances, r.energy ≠ 0)
    (hw : ∀ r ∈ lv.resonances, 0 ≤ r.neutronWidth ∧ 0 < r.gammaWidth) :
    ∃ v, convertLValue (waveNumber c (A / (A + 1))) channel I use lv = .ok v ∧ v.l ≤ 4 ∧
      ∀ r ∈ v.resonances, 0 < r.captureWidth := by
  unfold convertLValue
  rw [if_neg (by omega)]
  dsimp only
  obtain ⟨rs, h1, h2⟩ := mapM_good fun x hx => convertResonance_exists (c := c) (I := I) (use := use) hA hl
    hapl hc (he x hx) (hw x hx)
  rw [h1, ok_bind]
  exact ⟨_, rfl, hl, h2⟩

theorem evaluateResonances_exists {E root : ℝ} {rs : List Resonance} (h : ∀ r ∈ rs, 0 < r.captureWidth)
    (state : Bool × Matrix3) : ∃ state', evaluateResonances E root rs state = .ok state' := by
  induction rs generalizing state with
  | nil => exact ⟨_, rfl⟩
  | cons r rs ih =>
    obtain ⟨flag, K⟩ := state
    rw [evaluateResonances]
    have : ∃ s, r.call E root K = .ok s := by
      unfold Resonance.call
      dsimp only
      have := h r List.mem_cons_self
      have := mul_self_nonneg (r.energy - E)
      rw [if_neg (by positivity)]
      split <;> exact ⟨_, rfl⟩
    obtain ⟨s, hs⟩ := this
    rw [hs, ok_bind]
    exact ih (fun r hr => h r (List.mem_cons_of_mem _ hr)) _

theorem evaluateGroup_exists {E root φ : ℝ} {rs : List Resonance} (hne : rs ≠ [])
    (h : ∀ r ∈ rs, 0 < r.captureWidth) : ∃ v, evaluateGroup E root φ rs = .ok v := by
  cases rs with
  | nil => exact absurd rfl hne
  | cons r rs =>
    obtain ⟨⟨flag, K⟩, h1⟩ := evaluateResonances_exists (E := E) (root := root) h (false, 0)
    obtain ⟨-, a2, a3⟩ := evaluateResonances_ok h1
    simp only [Matrix.zero_apply, zero_add] at a3
    have hcap : ∀ l ∈ (r :: rs).map (Resonance.level root), 0 ≤ l.capture := by
      intro l hl
      obtain ⟨x, hx, rfl⟩ := List.mem_map.mp hl
      exact (h x hx).le
    rw [evaluateGroup]
    dsimp only
    rw [h1, ok_bind]
    dsimp only
    split
    · rw [solveRmatrix_eq a3 hcap]
      exact ⟨_, rfl⟩
    · rename_i hf
      rw [solveRfunction_eq (a3 0 0 (le_refl _)) hcap (a2 (by simpa using hf)).2]
      exact ⟨_, rfl⟩

theorem call_exists {v : LValue} (hl : v.l ≤ 4) (hg : ∀ r ∈ v.resonances, 0 < r.captureWidth) (E a b : ℝ) :
    ∃ out, v.call E a b = .ok out := by
  obtain ⟨_, _, φ, -, -, -, -, hφ⟩ := C13_old_equals_new (fun _ _ _ => .ok ⟨0, 0, 0, 0⟩) v.l hl b 0
  unfold LValue.call
  rw [oldPenetrationShift_eq hl, ok_bind, hφ, ok_bind]
  obtain ⟨vs, hvs⟩ := mapM_exists.mpr fun g
      (hmem : g ∈ groupBy Resonance.flaggedStatisticalFactor v.resonances) =>
    evaluateGroup_exists (E := E) (root := Real.sqrt (penetration v.l a)) (φ := φ) (groupBy_ne_nil _ hmem)
      fun r hr => hg r (groupBy_mem _ hmem hr)
  dsimp only
  rw [hvs, ok_bind]
  exact ⟨_, rfl⟩

/-- C59: every physical evaluation gives a system, and cross sections at every positive energy. In
particular the radii are needed at positive energies only, also for bound levels. -/
theorem C59_exists {sort : Sorting Resonance.flaggedStatisticalFactor} {rm : Endf.ReichMoore} {tag : Tag}
    {scattering : ℝ → Outcome ℝ} {use : Bool} (h : Physical rm channel scattering) :
    ∃ S, build c sort rm tag channel scattering use = .ok S ∧
      ∀ E, 0 < E → ∃ x, S.evaluate c E = .ok x := by
  have hI0 : 4 * rm.spin + 2 ≠ 0 := by
    obtain ⟨n, hn⟩ := h.spin
    rw [hn]
    positivity
  cases hlv : rm.lValues with
  | nil => exact absurd hlv h.nonempty
  | cons first rest =>
    have hA : 0 < first.awri := h.awri first (hlv ▸ List.mem_cons_self)
    obtain ⟨vs, h1, h2⟩ := mapM_good fun lv hmem => convertLValue_exists (c := c) (I := rm.spin) (use := use)
      hA (h.l lv hmem) (h.apl lv hmem) h.channel (h.energies lv hmem) (h.widths lv hmem)
    have hS : ∃ S, build c sort rm tag channel scattering use = .ok S ∧
        S.weightRatio = first.awri / (first.awri + 1) ∧ S.channelRadius = channel ∧
        S.scatteringRadius = scattering ∧
        ∀ v ∈ S.lvalues, v.l ≤ 4 ∧ ∀ r ∈ v.resonances, 0 < r.captureWidth := by
      unfold build
      rw [hlv]
      dsimp only
      rw [hlv] at h1
      rw [if_neg (by rw [not_or]; exact ⟨by positivity, hI0⟩), h1, ok_bind]
      refine ⟨_, rfl, rfl, rfl, rfl, ?_⟩
      intro v hv
      obtain ⟨u, hu, rfl⟩ := List.mem_map.mp hv
      exact ⟨(h2 u hu).1, fun r hr => (h2 u hu).2 r ((sort.perm _).mem_iff.mp hr)⟩
    obtain ⟨S, hS, s1, s2, s3, s5⟩ := hS
    refine ⟨S, hS, fun E hE => ?_⟩
    obtain ⟨a, -, ha⟩ := h.channel E hE
    obtain ⟨b, hb⟩ := h.scattering E hE
    unfold System.evaluate
    rw [s2, s3, ha, ok_bind, hb, ok_bind]
    dsimp only
    obtain ⟨outs, houts⟩ := mapM_exists.mpr fun v (hv : v ∈ S.lvalues) =>
      show ∃ out, inspect S.tag E (waveNumber c S.weightRatio E) (waveNumber c S.weightRatio E * a)
        (waveNumber c S.weightRatio E * b) v = .ok out by
      unfold inspect
      split <;> exact call_exists (s5 v hv).1 (s5 v hv).2 _ _ _
    rw [houts, ok_bind, s1, waveNumber_eq, if_neg (neutronWaveNumber_pos c hA hE.ne').ne']
    exact ⟨_, rfl⟩

/-- A target of spin 1/2 with s-wave resonances with fission in two channels, one of them a bound level, and
p-wave resonances with both channel spins and a radius of their own. -/
noncomputable def exampleEvaluation : Endf.ReichMoore :=
  ⟨1 / 2, 0.6, 2,
    [⟨0, 100, 0, [⟨-5, 1, 0.2, 0.1, 0.3, -0.2⟩, ⟨10, 1, 0.01, 0.1, 0.3, 0⟩, ⟨12, 0, 0.01, 0.1, 0, 0⟩]⟩,
      ⟨1, 100, 0.7, [⟨20, 1, 0.01, 0.1, 0, 0⟩, ⟨21, -1, 0.01, 0.1, 0, 0⟩]⟩]⟩

theorem example_physical : Physical exampleEvaluation (constantRadius 0.6) (constantRadius 0.6) where
  spin := ⟨1, by norm_num [exampleEvaluation]⟩
  nonempty := by simp [exampleEvaluation]
  awri := by simp [exampleEvaluation]
  l := by simp [exampleEvaluation]
  apl := by norm_num [exampleEvaluation]
  channel := fun _ _ => ⟨0.6, by norm_num, rfl⟩
  scattering := fun _ _ => ⟨0.6, rfl⟩
  energies := by
    simp only [exampleEvaluation, List.mem_cons, List.not_mem_nil, or_false]
    rintro lv (rfl | rfl) r hr
    · simp only [List.mem_cons, List.not_mem_nil, or_false] at hr
      rcases hr with rfl | rfl | rfl <;> norm_num
    · simp only [List.mem_cons, List.not_mem_nil, or_false] at hr
      rcases hr with rfl | rfl <;> norm_num
  widths := by
    simp only [exampleEvaluation, List.mem_cons, List.not_mem_nil, or_false]
    rintro lv (rfl | rfl) r hr
    · simp only [List.mem_cons, List.not_mem_nil, or_false] at hr
      rcases hr with rfl | rfl | rfl <;> norm_num
    · simp only [List.mem_cons, List.not_mem_nil, or_false] at hr
      rcases hr with rfl | rfl <;> norm_num

/-- The J values can be assigned. -/
theorem example_assignable : ∀ lv ∈ exampleEvaluation.lValues,
    Assignable exampleEvaluation.spin lv.l (lv.resonances.map (·.spin)).toFinset := by
  simp only [exampleEvaluation, List.mem_cons, List.not_mem_nil, or_false]
  rintro lv (rfl | rfl)
  · refine ⟨fun J => |J|, ?_, ?_⟩
    · intro J hJ
      simp at hJ
      rcases hJ with rfl | rfl
      · refine ⟨⟨by norm_num, by norm_num, 2, by norm_num⟩, ⟨by norm_num, by norm_num, 2, by norm_num⟩⟩
      · refine ⟨⟨by norm_num, by norm_num, 1, by norm_num⟩, ⟨by norm_num, by norm_num, 0, by norm_num⟩⟩
    · intro J hJ hJ' h0
      simp at hJ hJ'
      rcases hJ with rfl | rfl
      · norm_num at hJ'
      · exact absurd rfl h0
  · refine ⟨fun J => if 0 < J then 1 else 0, ?_, ?_⟩
    · intro J hJ
      simp at hJ
      rcases hJ with rfl | rfl
      · refine ⟨⟨by norm_num, by norm_num, 2, by norm_num⟩, ⟨by norm_num, by norm_num, 3, by norm_num⟩⟩
      · refine ⟨⟨by norm_num, by norm_num, 1, by norm_num⟩, ⟨by norm_num, by norm_num, 2, by norm_num⟩⟩
    · intro J hJ hJ' h0
      simp at hJ
      rcases hJ with rfl | rfl <;> norm_num

/-- At 20 eV it has cross sections, and they are not negative. -/
example (c : WaveConstant) (sort : Sorting Resonance.flaggedStatisticalFactor) : ∃ S x,
    build c sort exampleEvaluation .both (constantRadius 0.6) (constantRadius 0.6) true = .ok S ∧
    S.evaluate c 20 = .ok x ∧ 0 ≤ x.capture ∧ 0 ≤ x.fission ∧ 0 ≤ x.elastic := by
  obtain ⟨S, h1, h2⟩ := C59_exists (c := c) (sort := sort) (tag := .both) (use := true) example_physical
  obtain ⟨x, hx⟩ := h2 20 (by norm_num)
  obtain ⟨k1, k2, k3⟩ := C60_nonneg (tag := .both) example_physical.spin
    (fun lv hlv r hr => (example_physical.widths lv hlv r hr).2.le) h1 hx
  exact ⟨S, x, h1, hx, k1, k2, k3 example_assignable⟩

end Verif.Old.ReichMoore
