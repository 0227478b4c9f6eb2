import Verif.Lemmas.OldReichMooreSystem
import Verif.Props.OldBreitWigner

/-!
# Properties C45, C46, C59 and C60: the cross sections of the older Reich-Moore code
-/

namespace Verif.Old.ReichMoore

open Complex
open Spec (Coupled CoupledWave neutronFactor neutronWaveNumber penetration IsCoupled IsCoupledWave lRadius
  collisionOf coupledElastic coupledCapture coupledFission)

/-! ## C45 -/

/-- C45: total minus elastic minus fission is not negative for every group of resonances with capture widths
that are not negative. -/
theorem C45_capture {E root φ : ℝ} {rs : List Resonance} {v : Pack 4 ℝ}
    (hc : ∀ r ∈ rs, 0 ≤ r.captureWidth) (h : evaluateGroup E root φ rs = .ok v) :
    0 ≤ v 0 - v 1 - v 2 := by
  cases rs with
  | nil =>
    rw [evaluateGroup] at h
    cases h
  | cons r rs =>
    obtain ⟨-, rfl⟩ := evaluateGroup_ok hc h
    have hcap : ∀ l ∈ (r :: rs).map (Resonance.level root), 0 ≤ l.capture := by
      intro l hl
      obtain ⟨x, hx, rfl⟩ := List.mem_map.mp hl
      exact hc x hx
    rw [groupValue_capture, capture_eq hcap]
    have := loss_nonneg (E := E) hcap fun j =>
      (1 + codeK E ((r :: rs).map (Resonance.level root)))⁻¹ j 0
    positivity

/-- C45: without fission the scalar shortcut gives the same as the inversion of the matrix. -/
theorem C45_shortcut {E root φ g : ℝ} {rs : List Resonance} {K : Matrix3}
    (hc : ∀ r ∈ rs, 0 ≤ r.captureWidth)
    (h : evaluateResonances E root rs (false, 0) = .ok (false, K)) :
    solveRfunction K (Real.cos (2 * φ)) (Real.sin (2 * φ)) g φ
      = solveRmatrix K (Real.cos (2 * φ)) (Real.sin (2 * φ)) g := by
  obtain ⟨-, a2, a3⟩ := evaluateResonances_ok h
  simp only [Matrix.zero_apply, zero_add] at a3
  have hcap : ∀ l ∈ rs.map (Resonance.level root), 0 ≤ l.capture := by
    intro l hl
    obtain ⟨x, hx, rfl⟩ := List.mem_map.mp hl
    exact hc x hx
  rw [solveRfunction_eq (a3 0 0 (le_refl _)) hcap (a2 rfl).2, solveRmatrix_eq a3 hcap]

/-- Two resonances without fission at an energy between them. -/
example : ∃ K, evaluateResonances 3 2 [⟨1, 1, 1, 0, 0, 1, 1 / 2⟩, ⟨5, 1, 2, 0, 0, 1, 1 / 2⟩] (false, 0)
    = .ok (false, K) := by
  simp only [evaluateResonances, Resonance.call, ne_eq, not_true, or_self, if_false]
  norm_num
  exact ⟨_, rfl⟩

/-! ## C46 -/

/-- C46 as it was meant: for some group of resonances with capture widths that are not negative the code uses
the expansion for small phase shifts, which it does if neither the real part of the element of the matrix nor
the phase shift is larger than 0.0003. -/
def C46_claim : Prop := ∃ (E root φ : ℝ) (rs : List Resonance) (K : Matrix3),
  (∀ r ∈ rs, 0 ≤ r.captureWidth) ∧ evaluateResonances E root rs (false, 0) = .ok (false, K) ∧
  ¬ (|(1 + K 0 0).re| > 3e-4 ∨ |φ| > 3e-4)

/-- C46 does not hold: the real part is at least 1. -/
theorem C46_disproved : ¬ C46_claim := by
  rintro ⟨E, root, φ, rs, K, hc, h, hn⟩
  obtain ⟨-, -, a3⟩ := evaluateResonances_ok h
  have hre := codeK_re_nonneg (E := E) (levels := rs.map (Resonance.level root)) fun l hl => by
    obtain ⟨x, hx, rfl⟩ := List.mem_map.mp hl
    exact hc x hx
  apply hn
  left
  rw [a3 0 0 (le_refl _), Matrix.zero_apply, zero_add, add_re, one_re, abs_of_nonneg (by linarith)]
  norm_num
  linarith

/-- C46: where the expansion is reached it is not an approximation of the total cross section, not even for
vanishing phase shift: there the exact value is `4 g (|e|² - Re e) / |e|²`, with `e` the element of the
matrix, and the code has the other sign. -/
theorem C46_expansion {K : Matrix3} {g : ℝ} (hre : |(1 + K 0 0).re| ≤ 3e-4) (he : 1 + K 0 0 ≠ 0) :
    ∃ v, solveRfunction K (Real.cos (2 * 0)) (Real.sin (2 * 0)) g 0 = .ok v ∧
      2 * g * (1 - (2 * (1 + K 0 0)⁻¹ - 1).re)
        = 4 * g * (normSq (1 + K 0 0) - (1 + K 0 0).re) / normSq (1 + K 0 0) ∧
      v 0 = 4 * g * (normSq (1 + K 0 0) + (1 + K 0 0).re) / normSq (1 + K 0 0) := by
  have hn : ((1 + K 0 0) * (starRingEnd ℂ) (1 + K 0 0)).re = normSq (1 + K 0 0) := by
    rw [mul_conj, ofReal_re]
  have h0 : normSq (1 + K 0 0) ≠ 0 := normSq_eq_zero.not.mpr he
  rw [solveRfunction]
  simp only
  rw [hn, if_neg h0, if_neg]
  · refine ⟨_, rfl, ?_, ?_⟩
    · rw [sub_re, mul_re, inv_re, one_re, re_ofNat, im_ofNat]
      field_simp
      ring
    · simp only [Matrix.cons_val_zero, mul_zero, Real.sin_zero, zero_mul, add_zero]
      field_simp
      ring
  · rw [abs_zero]
    push Not
    exact ⟨hre, by norm_num⟩

/-- With a negative capture width the expansion is reached: here the exact total is `4 g (1 - 10000)`, and the
code has `4 g (1 + 10000)`. -/
example : ∃ K, evaluateResonances 1 1 [⟨1, 1, -10000 / 9999, 0, 0, 1, 1 / 2⟩] (false, 0) = .ok (false, K) ∧
    1 + K 0 0 = (1 / 10000 : ℝ) := by
  simp only [evaluateResonances, Resonance.call, ne_eq, not_true, or_self, if_false]
  norm_num
  refine ⟨_, rfl, ?_⟩
  apply Complex.ext <;> simp [accumulate] <;> norm_num

/-! ## C59 -/

variable {c : WaveConstant} {sort : Sorting Resonance.flaggedStatisticalFactor} {tag : Tag}
  {rm : Endf.ReichMoore} {channel scattering : ℝ → Outcome ℝ} {S : System} {E : ℝ} {x : CrossSection}

theorem forall₂_map_sum' {γ : Type} {n : ℕ} {Q : γ → Pack n ℝ → Prop} {cs : List γ} {vs : List (Pack n ℝ)}
    (h : List.Forall₂ Q cs vs) {F : γ → ℝ} (i : Fin n) (hF : ∀ c v, Q c v → v i = F c) :
    (vs.map fun v => v i).sum = (cs.map F).sum := by
  induction h with
  | nil => simp
  | cons q1 _ ih => rw [List.map_cons, List.map_cons, List.sum_cons, List.sum_cons, ih, hF _ _ q1]

/-- C59: the cross sections of the older Reich-Moore code are those of the formula, for the resonances of the
evaluation and the radii that were chosen: the radius of the l value where the tag says so, otherwise the
general one. -/
theorem C59 (hI : 0 < 4 * rm.spin + 2)
    (hc : ∀ lv ∈ rm.lValues, ∀ r ∈ lv.resonances, 0 ≤ r.gammaWidth)
    (h : build c sort rm tag channel scattering tag.channel? = .ok S) (hx : S.evaluate c E = .ok x) :
    ∃ first rest, rm.lValues = first :: rest ∧ ∃ ws : List (CoupledWave × List Coupled),
      let k := neutronWaveNumber c.value first.awri
      List.Forall₂ (fun lv w => lv.l ≤ 4 ∧ IsCoupledWave k (lRadius tag.channel? lv channel)
        (lRadius tag.scattering? lv scattering) E lv w.1 w.2) rm.lValues ws ∧
      k E ≠ 0 ∧
      x.elastic = Real.pi / k E ^ 2 * (ws.map fun w => coupledElastic rm.spin E w.1 w.2).sum ∧
      x.capture = Real.pi / k E ^ 2 * (ws.map fun w => coupledCapture rm.spin E w.1 w.2).sum ∧
      x.fission = Real.pi / k E ^ 2 * (ws.map fun w => coupledFission rm.spin E w.1 w.2).sum := by
  obtain ⟨first, rest, h1, -, h2, h3, h4, h5, ps, h6, h7⟩ := build_ok h
  unfold System.evaluate at hx
  rw [h4, h5, bind_ok] at hx
  obtain ⟨a, ha, hx⟩ := hx
  rw [bind_ok] at hx
  obtain ⟨b, hb, hx⟩ := hx
  dsimp only at hx
  rw [bind_ok] at hx
  obtain ⟨outs, houts, hx⟩ := hx
  rw [h2, h3, ← h6, mapM_ok, List.forall₂_map_left_iff] at houts
  rw [h2] at hx
  split at hx
  · cases hx
  rename_i hk
  obtain rfl := Except.ok.inj hx
  rw [waveNumber_eq] at hk
  have h8 : List.Forall₂ (fun lv (p : List Coupled × LValue) =>
      (Converted c first.awri channel rm.spin tag.channel? lv p.1 p.2 ∧
        p.2.resonances.Pairwise fun a b => a.flaggedStatisticalFactor ≤ b.flaggedStatisticalFactor) ∧
      ∀ r ∈ lv.resonances, 0 ≤ r.gammaWidth) rm.lValues ps := by
    clear h1 h h6 houts
    generalize rm.lValues = ls at h7 hc
    induction h7 with
    | nil => exact .nil
    | cons k1 _ ih =>
      exact .cons ⟨k1, hc _ List.mem_cons_self⟩ (ih fun lv hlv => hc lv (List.mem_cons_of_mem _ hlv))
  obtain ⟨ws, w1, w2⟩ := forall₂_through h8 houts
    (R := fun lv (w : CoupledWave × List Coupled) => lv.l ≤ 4 ∧
      IsCoupledWave (neutronWaveNumber c.value first.awri) (lRadius tag.channel? lv channel)
        (lRadius tag.scattering? lv scattering) E lv w.1 w.2)
    (Q := fun w out => out 0 = coupledElastic rm.spin E w.1 w.2 ∧
      out 1 = coupledCapture rm.spin E w.1 w.2 ∧ out 2 = coupledFission rm.spin E w.1 w.2)
    fun lv p out hp hf => by
      obtain ⟨w, k1, k2⟩ := wave_ok hI hp.1.1 hp.1.2 hp.2 ha hb hf
      exact ⟨(w, p.1), ⟨hp.1.1.le, k1⟩, k2⟩
  refine ⟨first, rest, h1, ws, w1, hk, ?_, ?_, ?_⟩
  · rw [← forall₂_map_sum' w2 0 fun w v h => h.1]
    simp only [Pack.foldl_eq, Matrix.cons_val_zero, zero_add, waveNumber_eq]
    ring
  · rw [← forall₂_map_sum' w2 1 fun w v h => h.2.1]
    simp only [Pack.foldl_eq, Matrix.cons_val_one, Matrix.cons_val_zero, zero_add, waveNumber_eq]
    ring
  · rw [← forall₂_map_sum' w2 2 fun w v h => h.2.2]
    simp only [Pack.foldl_eq, Matrix.cons_val, zero_add, waveNumber_eq]
    ring

/-! ## C60 -/

theorem coupledCapture_nonneg {I : ℚ} (hI : 0 < 4 * I + 2) {w : CoupledWave} {as : List Coupled}
    (h : ∀ a ∈ as, 0 ≤ a.capture) : 0 ≤ coupledCapture I E w as := by
  refine Finset.sum_nonneg fun J _ => mul_nonneg ?_ ?_
  · have : 0 ≤ neutronFactor I |J| := by
      unfold neutronFactor
      positivity
    exact_mod_cast this
  · have hcap : ∀ l ∈ (as.filter fun a => a.J = J).map (Coupled.level w.p), 0 ≤ l.capture := by
      intro l hl
      obtain ⟨a, ha, rfl⟩ := List.mem_map.mp hl
      exact h a (List.mem_filter.mp ha).1
    unfold collisionOf
    rw [capture_eq hcap]
    have := loss_nonneg (E := E) hcap fun j =>
      (1 + codeK E ((as.filter fun a => a.J = J).map (Coupled.level w.p)))⁻¹ j 0
    positivity

/-- The (signed) J values can be given different combinations of channel spin and J. -/
def Assignable (I : ℚ) (l : ℕ) (Js : Finset ℚ) : Prop := ∃ s : ℚ → ℚ,
  (∀ J ∈ Js, Spec.Couples (1 / 2) I (s J) ∧ Spec.Couples l (s J) |J|) ∧
  ∀ J ∈ Js, -J ∈ Js → J ≠ 0 → s J ≠ s (-J)

/-- The statistical factors of such J values add up to at most `2 l + 1`. -/
theorem Assignable.le {I : ℚ} (hI : Spec.HalfInt I) {l : ℕ} {Js : Finset ℚ} (h : Assignable I l Js) :
    ∑ J ∈ Js, neutronFactor I |J| ≤ 2 * l + 1 := by
  obtain ⟨s, h1, h2⟩ := h
  have hi : Spec.HalfInt (1 / 2) := ⟨1, by norm_num⟩
  obtain ⟨e1, e2, -⟩ := C05_enumeration (1 / 2) I hi hI (l + 1)
  rw [← C02_spin_factors_exhaust (1 / 2) I hi hI (l + 1) l (Nat.lt_succ_self l)]
  set all := (makeQuantumNumbers (1 / 2) I (l + 1)).filter (fun q => q.l = l) with hall
  have hnd : all.Nodup := e2.filter _
  have hI0 : 0 < 4 * I + 2 := by
    obtain ⟨n, rfl⟩ := hI
    positivity
  have hf : ∀ J, statisticalSpinFactor J (1 / 2) I = neutronFactor I J := by
    intro J
    unfold statisticalSpinFactor neutronFactor
    rw [div_div]
    congr 1
    ring
  rw [← List.sum_toFinset _ hnd]
  let f : ℚ → QuantumNumbers := fun J => ⟨l, s J, |J|, (-1) ^ l⟩
  have hinj : Set.InjOn f Js := by
    intro J hJ J' hJ' hJJ
    have h3 : s J = s J' := congrArg QuantumNumbers.s hJJ
    have h4 : |J| = |J'| := congrArg QuantumNumbers.J hJJ
    rcases abs_eq_abs.mp h4 with h5 | h5
    · exact h5
    · by_cases h0 : J' = 0
      · rw [h5, h0, neg_zero]
      · subst h5
        exact absurd h3.symm (h2 J' hJ' hJ h0)
  have hsub : Js.image f ⊆ all.toFinset := by
    intro q hq
    obtain ⟨J, hJ, rfl⟩ := Finset.mem_image.mp hq
    rw [List.mem_toFinset, hall, List.mem_filter]
    exact ⟨(e1 _).mpr ⟨Nat.lt_succ_self l, (h1 J hJ).1, (h1 J hJ).2, rfl⟩, by simp [f]⟩
  have h6 : ∑ J ∈ Js, neutronFactor I |J| = ∑ q ∈ Js.image f, neutronFactor I q.J := by
    rw [Finset.sum_image hinj]
  rw [h6]
  simp only [hf]
  refine Finset.sum_le_sum_of_subset_of_nonneg hsub fun q hq _ => ?_
  rw [List.mem_toFinset, hall, List.mem_filter] at hq
  have := (abs_nonneg _).trans ((e1 q).mp hq.1).2.2.1.1
  unfold neutronFactor
  positivity

/-- C60: capture, fission and elastic scattering are not negative, the last if the J values of the resonances
are allowed ones. -/
theorem C60_nonneg (hI : Spec.HalfInt rm.spin)
    (hc : ∀ lv ∈ rm.lValues, ∀ r ∈ lv.resonances, 0 ≤ r.gammaWidth)
    (h : build c sort rm tag channel scattering tag.channel? = .ok S) (hx : S.evaluate c E = .ok x) :
    0 ≤ x.capture ∧ 0 ≤ x.fission ∧
    ((∀ lv ∈ rm.lValues, Assignable rm.spin lv.l (lv.resonances.map (·.spin)).toFinset) → 0 ≤ x.elastic) := by
  have hI0 : 0 < 4 * rm.spin + 2 := by
    obtain ⟨n, hn⟩ := hI
    rw [hn]
    positivity
  have hg : ∀ J : ℚ, (0 : ℝ) ≤ (neutronFactor rm.spin |J| : ℝ) := by
    intro J
    have : 0 ≤ neutronFactor rm.spin |J| := by
      unfold neutronFactor
      positivity
    exact_mod_cast this
  obtain ⟨first, rest, -, ws, h1, -, e0, e1, e2⟩ := C59 hI0 hc h hx
  rw [e0, e1, e2]
  refine ⟨mul_nonneg (by positivity) (forall₂_sum_nonneg h1 fun lv hlv w hw => ?_),
    mul_nonneg (by positivity) (forall₂_sum_nonneg h1 fun lv hlv w hw => ?_), fun hJ =>
    mul_nonneg (by positivity) (forall₂_sum_nonneg h1 fun lv hlv w hw => ?_)⟩
  · refine coupledCapture_nonneg hI0 fun a ha => ?_
    obtain ⟨r, hr, har⟩ := forall₂_mem hw.2.resonances.flip ha
    have har : IsCoupled _ _ _ r a := har
    rw [har.capture]
    exact hc lv hlv r hr
  · exact Finset.sum_nonneg fun J _ => mul_nonneg (hg J) (add_nonneg (normSq_nonneg _) (normSq_nonneg _))
  · have hset : (w.2.map Coupled.J).toFinset = (lv.resonances.map (·.spin)).toFinset := by
      congr 1
      have := hw.2.resonances
      generalize lv.resonances = rs at this
      generalize w.2 = as at this
      induction this with
      | nil => rfl
      | cons k1 _ ih => rw [List.map_cons, List.map_cons, ih, k1.J]
    have hle := (hJ lv hlv).le hI
    have hle : ((∑ J ∈ (lv.resonances.map (·.spin)).toFinset, neutronFactor rm.spin |J| : ℚ) : ℝ)
        ≤ ((2 * lv.l + 1 : ℚ) : ℝ) := by exact_mod_cast hle
    push_cast at hle
    unfold coupledElastic
    rw [hset, hw.2.l]
    refine add_nonneg (Finset.sum_nonneg fun J _ => mul_nonneg (hg J) (normSq_nonneg _))
      (mul_nonneg (by linarith) (by positivity))

end Verif.Old.ReichMoore
