import Verif.Lemmas.LowEnergyRange
import Verif.Props.LowEnergyLegacy
import Verif.Props.ContinuityBreitWigner

/-!
# Property C89 for Breit-Wigner ranges
-/

namespace Verif

open Filter Topology Complex

namespace Endf

open Spec (Wave Assigned neutronWaveNumber waveConstant SlowValue)

variable {K : Constants} {lib : CoulombLibrary} {tables : InterpolationLibrary}
  {initialBreitWigner : Channel → Verif.BreitWigner.Cache} {neutronMass : ℝ} {incident target : Str}
  {reactions : ReactionLibrary} {initial : (g : SpinGroup) → MatrixCache g.channels.length}
  {elementaryCharge : ℝ} {range : Range} {p : BreitWigner}
  {nro : Option (ℝ → Outcome ℝ)} {naps : ℤ} {multi : Bool}

theorem radii_same {ap mass : ℝ} {c s c' s' : ℝ → Outcome ℝ} (h : Spec.IsRadii ap nro naps mass c s)
    (h' : Spec.IsRadii ap nro naps mass c' s') : c = c' ∧ s = s' :=
  ⟨funext fun _ => (isRadii_unique h h').1, funext fun _ => (isRadii_unique h h').2⟩

/-- The phase shift of a hard sphere. -/
noncomputable def slowPhase (l : ℕ) (κ : ℝ) (b : ℝ → ℝ) (E : ℝ) : ℝ :=
  κ * Real.sqrt E * b E - atanQuotient (hsX l (κ * Real.sqrt E * b E)) (hsY l (κ * Real.sqrt E * b E))

theorem slowPhase_tendsto {l : ℕ} (hl : l ≤ 4) {b : ℝ → ℝ} (hb : ContinuousAt b 0) (κ : ℝ) :
    Tendsto (fun E => (exp (2 * I * slowPhase l κ b E) - 1) / Real.sqrt E) (𝓝[>] 0)
      (𝓝 (2 * I * ((if l = 0 then κ * b 0 else 0 : ℝ) : ℂ))) := by
  obtain ⟨h0, h1⟩ := hsPhase_deriv hl
  have h := root_slope h1 hb κ
  have e : 2 * I * (((if l = 0 then κ * b 0 else 0 : ℝ)) : ℂ)
      = (κ * b 0) • (if l = 0 then 2 * I else 0) := by
    split
    · rw [real_smul, mul_comm]
    · simp
  rw [← e] at h
  refine h.congr fun E => ?_
  rw [h0, real_smul, ofReal_inv, inv_mul_eq_div]
  rfl

theorem slowPhase_spec {l : ℕ} (hl : l ≤ 4) (κ : ℝ) (b : ℝ → ℝ) (E : ℝ) :
    exp (2 * I * slowPhase l κ b E) = Spec.hardSpherePhase (κ * Real.sqrt E * b E) l := by
  rw [hardSpherePhase_eq hl, ← hsPhase_eq hl]
  rfl

theorem neutronWaveNumber_root (c A : ℝ) {E : ℝ} (hE : 0 ≤ E) :
    neutronWaveNumber c A E = neutronWaveNumber c A 1 * Real.sqrt E := by
  unfold Spec.neutronWaveNumber
  rw [abs_one, Real.sqrt_one, mul_one, abs_of_nonneg hE]

theorem neutronWaveNumber_continuous (c A : ℝ) : Continuous (neutronWaveNumber c A) := by
  unfold Spec.neutronWaveNumber
  fun_prop

theorem hardSphere_nonneg' {ρ : ℝ} (h : 0 ≤ ρ) {l : ℕ} (hl : l ≤ 4) : 0 ≤ (Spec.hardSphere ρ l).1 := by
  rcases h.eq_or_lt with rfl | h
  · rw [hardSphere_eq hl, hsP_at_zero hl]
  · exact (hardSphere_pos h l).le

/-- The partial wave of an l value close to the energy zero. -/
theorem value_wave {c A : ℝ} {channel scattering : ℝ → Outcome ℝ} {lv : BreitWignerLValue} {v : SlowValue}
    (hl : lv.l ≤ 4) (hch : Spec.ContinuousRadius channel 0) (hsc : Spec.ContinuousRadius scattering 0)
    (hqx : Spec.ContinuousRadius channel (0 - lv.qx))
    (hv : Spec.IsSlowValue (neutronWaveNumber c A) channel scattering lv v) :
    ∃ P Q S φ, SlowWave P Q S φ (if lv.l = 0 then neutronWaveNumber c A 1 * v.channelRadius else 0)
        (if lv.l = 0 then neutronWaveNumber c A 1 * v.scatteringRadius else 0) v.competition (-lv.l) ∧
      ∀ᶠ E in 𝓝[>] 0, ∀ w as, Spec.IsPartialWave (neutronWaveNumber c A) channel scattering E lv w as →
        SameWave w ⟨lv.l, P E, S E, φ E, Q E⟩ := by
  obtain ⟨a, ha, hav⟩ := hch
  obtain ⟨b, hb, hbv⟩ := hsc
  obtain ⟨e, he, hev⟩ := hqx
  have ha0 : a 0 = v.channelRadius := Except.ok.inj (hav.self_of_nhds.symm.trans hv.channelRadius)
  have hb0 : b 0 = v.scatteringRadius := Except.ok.inj (hbv.self_of_nhds.symm.trans hv.scatteringRadius)
  set κ := neutronWaveNumber c A 1 with hκ
  have hsub : ContinuousAt (fun E => E - lv.qx) 0 := by fun_prop
  refine ⟨fun E => hsP lv.l (κ * Real.sqrt E * a E),
    fun E => hsP lv.l (neutronWaveNumber c A (E - lv.qx) * e (E - lv.qx)),
    fun E => hsS lv.l (κ * Real.sqrt E * a E), slowPhase lv.l κ b, ⟨?_, ?_, ?_, ?_⟩, ?_⟩
  · have h := root_slope (hsP_deriv hl) ha κ
    rw [hsP_at_zero hl, ha0, smul_eq_mul, mul_ite, mul_one, mul_zero] at h
    refine h.congr fun E => ?_
    rw [sub_zero, smul_eq_mul, inv_mul_eq_div]
  · obtain ⟨r, hr, hr'⟩ := hv.competition
    have hcont : ContinuousAt (fun E => hsP lv.l (neutronWaveNumber c A (E - lv.qx) * e (E - lv.qx))) 0 := by
      refine (hsP_continuous hl).continuousAt.comp
        (f := fun E => neutronWaveNumber c A (E - lv.qx) * e (E - lv.qx)) ?_
      exact ((neutronWaveNumber_continuous c A).continuousAt.comp (f := fun E => E - lv.qx) hsub).mul
        (ContinuousAt.comp (f := fun E => E - lv.qx) he hsub)
    have he0 : e (0 - lv.qx) = r := by
      have := hev.self_of_nhds
      rw [zero_sub, hr] at this
      rw [zero_sub]
      exact (Except.ok.inj this).symm
    have := hcont.tendsto.mono_left (nhdsWithin_le_nhds (s := Set.Ioi 0))
    rw [he0, zero_sub] at this
    rw [hr', hardSphere_eq hl]
    exact this
  · have hcont : ContinuousAt (fun E => hsS lv.l (κ * Real.sqrt E * a E)) 0 := by
      refine (hsS_continuous hl).continuousAt.comp (f := fun E => κ * Real.sqrt E * a E) ?_
      exact (continuousAt_const.mul Real.continuous_sqrt.continuousAt).mul ha
    have := hcont.tendsto.mono_left (nhdsWithin_le_nhds (s := Set.Ioi 0))
    rwa [Real.sqrt_zero, mul_zero, zero_mul, hsS_at_zero hl] at this
  · rw [← hb0]
    exact slowPhase_tendsto hl hb κ
  · filter_upwards [nhdsWithin_le_nhds hav, nhdsWithin_le_nhds hbv, nhdsWithin_le_nhds (hsub.eventually hev),
      self_mem_nhdsWithin] with E h1 h2 h3 hE w as hw
    have hk := neutronWaveNumber_root c A (Set.mem_Ioi.mp hE).le
    rw [← hκ] at hk
    obtain ⟨r1, k1, k2, k3⟩ := hw.own
    obtain ⟨r2, k4, k5⟩ := hw.phase
    obtain ⟨r3, k6, k7⟩ := hw.competitive
    obtain rfl := Except.ok.inj (k1.symm.trans h1)
    obtain rfl := Except.ok.inj (k4.symm.trans h2)
    obtain rfl := Except.ok.inj (k6.symm.trans h3)
    rw [hardSphere_eq hl] at k2 k3 k7
    rw [hk] at k2 k3 k5
    exact ⟨k2, k7, k3, k5.trans (slowPhase_spec hl κ b E).symm, hw.l⟩

/-- Resonances have no pole at the energy zero, because their capture width is positive. -/
theorem value_noPole {c A : ℝ} (hc : 0 < neutronWaveNumber c A 1) {channel : ℝ → Outcome ℝ} {lv : BreitWignerLValue} {q s : ℝ} (hq : 0 ≤ q)
    {r : BreitWignerResonance} {a : Assigned}
    (h : Spec.IsResonance (neutronWaveNumber c A) channel lv r a)
    (hw : 0 < r.gammaWidth ∧ 0 ≤ r.fissionWidth ∧ 0 ≤ r.competitiveWidth)
    (hr : lv.lrx ≠ 0 → r.energy - lv.qx ≠ 0 ∧ ∃ a, 0 < a ∧ channel (r.energy - lv.qx) = .ok a) :
    a.parameters.denominator 0 0 q s ≠ 0 := by
  have ht : 0 < a.parameters.totalWidth 0 q := by
    unfold Spec.Parameters.totalWidth Spec.Parameters.neutronWidth
    rw [h.capture, h.fission, h.competition]
    have : 0 ≤ (if lv.lrx = 0 then 0 else r.competitiveWidth) * q / a.parameters.competitivePenetrability := by
      split
      · simp
      · rename_i hlrx
        obtain ⟨h1, x, hx, h2⟩ := hr hlrx
        obtain ⟨y, hy, h3⟩ := h.competitive hlrx
        obtain rfl := Except.ok.inj (h2.symm.trans hy)
        rw [h3]
        refine div_nonneg (mul_nonneg hw.2.2 hq) (hardSphere_pos ?_ _).le
        refine mul_pos ?_ hx
        unfold Spec.neutronWaveNumber at hc ⊢
        rw [abs_one, Real.sqrt_one, mul_one] at hc
        exact mul_pos hc (Real.sqrt_pos.mpr (abs_pos.mpr h1))
    rw [mul_zero, zero_div, zero_add]
    linarith [hw.1, hw.2.1]
  unfold Spec.Parameters.denominator
  positivity

/-- The contributions of an l value. -/
theorem value_slow (multi : Bool) {c A : ℝ} (hc : 0 < neutronWaveNumber c A 1) {channel scattering : ℝ → Outcome ℝ}
    {lv : BreitWignerLValue} {v : SlowValue} (i : ℚ)
    (hl : lv.l ≤ 4) (hch : Spec.ContinuousRadius channel 0) (hsc : Spec.ContinuousRadius scattering 0)
    (hqx : Spec.ContinuousRadius channel (0 - lv.qx))
    (hv : Spec.IsSlowValue (neutronWaveNumber c A) channel scattering lv v)
    (hx : ∀ a ∈ v.resonances, a.parameters.denominator 0 0 v.competition (-lv.l) ≠ 0) :
    ∃ C F S : ℝ → ℝ,
      Tendsto (fun E => Real.sqrt E * C E) (𝓝[>] 0) (𝓝 (Spec.valueCapture i (neutronWaveNumber c A 1) lv.l v)) ∧
      Tendsto (fun E => Real.sqrt E * F E) (𝓝[>] 0) (𝓝 (Spec.valueFission i (neutronWaveNumber c A 1) lv.l v)) ∧
      Tendsto S (𝓝[>] 0) (𝓝 (Spec.valueElastic multi i lv.l v)) ∧
      ∀ᶠ E in 𝓝[>] 0, ∀ w as, Spec.IsPartialWave (neutronWaveNumber c A) channel scattering E lv w as →
        Real.pi / neutronWaveNumber c A E ^ 2 * Spec.captureSum i E w as = C E ∧
        Real.pi / neutronWaveNumber c A E ^ 2 * Spec.fissionSum i E w as = F E ∧
        Real.pi / neutronWaveNumber c A E ^ 2 * Spec.resonantElastic multi i E w as = S E := by
  obtain ⟨P, Q, S, φ, hw, hsame⟩ := value_wave hl hch hsc hqx hv
  set κ := neutronWaveNumber c A 1 with hκ
  have hk : ∀ E, 0 < E → neutronWaveNumber c A E ^ 2 = κ ^ 2 * E := by
    intro E hE
    rw [neutronWaveNumber_root c A hE.le, mul_pow, Real.sq_sqrt hE.le]
  have hre : ∀ {x : ℝ → ℝ} {y : ℝ}, Tendsto (fun E => x E / Real.sqrt E) (𝓝[>] 0) (𝓝 y) →
      Tendsto (fun E => Real.sqrt E * (Real.pi / neutronWaveNumber c A E ^ 2 * x E)) (𝓝[>] 0)
        (𝓝 (Real.pi / κ ^ 2 * y)) := by
    intro x y hx
    refine (hx.const_mul (Real.pi / κ ^ 2)).congr' ?_
    filter_upwards [self_mem_nhdsWithin] with E h0
    rw [hk E h0]
    have h3 := (Real.sqrt_pos.mpr (Set.mem_Ioi.mp h0)).ne'
    have h4 : E = Real.sqrt E * Real.sqrt E := (Real.mul_self_sqrt (Set.mem_Ioi.mp h0).le).symm
    generalize Real.sqrt E = r at *
    rw [h4]
    generalize x (r * r) = z
    field_simp
  have t1 := hre (captureSum_slow (i := i) (l := lv.l) hw hx)
  have t2 := hre (fissionSum_slow (i := i) (l := lv.l) hw hx)
  have t3 := (resonantElastic_slow (i := i) (l := lv.l) multi hw hx).const_mul (Real.pi / κ ^ 2)
  refine ⟨fun E => Real.pi / neutronWaveNumber c A E ^ 2
    * Spec.captureSum i E ⟨lv.l, P E, S E, φ E, Q E⟩ v.resonances,
    fun E => Real.pi / neutronWaveNumber c A E ^ 2
    * Spec.fissionSum i E ⟨lv.l, P E, S E, φ E, Q E⟩ v.resonances,
    fun E => Real.pi / neutronWaveNumber c A E ^ 2
    * Spec.resonantElastic multi i E ⟨lv.l, P E, S E, φ E, Q E⟩ v.resonances, ?_, ?_, ?_, ?_⟩
  rotate_left 2
  · have e : Real.pi / κ ^ 2 * (4 * ∑ J ∈ (v.resonances.map Assigned.J).toFinset, (Spec.neutronFactor i J : ℝ)
        * Spec.slowElastic multi v.competition (-lv.l) (if lv.l = 0 then κ * v.channelRadius else 0)
          (if lv.l = 0 then κ * v.scatteringRadius else 0)
          ((v.resonances.filter fun r => r.J = J).map Assigned.parameters))
        = Spec.valueElastic multi i lv.l v := by
      unfold Spec.valueElastic
      by_cases hl0 : lv.l = 0
      · simp only [hl0, if_true, Nat.cast_zero, neg_zero, BreitWigner.slowElastic_scale]
        simp only [mul_left_comm _ (κ ^ 2)]
        rw [← Finset.mul_sum]
        field_simp
      · simp only [if_neg hl0, BreitWigner.slowElastic_zero, mul_zero, Finset.sum_const_zero]
    rw [e] at t3
    refine t3.congr' ?_
    filter_upwards [self_mem_nhdsWithin] with E h0
    rw [hk E h0]
    have := (Set.mem_Ioi.mp h0).ne'
    field_simp
  · filter_upwards [hsame] with E hE w as hwave
    have h1 := hE w as hwave
    have h2 := forall₂_same hwave.resonances hv.resonances
    refine ⟨?_, ?_, ?_⟩
    · rw [Same.captureSum_eq h2 h1]
    · rw [Same.fissionSum_eq h2 h1]
    · rw [Same.resonantElastic_eq multi h2 h1]
  · have e : Spec.valueCapture i κ lv.l v = Real.pi / κ ^ 2 * ((if lv.l = 0 then κ * v.channelRadius else 0)
        * (v.resonances.map fun r => (Spec.neutronFactor i r.J : ℝ)
          * Spec.slowCapture v.competition (-lv.l) [r.parameters]).sum) := by
      unfold Spec.valueCapture
      by_cases hl0 : lv.l = 0
      · simp only [hl0, if_true, Nat.cast_zero, neg_zero]
        field_simp
      · simp only [if_neg hl0, zero_mul, mul_zero]
    rw [e]
    exact t1
  · have e : Spec.valueFission i κ lv.l v = Real.pi / κ ^ 2 * ((if lv.l = 0 then κ * v.channelRadius else 0)
        * (v.resonances.map fun r => (Spec.neutronFactor i r.J : ℝ)
          * Spec.slowFission v.competition (-lv.l) [r.parameters]).sum) := by
      unfold Spec.valueFission
      by_cases hl0 : lv.l = 0
      · simp only [hl0, if_true, Nat.cast_zero, neg_zero]
        field_simp
      · simp only [if_neg hl0, zero_mul, mul_zero]
    rw [e]
    exact t2

/-- The contributions of a list of l values. -/
theorem values_slow (multi : Bool) {lvs : List BreitWignerLValue} {vs : List SlowValue}
    (h : Spec.PhysicalBreitWigner neutronMass nro naps p)
    (hrad : Spec.BreitWignerRadiiAround neutronMass nro naps p 0) (hsub : ∀ lv ∈ lvs, lv ∈ p.lValues)
    (hv : List.Forall₂ (fun lv (v : SlowValue) => if lv.resonances = [] then v.resonances = [] else
      ∃ channel scattering, Spec.IsRadii p.ap nro naps (lv.awri * neutronMass) channel scattering ∧
        Spec.IsSlowValue (neutronWaveNumber (waveConstant K.hbar neutronMass) lv.awri) channel scattering lv v)
      lvs vs) :
    ∃ C F S : ℝ → ℝ,
      Tendsto (fun E => Real.sqrt E * C E) (𝓝[>] 0) (𝓝 (List.zipWith (fun lv v => Spec.valueCapture p.spin
        (neutronWaveNumber (waveConstant K.hbar neutronMass) lv.awri 1) lv.l v) lvs vs).sum) ∧
      Tendsto (fun E => Real.sqrt E * F E) (𝓝[>] 0) (𝓝 (List.zipWith (fun lv v => Spec.valueFission p.spin
        (neutronWaveNumber (waveConstant K.hbar neutronMass) lv.awri 1) lv.l v) lvs vs).sum) ∧
      Tendsto S (𝓝[>] 0) (𝓝 (List.zipWith (fun lv v => Spec.valueElastic multi p.spin lv.l v) lvs vs).sum) ∧
      ∀ᶠ E in 𝓝[>] 0, ∀ ws : List (Wave × List Assigned), List.Forall₂ (fun lv w =>
        if lv.resonances = [] then w.2 = [] else lv.l ≤ 4 ∧
        ∃ channel scattering, Spec.IsRadii p.ap nro naps (lv.awri * neutronMass) channel scattering ∧
          Spec.IsPartialWave (neutronWaveNumber (waveConstant K.hbar neutronMass) lv.awri) channel scattering E
            lv w.1 w.2) lvs ws →
        (List.zipWith (fun lv w => Real.pi / neutronWaveNumber (waveConstant K.hbar neutronMass) lv.awri E ^ 2
          * Spec.captureSum p.spin E w.1 w.2) lvs ws).sum = C E ∧
        (List.zipWith (fun lv w => Real.pi / neutronWaveNumber (waveConstant K.hbar neutronMass) lv.awri E ^ 2
          * Spec.fissionSum p.spin E w.1 w.2) lvs ws).sum = F E ∧
        (List.zipWith (fun lv w => Real.pi / neutronWaveNumber (waveConstant K.hbar neutronMass) lv.awri E ^ 2
          * Spec.resonantElastic multi p.spin E w.1 w.2) lvs ws).sum = S E := by
  induction hv with
  | nil =>
    refine ⟨fun _ => 0, fun _ => 0, fun _ => 0, by simp, by simp, by simp, Eventually.of_forall fun E ws hw => ?_⟩
    cases hw
    simp
  | @cons lv v lvs vs h1 h2 ih =>
    obtain ⟨C, F, S, t1, t2, t3, t4⟩ := ih fun x hx => hsub x (List.mem_cons_of_mem _ hx)
    have hlv := hsub lv List.mem_cons_self
    by_cases hne : lv.resonances = []
    · rw [if_pos hne] at h1
      refine ⟨C, F, S, ?_, ?_, ?_, ?_⟩
      · simpa [Spec.valueCapture, h1] using t1
      · simpa [Spec.valueFission, h1] using t2
      · simpa [Spec.valueElastic, h1] using t3
      · filter_upwards [t4] with E hE ws hws
        cases hws with
        | cons k1 k2 =>
          rw [if_pos hne] at k1
          obtain ⟨e1, e2, e3⟩ := hE _ k2
          refine ⟨?_, ?_, ?_⟩
          · rw [List.zipWith_cons_cons, List.sum_cons, e1, k1]
            simp [Spec.captureSum]
          · rw [List.zipWith_cons_cons, List.sum_cons, e2, k1]
            simp [Spec.fissionSum]
          · rw [List.zipWith_cons_cons, List.sum_cons, e3, k1]
            cases multi
            · simp [Spec.resonantElastic, Spec.singleElastic]
            · simp only [Spec.resonantElastic, Spec.multiElastic, if_true, List.map_nil, List.toFinset_nil,
                Finset.sum_empty]
              ring
    · rw [if_neg hne] at h1
      obtain ⟨channel, scattering, r1, r2⟩ := h1
      obtain ⟨channel', scattering', q1, q2, q3, q4, q5⟩ := hrad lv hlv
      obtain ⟨rfl, rfl⟩ := radii_same q1 r1
      obtain ⟨channel'', scattering'', s1, s2⟩ := h.radii lv hlv
      obtain ⟨rfl, rfl⟩ := radii_same s1 r1
      have hl := (h.l lv hlv hne).2
      have hκ := waveNumber_pos K h.mass (h.awri lv hlv) one_ne_zero
      have hqx : Spec.ContinuousRadius channel'' (0 - lv.qx) ∧ ∃ a, 0 < a ∧ channel'' (0 - lv.qx) = .ok a := by
        by_cases hq : lv.qx = 0
        · rw [hq, sub_zero]
          exact ⟨q2, q3⟩
        · exact q4 hq
      have hpos : 0 ≤ v.competition := by
        obtain ⟨r, hr, hr'⟩ := r2.competition
        obtain ⟨-, a, ha, hqa⟩ := hqx
        rw [zero_sub, hr] at hqa
        obtain rfl := Except.ok.inj hqa
        rw [hr']
        refine hardSphere_nonneg' (mul_nonneg ?_ ha.le) hl
        unfold Spec.neutronWaveNumber at hκ ⊢
        rw [abs_one, Real.sqrt_one, mul_one] at hκ
        exact mul_nonneg hκ.le (Real.sqrt_nonneg _)
      obtain ⟨C', F', S', u1, u2, u3, u4⟩ := value_slow multi hκ p.spin hl q2 q5 hqx.1 r2 (by
        intro a ha
        obtain ⟨r, hr, hra⟩ := forall₂_mem_right r2.resonances ha
        obtain ⟨w1, w2, w3, w4⟩ := h.widths lv hlv r hr
        exact value_noPole hκ hpos hra ⟨w2, w3, w4⟩ (s2 r hr).2.2)
      refine ⟨fun E => C' E + C E, fun E => F' E + F E, fun E => S' E + S E, ?_, ?_, ?_, ?_⟩
      · simp only [mul_add, List.zipWith_cons_cons, List.sum_cons]
        exact u1.add t1
      · simp only [mul_add, List.zipWith_cons_cons, List.sum_cons]
        exact u2.add t2
      · simp only [List.zipWith_cons_cons, List.sum_cons]
        exact u3.add t3
      · filter_upwards [t4, u4] with E hE hE' ws hws
        cases hws with
        | cons k1 k2 =>
          rw [if_neg hne] at k1
          obtain ⟨-, c1, s1', k3, k4⟩ := k1
          obtain ⟨rfl, rfl⟩ := radii_same k3 r1
          obtain ⟨e1, e2, e3⟩ := hE _ k2
          obtain ⟨f1, f2, f3⟩ := hE' _ _ k4
          exact ⟨by rw [List.zipWith_cons_cons, List.sum_cons, e1, f1],
            by rw [List.zipWith_cons_cons, List.sum_cons, e2, f2],
            by rw [List.zipWith_cons_cons, List.sum_cons, e3, f3]⟩

theorem first_with_resonances {before after before' after' : List BreitWignerLValue} {lv lv' : BreitWignerLValue}
    (h : before ++ lv :: after = before' ++ lv' :: after') (h1 : ∀ x ∈ before, x.resonances = [])
    (h2 : lv.resonances ≠ []) (h1' : ∀ x ∈ before', x.resonances = []) (h2' : lv'.resonances ≠ []) :
    lv = lv' := by
  have key : ∀ (b a : List BreitWignerLValue) (x : BreitWignerLValue), (∀ y ∈ b, y.resonances = []) →
      x.resonances ≠ [] → (b ++ x :: a).find? (fun y => ¬ y.resonances.isEmpty) = some x := by
    intro b a x hb hx
    rw [List.find?_append, List.find?_eq_none.mpr (fun y hy => by simp [hb y hy]), List.find?_cons_of_pos (by
      simpa using hx)]
    rfl
  have := (key before after lv h1 h2).symm.trans ((congrArg _ h).trans (key before' after' lv' h1' h2'))
  exact Option.some.inj this

/-- The potential scattering of a range at small energies. -/
theorem range_potential {κ b : ℝ} (hκ : 0 < κ) {r : ℝ → ℝ} (hr : ContinuousAt r 0) (hb : r 0 = b) {lmax : ℕ}
    (hl : lmax ≤ 4) : Tendsto (fun E => 4 * Real.pi / (κ * Real.sqrt E) ^ 2
      * ∑ l ∈ Finset.range (lmax + 1), (2 * (l : ℝ) + 1) * Real.sin (slowPhase l κ r E) ^ 2) (𝓝[>] 0)
      (𝓝 (4 * Real.pi * b ^ 2)) := by
  have hterm : ∀ l ∈ Finset.range (lmax + 1), Tendsto (fun E => (2 * (l : ℝ) + 1)
      * Real.sin (slowPhase l κ r E) ^ 2 / E) (𝓝[>] 0)
      (𝓝 ((2 * (l : ℝ) + 1) * (if l = 0 then κ * r 0 else 0) ^ 2)) := by
    intro l hl'
    have hl4 : l ≤ 4 := by have := Finset.mem_range.mp hl'; omega
    have hw : SlowWave (fun _ => 0) (fun _ => 0) (fun _ => 0) (slowPhase l κ r) 0
        (if l = 0 then κ * r 0 else 0) 0 0 :=
      ⟨by simp, tendsto_const_nhds, tendsto_const_nhds, slowPhase_tendsto hl4 hr κ⟩
    refine (hw.sin_sq.const_mul (2 * (l : ℝ) + 1)).congr fun E => ?_
    rw [mul_div_assoc]
  have hsum := (tendsto_finsetSum (Finset.range (lmax + 1)) hterm).const_mul (4 * Real.pi / κ ^ 2)
  have e : 4 * Real.pi / κ ^ 2
      * (∑ l ∈ Finset.range (lmax + 1), (2 * (l : ℝ) + 1) * (if l = 0 then κ * r 0 else 0) ^ 2)
      = 4 * Real.pi * b ^ 2 := by
    rw [Finset.sum_eq_single 0]
    · simp only [Nat.cast_zero, mul_zero, zero_add, if_true, hb]
      field_simp
    · intro l _ hl
      simp [hl]
    · simp
  rw [e] at hsum
  refine hsum.congr' ?_
  filter_upwards [self_mem_nhdsWithin] with E hE
  have hE := Set.mem_Ioi.mp hE
  rw [mul_pow, Real.sq_sqrt hE.le, ← Finset.sum_div]
  field_simp

/-- C89 for Breit-Wigner ranges: slow neutrons of a single-level or multi-level range that makes sense physically
and reaches down to the energy zero. There are cross sections at all sufficiently small energies. Capture and
fission times the square root of the energy approach the limits that the s-wave resonances give, and elastic
scattering approaches `4π b²` and the contributions of the s-wave resonances. -/
theorem C89_range (ht : range.type = 1 ∧ range.representation = if multi then 2 else 1)
    (hp : range.parameters = if multi then .multiLevel p else .singleLevel p)
    (hr : Option.Rel (Spec.IsRadiusTable tables) range.scatteringRadius nro)
    (h : Spec.PhysicalBreitWigner neutronMass nro range.naps p)
    (hE : range.lower ≤ 0 ∧ 0 < range.upper)
    (hrad : Spec.BreitWignerRadiiAround neutronMass nro range.naps p 0)
    {vs : List SlowValue} {b : ℝ} (hv : Spec.IsSlowRange K neutronMass nro range.naps p vs b) :
    ∃ R, fromENDF K lib tables reactions initialBreitWigner initial neutronMass elementaryCharge incident
        target range = .ok R ∧
      ∀ ε > 0, ∃ δ > 0, ∀ E, 0 < E → E < δ → ∃ m R', R.call K lib E = .ok (m, R') ∧
        |Real.sqrt E * (m (.inr ⟨incident, target, .capture⟩)).getD 0
          - (List.zipWith (fun lv v => Spec.valueCapture p.spin
            (neutronWaveNumber (waveConstant K.hbar neutronMass) lv.awri 1) lv.l v) p.lValues vs).sum| < ε ∧
        |Real.sqrt E * (m (.inr ⟨incident, target, .fission⟩)).getD 0
          - (List.zipWith (fun lv v => Spec.valueFission p.spin
            (neutronWaveNumber (waveConstant K.hbar neutronMass) lv.awri 1) lv.l v) p.lValues vs).sum| < ε ∧
        |(m (.inr ⟨incident, target, .elastic⟩)).getD 0 - (4 * Real.pi * b ^ 2
          + (List.zipWith (fun lv v => Spec.valueElastic multi p.spin lv.l v) p.lValues vs).sum)| < ε := by
  obtain ⟨R, hR, hcall⟩ := C65_accepted (K := K) (lib := lib) (tables := tables) (reactions := reactions)
    (initialBreitWigner := initialBreitWigner) (initial := initial) (elementaryCharge := elementaryCharge)
    (incident := incident) (target := target) ht hp hr h
  refine ⟨R, hR, fun ε hε => ?_⟩
  obtain ⟨C, F, S, t1, t2, t3, t4⟩ := values_slow (K := K) multi h hrad (fun _ h => h) hv.values
  obtain ⟨before, lv, after, channel, scattering, f1, f2, f3, f4, f5⟩ := hv.first
  have hlv : lv ∈ p.lValues := by rw [f1]; simp
  obtain ⟨channel', scattering', q1, q2, q3, q4, r, q5, q6⟩ := hrad lv hlv
  obtain ⟨rfl, rfl⟩ := radii_same q1 f4
  have hb : r 0 = b := Except.ok.inj (q6.self_of_nhds.symm.trans f5)
  set κ := neutronWaveNumber (waveConstant K.hbar neutronMass) lv.awri 1 with hκ
  have hκ0 : 0 < κ := waveNumber_pos K h.mass (h.awri lv hlv) one_ne_zero
  have hpot : ∀ᶠ E in 𝓝[>] 0, ∀ L ∈ {L : ℕ | L ∈ Finset.range 5}, |4 * Real.pi / (κ * Real.sqrt E) ^ 2
      * ∑ l ∈ Finset.range (L + 1), (2 * (l : ℝ) + 1) * Real.sin (slowPhase l κ r E) ^ 2
      - 4 * Real.pi * b ^ 2| < ε / 2 :=
    (eventually_all_finite (Finset.finite_toSet (Finset.range 5))).mpr fun L hL =>
      Metric.tendsto_nhds.mp (range_potential hκ0 q5 hb (by
        have : L < 5 := Finset.mem_range.mp hL
        omega)) _ (half_pos hε)
  have hhas : ∀ᶠ E in 𝓝[>] 0, Spec.HasRadii neutronMass nro range.naps p E := by
    have : ∀ᶠ E in 𝓝 (0 : ℝ), ∀ lv ∈ {lv | lv ∈ p.lValues}, ∃ channel scattering,
        Spec.IsRadii p.ap nro range.naps (lv.awri * neutronMass) channel scattering ∧
        (∃ a, 0 < a ∧ channel E = .ok a) ∧ (∃ a, 0 < a ∧ channel (E - lv.qx) = .ok a) ∧
        ∃ a, scattering E = .ok a := by
      refine (eventually_all_finite (List.finite_toSet _)).mpr fun lv hlv => ?_
      obtain ⟨channel, scattering, k1, ⟨a, k2, k2'⟩, ⟨a0, k3, k3'⟩, k4, d, k5, k5'⟩ := hrad lv hlv
      have hpos : ∀ᶠ E in 𝓝 (0 : ℝ), ∃ a, 0 < a ∧ channel E = .ok a := by
        have : 0 < a 0 := by
          rw [Except.ok.inj (k2'.self_of_nhds.symm.trans k3')]
          exact k3
        filter_upwards [k2', k2.eventually (lt_mem_nhds this)] with E e1 e2
        exact ⟨_, e2, e1⟩
      have hpos' : ∀ᶠ E in 𝓝 (0 : ℝ), ∃ a, 0 < a ∧ channel (E - lv.qx) = .ok a := by
        by_cases hq : lv.qx = 0
        · simpa [hq] using hpos
        · obtain ⟨⟨e, k6, k6'⟩, e0, k7, k7'⟩ := k4 hq
          have : 0 < e (0 - lv.qx) := by
            rw [Except.ok.inj (k6'.self_of_nhds.symm.trans k7')]
            exact k7
          have hsub : ContinuousAt (fun E => E - lv.qx) 0 := by fun_prop
          filter_upwards [hsub.eventually k6', hsub.eventually (k6.eventually (lt_mem_nhds this))] with E e1 e2
          exact ⟨_, e2, e1⟩
      filter_upwards [hpos, hpos', k5'] with E e1 e2 e3
      exact ⟨channel, scattering, k1, e1, e2, _, e3⟩
    exact nhdsWithin_le_nhds this
  have hupper : ∀ᶠ E in 𝓝[>] (0 : ℝ), E < range.upper := nhdsWithin_le_nhds (gt_mem_nhds hE.2)
  have hscat : ∀ᶠ E in 𝓝[>] (0 : ℝ), scattering' E = .ok (r E) := nhdsWithin_le_nhds q6
  obtain ⟨δ, hδ, hall⟩ := mem_nhdsGT_iff_exists_Ioo_subset.mp (t4.and (hpot.and (hhas.and (hupper.and
    (hscat.and ((Metric.tendsto_nhds.mp t1 ε hε).and ((Metric.tendsto_nhds.mp t2 ε hε).and
      (Metric.tendsto_nhds.mp t3 _ (half_pos hε)))))))))
  refine ⟨δ, hδ, fun E h0 hEδ => ?_⟩
  obtain ⟨c1, c2, c3, c4, c5, c6, c7, c8⟩ := hall ⟨h0, hEδ⟩
  obtain ⟨⟨m, R'⟩, hm⟩ := hcall E h0.ne' c3
  have hn : Spec.prescribedRadii range.scatteringRadius.isSome range.naps ≠ none := by
    obtain ⟨x, y, k1, -⟩ := f4
    have : range.scatteringRadius.isSome = nro.isSome := by
      generalize range.scatteringRadius = x at hr
      cases hr <;> rfl
    rw [this, k1]
    simp
  obtain ⟨nro', ws, k1, k2, -⟩ := C65_cross_sections hR hp hn ⟨by linarith [hE.1], c4.le⟩ hm
  obtain rfl : nro' = nro := Except.ok.inj ((radiusTable_of k1).symm.trans (radiusTable_of hr))
  obtain ⟨e1, e2, e3⟩ := c1 ws k2.waves
  refine ⟨m, R', hm, ?_, ?_, ?_⟩
  · rw [k2.capture, Option.getD_some, e1]
    exact c6
  · rw [k2.fission, e2]
    exact c7
  · obtain ⟨before', lv', after', ch, sc, rad, lmax, φ, g1, g2, g3, g4, g5, g6, ⟨x, g7, g7', g7''⟩, g8, g9, g10⟩ :=
      k2.elastic
    obtain rfl := first_with_resonances (f1.symm.trans g1) f2 f3 g2 g3
    obtain ⟨rfl, rfl⟩ := radii_same g4 f4
    obtain rfl := Except.ok.inj (g5.symm.trans c5)
    have hl4 : lmax ≤ 4 := by
      rw [← g7'']
      exact (h.l x g7 g7').2
    have hsum : ∑ l ∈ Finset.range (lmax + 1), (2 * (l : ℝ) + 1) * Real.sin (φ l) ^ 2
        = ∑ l ∈ Finset.range (lmax + 1), (2 * (l : ℝ) + 1) * Real.sin (slowPhase l κ r E) ^ 2 := by
      refine Finset.sum_congr rfl fun l hl => ?_
      have hl' : l ≤ lmax := by have := Finset.mem_range.mp hl; omega
      rw [pow_two, pow_two, sin_sq_of_exp, sin_sq_of_exp, g8 l hl', slowPhase_spec (hl'.trans hl4),
        neutronWaveNumber_root _ _ h0.le]
    rw [g10, Option.getD_some, e3, hsum, neutronWaveNumber_root _ _ h0.le, ← hκ]
    have d1 := c2 lmax (Finset.mem_range.mpr (by omega))
    have d2 : |S E - _| < ε / 2 := c8
    rw [abs_lt] at d1 d2 ⊢
    constructor <;> linarith [d1.1, d1.2, d2.1, d2.2]

/-- The data of the limits exist. -/
theorem C89_range_data (K : Constants) (h : Spec.PhysicalBreitWigner neutronMass nro naps p)
    (hrad : Spec.BreitWignerRadiiAround neutronMass nro naps p 0) :
    ∃ vs b, Spec.IsSlowRange K neutronMass nro naps p vs b := by
  have hres : ∀ lv ∈ p.lValues, ∀ channel scattering,
      Spec.IsRadii p.ap nro naps (lv.awri * neutronMass) channel scattering →
      ∀ rs : List BreitWignerResonance, (∀ r ∈ rs, r ∈ lv.resonances) → ∃ as, List.Forall₂
        (Spec.IsResonance (neutronWaveNumber (waveConstant K.hbar neutronMass) lv.awri) channel lv) rs as := by
    intro lv hlv channel scattering hr rs
    induction rs with
    | nil => exact fun _ => ⟨[], .nil⟩
    | cons r rs ih =>
      intro hrs
      obtain ⟨as, has⟩ := ih fun x hx => hrs x (List.mem_cons_of_mem _ hx)
      obtain ⟨c, s, k1, k2⟩ := h.radii lv hlv
      obtain ⟨rfl, rfl⟩ := radii_same k1 hr
      obtain ⟨h1, ⟨a, ha, ha'⟩, h2⟩ := k2 r (hrs r List.mem_cons_self)
      have hpos := hardSphere_pos (mul_pos (waveNumber_pos K h.mass (h.awri lv hlv) h1) ha) lv.l
      by_cases hlrx : lv.lrx = 0
      · exact ⟨⟨|r.spin|, ⟨r.energy, r.neutronWidth, r.gammaWidth, r.fissionWidth, 0, _, 0, _⟩⟩ :: as,
          .cons ⟨rfl, rfl, rfl, rfl, rfl, (if_pos hlrx).symm, ⟨a, ha', rfl, rfl⟩, fun h => absurd hlrx h,
            hpos.ne', fun h => absurd hlrx h⟩ has⟩
      · obtain ⟨h3, e, he, he'⟩ := h2 hlrx
        have hpos' := hardSphere_pos (mul_pos (waveNumber_pos K h.mass (h.awri lv hlv) h3) he) lv.l
        exact ⟨⟨|r.spin|, ⟨r.energy, r.neutronWidth, r.gammaWidth, r.fissionWidth, r.competitiveWidth, _, _, _⟩⟩
          :: as, .cons ⟨rfl, rfl, rfl, rfl, rfl, (if_neg hlrx).symm, ⟨a, ha', rfl, rfl⟩, fun _ => ⟨e, he', rfl⟩,
            hpos.ne', fun _ => hpos'.ne'⟩ has⟩
  have hvalues : ∀ lvs : List BreitWignerLValue, (∀ lv ∈ lvs, lv ∈ p.lValues) → ∃ vs, List.Forall₂
      (fun lv (v : SlowValue) => if lv.resonances = [] then v.resonances = [] else
      ∃ channel scattering, Spec.IsRadii p.ap nro naps (lv.awri * neutronMass) channel scattering ∧
        Spec.IsSlowValue (neutronWaveNumber (waveConstant K.hbar neutronMass) lv.awri) channel scattering lv v)
      lvs vs := by
    intro lvs
    induction lvs with
    | nil => exact fun _ => ⟨[], .nil⟩
    | cons lv lvs ih =>
      intro hsub
      obtain ⟨vs, hvs⟩ := ih fun x hx => hsub x (List.mem_cons_of_mem _ hx)
      have hlv := hsub lv List.mem_cons_self
      obtain ⟨channel, scattering, k1, -, ⟨a0, k3, k3'⟩, k4, d, k5, k5'⟩ := hrad lv hlv
      obtain ⟨as, has⟩ := hres lv hlv channel scattering k1 _ fun _ h => h
      obtain ⟨e, he⟩ : ∃ e, channel (-lv.qx) = .ok e := by
        by_cases hq : lv.qx = 0
        · exact ⟨a0, by rw [hq, neg_zero]; exact k3'⟩
        · obtain ⟨-, e, -, he⟩ := k4 hq
          exact ⟨e, by rw [← zero_sub]; exact he⟩
      refine ⟨⟨a0, d 0, (Spec.hardSphere (neutronWaveNumber (waveConstant K.hbar neutronMass) lv.awri (-lv.qx) * e)
        lv.l).1, as⟩ :: vs, .cons ?_ hvs⟩
      split
      · rename_i hnil
        rw [hnil] at has
        cases has
        rfl
      · exact ⟨channel, scattering, k1, k3', k5'.self_of_nhds, ⟨e, he, rfl⟩, has⟩
  obtain ⟨vs, hvs⟩ := hvalues p.lValues fun _ h => h
  have hfirst : ∀ lvs : List BreitWignerLValue, (∃ lv ∈ lvs, lv.resonances ≠ []) → ∃ before lv after,
      lvs = before ++ lv :: after ∧ (∀ x ∈ before, x.resonances = []) ∧ lv.resonances ≠ [] := by
    intro lvs
    induction lvs with
    | nil => rintro ⟨lv, h, -⟩; cases h
    | cons x lvs ih =>
      intro h
      by_cases hx : x.resonances = []
      · obtain ⟨lv, hlv, hne⟩ := h
        rcases List.mem_cons.mp hlv with rfl | hlv
        · exact absurd hx hne
        · obtain ⟨b, lv, a, h1, h2, h3⟩ := ih ⟨lv, hlv, hne⟩
          refine ⟨x :: b, lv, a, by rw [h1]; rfl, fun y hy => ?_, h3⟩
          rcases List.mem_cons.mp hy with rfl | hy
          · exact hx
          · exact h2 y hy
      · exact ⟨[], x, lvs, rfl, (fun _ h => nomatch h), hx⟩
  obtain ⟨before, lv, after, h1, h2, h3⟩ := hfirst _ h.some
  obtain ⟨channel, scattering, k1, -, -, -, d, k5, k5'⟩ := hrad lv (by rw [h1]; simp)
  exact ⟨vs, d 0, hvs, before, lv, after, channel, scattering, h1, h2, h3, k1, k5'.self_of_nhds⟩

/-- The limit for capture is positive if there are s-wave resonances. -/
theorem valueCapture_pos {i : ℚ} (hi : 0 ≤ i) {κ : ℝ} (hκ : 0 < κ) {v : SlowValue} (ha : 0 < v.channelRadius)
    (hne : v.resonances ≠ []) (hx : ∀ a ∈ v.resonances, 0 ≤ a.J ∧ 0 < a.parameters.elastic ∧
      0 < a.parameters.penetrability ∧ 0 < a.parameters.capture ∧
      a.parameters.denominator 0 0 v.competition 0 ≠ 0) : 0 < Spec.valueCapture i κ 0 v := by
  unfold Spec.valueCapture
  rw [if_pos rfl]
  refine mul_pos (by positivity) (List.sum_pos _ (fun y hy => ?_) (by simpa using hne))
  obtain ⟨a, ha, rfl⟩ := List.mem_map.mp hy
  obtain ⟨h1, h2, h3, h4, h5⟩ := hx a ha
  have hd : 0 < a.parameters.denominator 0 0 v.competition 0 :=
    lt_of_le_of_ne (by unfold Spec.Parameters.denominator; positivity) (Ne.symm h5)
  have hf : 0 < (Spec.neutronFactor i a.J : ℝ) := by
    have : 0 < Spec.neutronFactor i a.J := by
      unfold Spec.neutronFactor
      positivity
    exact_mod_cast this
  simp only [Spec.slowCapture, List.map_cons, List.map_nil, List.sum_cons, List.sum_nil, add_zero]
  positivity

open BreitWignerExample in
/-- C89 applies to the example of C65, for a range that begins at the energy zero: capture times the square root
of the energy has a positive limit. -/
example (K : Constants) (lib : CoulombLibrary) (tables : InterpolationLibrary) (reactions : ReactionLibrary)
    (initialBreitWigner : Channel → Verif.BreitWigner.Cache)
    (initial : (g : SpinGroup) → MatrixCache g.channels.length) (multi : Bool) :
    ∃ R x, fromENDF K lib tables reactions initialBreitWigner initial 1 1 "n".toList "X".toList
        { endfRange multi with lower := 0 } = .ok R ∧ 0 < x ∧ ∀ ε > 0, ∃ δ > 0, ∀ E, 0 < E → E < δ →
      ∃ m R', R.call K lib E = .ok (m, R') ∧
        |Real.sqrt E * (m (.inr ⟨"n".toList, "X".toList, .capture⟩)).getD 0 - x| < ε := by
  have around : ∀ E, Spec.ContinuousRadius (fun _ => .ok (1 / 2)) E := fun E =>
    ⟨fun _ => 1 / 2, continuousAt_const, Eventually.of_forall fun _ => rfl⟩
  have hrad : Spec.BreitWignerRadiiAround 1 none 1 evaluation 0 := fun lv _ =>
    ⟨_, _, radii _, around _, ⟨1 / 2, by norm_num, rfl⟩, fun _ => ⟨around _, 1 / 2, by norm_num, rfl⟩, around _⟩
  obtain ⟨vs, b, hv⟩ := C89_range_data K physical hrad
  obtain ⟨R, h1, h2⟩ := C89_range (K := K) (lib := lib) (tables := tables) (reactions := reactions)
    (initialBreitWigner := initialBreitWigner) (initial := initial) (elementaryCharge := 1)
    (incident := "n".toList) (target := "X".toList) (range := { endfRange multi with lower := 0 })
    (multi := multi) ⟨rfl, rfl⟩ rfl .none physical ⟨le_rfl, by norm_num [endfRange]⟩ hrad hv
  refine ⟨R, (List.zipWith (fun lv v => Spec.valueCapture evaluation.spin
    (neutronWaveNumber (waveConstant K.hbar 1) lv.awri 1) lv.l v) evaluation.lValues vs).sum, h1, ?_, fun ε hε => ?_⟩
  rotate_left
  · obtain ⟨δ, hδ, h3⟩ := h2 ε hε
    refine ⟨δ, hδ, fun E h0 hE => ?_⟩
    obtain ⟨m, R', h4, h5, -⟩ := h3 E h0 hE
    exact ⟨m, R', h4, h5⟩
  · have hvs := hv.values
    unfold evaluation at hvs ⊢
    dsimp only at hvs ⊢
    cases hvs with
    | @cons _ v0 _ vs0 k1 k2 =>
      cases k2 with
      | @cons _ v1 _ vs1 k2 k3 =>
        cases k3
        rw [if_neg (by simp)] at k1
        obtain ⟨c, s, r1, r2⟩ := k1
        obtain ⟨rfl, rfl⟩ := radii_same r1 (radii _)
        have hκ : 0 < neutronWaveNumber (waveConstant K.hbar 1) 10 1 :=
          waveNumber_pos K one_pos (by norm_num) one_ne_zero
        have e1 : Spec.valueCapture 0 (neutronWaveNumber (waveConstant K.hbar 1) 10 1) 1 v1 = 0 := if_neg (by simp)
        simp only [List.zipWith_cons_cons, List.zipWith_nil_left, List.sum_cons, List.sum_nil, e1, add_zero]
        have ha : v0.channelRadius = 1 / 2 := (Except.ok.inj r2.channelRadius).symm
        have hq : 0 ≤ v0.competition := by
          obtain ⟨r, h3, h4⟩ := r2.competition
          rw [h4, ← Except.ok.inj h3]
          refine hardSphere_nonneg' ?_ (by norm_num)
          simp [Spec.neutronWaveNumber]
        refine valueCapture_pos le_rfl hκ (by rw [ha]; norm_num) ?_ fun a ha => ?_
        · intro h0
          have := r2.resonances
          rw [h0] at this
          cases this
        · obtain ⟨r, hr, hra⟩ := forall₂_mem_right r2.resonances ha
          have hw : 0 < r.neutronWidth ∧ 0 < r.gammaWidth ∧ 0 ≤ r.fissionWidth ∧ 0 ≤ r.competitiveWidth ∧
              r.energy ≠ 0 := by
            simp only [List.mem_cons, List.not_mem_nil, or_false] at hr
            rcases hr with rfl | rfl <;> norm_num
          refine ⟨by rw [hra.J]; exact abs_nonneg _, by rw [hra.elastic]; exact hw.1, ?_,
            by rw [hra.capture]; exact hw.2.1,
            value_noPole hκ hq hra ⟨hw.2.1, hw.2.2.1, hw.2.2.2.1⟩ fun h => absurd rfl h⟩
          obtain ⟨y, h3, h4, -⟩ := hra.own
          rw [h4, ← Except.ok.inj h3]
          exact hardSphere_pos (mul_pos (waveNumber_pos K one_pos (by norm_num) hw.2.2.2.2) (by norm_num)) _

end Endf

end Verif
