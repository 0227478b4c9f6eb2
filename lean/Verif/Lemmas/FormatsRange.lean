import Verif.Lemmas.Formats
import Verif.Props.ReichMooreRange
import Verif.Props.RMatrixRange

/-!
# Lemmas on ranges in two formats
-/

namespace Verif.Formats

open Spec Complex Endf

/-! ## Lists -/

theorem forall₂_filter {α β : Type*} {R : α → β → Prop} {f : α → Bool} {g : β → Bool} {as : List α}
    {bs : List β} (h : List.Forall₂ R as bs) (he : ∀ a b, R a b → f a = g b) :
    List.Forall₂ R (as.filter f) (bs.filter g) := by
  induction h with
  | nil => exact .nil
  | @cons a b _ _ h1 _ ih =>
    rw [List.filter_cons, List.filter_cons, he a b h1]
    split
    · exact .cons h1 ih
    · exact ih

theorem forall₂_of_mem {α β : Type*} {R S : α → β → Prop} {as : List α} {bs : List β}
    (h : List.Forall₂ R as bs) (hS : ∀ a ∈ as, ∀ b, R a b → S a b) : List.Forall₂ S as bs := by
  induction h with
  | nil => exact .nil
  | cons h1 _ ih =>
    exact .cons (hS _ List.mem_cons_self _ h1) (ih fun a ha => hS a (List.mem_cons_of_mem _ ha))

theorem forall₂_function {α β : Type*} [Nonempty β] {R : α → β → Prop} {key : α → ℕ} {as : List α}
    {bs : List β} (h : List.Forall₂ R as bs) (hk : (as.map key).Nodup) :
    ∃ W : ℕ → β, as.map (fun a => W (key a)) = bs ∧ ∀ a ∈ as, R a (W (key a)) := by
  induction h with
  | nil => exact ⟨fun _ => Classical.arbitrary β, rfl, by simp⟩
  | @cons a b as' bs' h1 _ ih =>
    rw [List.map_cons, List.nodup_cons] at hk
    obtain ⟨W, e1, e2⟩ := ih hk.2
    have hne : ∀ a' ∈ as', Function.update W (key a) b (key a') = W (key a') := by
      intro a' ha'
      refine Function.update_of_ne (fun e => hk.1 ?_) _ _
      rw [← e]
      exact List.mem_map_of_mem ha'
    refine ⟨Function.update W (key a) b, ?_, ?_⟩
    · rw [List.map_cons, Function.update_self, List.map_congr_left hne, e1]
    · intro a' ha'
      rcases List.mem_cons.mp ha' with rfl | ha'
      · rwa [Function.update_self]
      · rw [hne a' ha']
        exact e2 a' ha'

theorem sum_zipWith {α β γ : Type*} {R : β → γ → Prop} {f : α → β} {ks : List α} {gs : List γ}
    {F : β → γ → ℝ} {v : α → ℝ} (h : List.Forall₂ R (ks.map f) gs)
    (hF : ∀ k ∈ ks, ∀ g, R (f k) g → F (f k) g = v k) :
    (List.zipWith F (ks.map f) gs).sum = (ks.map v).sum := by
  induction ks generalizing gs with
  | nil => simp
  | cons k ks ih =>
    cases h with
    | cons h1 h2 =>
      rw [List.map_cons, List.zipWith_cons_cons, List.sum_cons, List.map_cons, List.sum_cons,
        hF k List.mem_cons_self _ h1, ih h2 fun k' hk' => hF k' (List.mem_cons_of_mem _ hk')]

theorem sum_partialWaves (n : ℕ) (v : ℕ × ℚ → ℝ) :
    ((partialWaves n).map v).sum = ∑ l ∈ Finset.range n, ((spinsOf l).map fun J => v (l, J)).sum := by
  unfold partialWaves
  induction n with
  | zero => simp
  | succ n ih =>
    rw [List.range_succ, List.flatMap_append, List.map_append, List.sum_append, ih, Finset.sum_range_succ]
    simp [Function.comp_def]

/-! ## Partial waves -/

theorem normSq_one_sub_phase (φ : ℝ) : normSq (1 - exp (-(2 * I * φ))) = 4 * Real.sin φ ^ 2 := by
  have h : exp (-(2 * I * φ)) = ⟨Real.cos (2 * φ), -Real.sin (2 * φ)⟩ := by
    rw [show -(2 * I * (φ : ℂ)) = ((-(2 * φ) : ℝ) : ℂ) * I by push_cast; ring, exp_mul_I, ← ofReal_cos,
      ← ofReal_sin, Real.cos_neg, Real.sin_neg]
    generalize Real.cos (2 * φ) = a
    generalize Real.sin (2 * φ) = b
    apply Complex.ext <;> simp
  rw [h, normSq_apply]
  simp only [sub_re, one_re, sub_im, one_im]
  rw [Real.cos_two_mul, Real.sin_two_mul]
  have := Real.sin_sq_add_cos_sq φ
  have h2 : Real.cos φ ^ 2 = 1 - Real.sin φ ^ 2 := by linarith
  ring_nf
  rw [show Real.cos φ ^ 4 = (Real.cos φ ^ 2) ^ 2 by ring, h2]
  ring

theorem collision_absent {E : ℝ} {w : CoupledWave} {as : List Coupled} {J : ℚ} (h : J ∉ as.map Coupled.J)
    (i j : Fin 3) : collisionOf E w as J i j = if i = j then exp (-(2 * I * w.φ)) else 0 := by
  have h1 : as.filter (fun a => a.J = J) = [] := by
    rw [List.filter_eq_nil_iff]
    intro a ha e
    have e : a.J = J := by simpa using e
    exact h (e ▸ List.mem_map_of_mem ha)
  unfold collisionOf reichMooreCollision
  have h2 : reichMooreK E [] = 0 := by
    ext a b
    simp [reichMooreK]
  rw [h1, List.map_nil, h2, sub_zero, inv_one]
  simp only [Matrix.smul_apply, Matrix.sub_apply, Matrix.one_apply, smul_eq_mul]
  split <;> norm_num

theorem spinsOf_nodup (l : ℕ) : (spinsOf l).Nodup := by
  unfold spinsOf
  split
  · simp
  · simp only [List.nodup_cons, List.mem_singleton, List.not_mem_nil, not_false_iff, List.nodup_nil, and_true]
    intro h
    linarith

theorem spinsOf_pos {l : ℕ} {J : ℚ} (h : J ∈ spinsOf l) : 0 < J := by
  unfold spinsOf at h
  split at h
  · simp only [List.mem_singleton] at h
    rw [h]
    norm_num
  · rename_i hl
    have : (1 : ℚ) ≤ l := by exact_mod_cast Nat.one_le_iff_ne_zero.mpr hl
    simp only [List.mem_cons, List.not_mem_nil, or_false] at h
    rcases h with rfl | rfl <;> linarith

theorem sum_factors (l : ℕ) : ((spinsOf l).map fun J => (neutronFactor 0 |J| : ℝ)).sum = 2 * l + 1 := by
  have h : ((spinsOf l).map fun J => (neutronFactor 0 |J| : ℝ))
      = (spinsOf l).map fun J => ((neutronFactor 0 J : ℚ) : ℝ) :=
    List.map_congr_left fun J hJ => by rw [abs_of_pos (spinsOf_pos hJ)]
  rw [h]
  unfold spinsOf neutronFactor
  split
  · rename_i hl
    rw [hl]
    norm_num
  · simp
    ring

theorem sum_over_spins {l : ℕ} {S : List ℚ} (hS : ∀ J ∈ S, J ∈ spinsOf l) (f : ℚ → ℝ) :
    ((spinsOf l).map f).sum = ∑ J ∈ S.toFinset, f J + ∑ J ∈ (spinsOf l).toFinset.filter (· ∉ S), f J := by
  rw [← List.sum_toFinset f (spinsOf_nodup l), ← Finset.sum_filter_add_sum_filter_not _ (· ∈ S)]
  congr 2
  ext J
  simp only [Finset.mem_filter, List.mem_toFinset]
  exact ⟨fun h => h.2, fun h => ⟨hS J h, h⟩⟩

section

variable {E : ℝ} {w : CoupledWave} {as : List Coupled}

theorem elastic_spins (h : ∀ J ∈ as.map Coupled.J, J ∈ spinsOf w.l) : coupledElastic 0 E w as
    = ((spinsOf w.l).map fun J => (neutronFactor 0 |J| : ℝ) * normSq (1 - collisionOf E w as J 0 0)).sum := by
  rw [sum_over_spins h]
  unfold coupledElastic
  congr 1
  have h1 := sum_over_spins h fun J => (neutronFactor 0 |J| : ℝ)
  rw [sum_factors] at h1
  rw [h1, add_sub_cancel_left, Finset.sum_mul]
  refine Finset.sum_congr rfl fun J hJ => ?_
  rw [collision_absent (Finset.mem_filter.mp hJ).2, if_pos rfl, normSq_one_sub_phase]

theorem fission_spins (h : ∀ J ∈ as.map Coupled.J, J ∈ spinsOf w.l) : coupledFission 0 E w as
    = ((spinsOf w.l).map fun J => (neutronFactor 0 |J| : ℝ)
      * (normSq (collisionOf E w as J 0 1) + normSq (collisionOf E w as J 0 2))).sum := by
  rw [sum_over_spins h, Finset.sum_eq_zero (s := Finset.filter _ _), add_zero]
  · rfl
  · intro J hJ
    rw [collision_absent (Finset.mem_filter.mp hJ).2, collision_absent (Finset.mem_filter.mp hJ).2]
    simp

theorem capture_spins (h : ∀ J ∈ as.map Coupled.J, J ∈ spinsOf w.l) : coupledCapture 0 E w as
    = ((spinsOf w.l).map fun J => (neutronFactor 0 |J| : ℝ)
      * (1 - ∑ j, normSq (collisionOf E w as J 0 j))).sum := by
  rw [sum_over_spins h, Finset.sum_eq_zero (s := Finset.filter _ _), add_zero]
  · rfl
  · intro J hJ
    have hn : normSq (exp (-(2 * I * w.φ))) = 1 := by
      rw [normSq_eq_norm_sq, show -(2 * I * (w.φ : ℂ)) = ((-(2 * w.φ) : ℝ) : ℂ) * I by push_cast; ring,
        norm_exp_ofReal_mul_I]
      norm_num
    simp only [Fin.sum_univ_three, collision_absent (Finset.mem_filter.mp hJ).2]
    simp [hn]

end

/-! ## The waves of an evaluation -/

theorem filter_l {p : ReichMoore} {lv : ReichMooreLValue} (hl : (p.lValues.map ReichMooreLValue.l).Nodup)
    (h : lv ∈ p.lValues) : (p.lValues.filter fun x => x.l = lv.l) = [lv] := by
  generalize p.lValues = lvs at hl h
  induction lvs with
  | nil => cases h
  | cons x xs ih =>
    rw [List.map_cons, List.nodup_cons] at hl
    rcases List.mem_cons.mp h with rfl | h
    · rw [List.filter_cons_of_pos (by simp), List.filter_eq_nil_iff.mpr]
      intro y hy
      have : y.l ≠ lv.l := fun e => hl.1 (e ▸ List.mem_map_of_mem (f := ReichMooreLValue.l) hy)
      simpa using this
    · have : x.l ≠ lv.l := fun e => hl.1 (e ▸ List.mem_map_of_mem (f := ReichMooreLValue.l) h)
      rw [List.filter_cons_of_neg (by simpa using this), ih hl.2 h]

theorem filter_absent {p : ReichMoore} {l : ℕ} (h : l ∉ p.lValues.map ReichMooreLValue.l) :
    (p.lValues.filter fun x => x.l = l) = [] := by
  rw [List.filter_eq_nil_iff]
  intro x hx hxl
  have hxl : x.l = l := by simpa using hxl
  exact h (hxl ▸ List.mem_map_of_mem (f := ReichMooreLValue.l) hx)

theorem radii_of {ap mass : ℝ} {naps : ℤ} {channel scattering : ℝ → Outcome ℝ}
    (h : IsRadii ap none naps mass channel scattering) (e : ℝ) :
    channel e = .ok (if naps = 0 then 0.123 * mass ^ (1 / 3 : ℝ) + 0.08 else ap) ∧
      scattering e = .ok ap := by
  obtain ⟨first, second, h1, h2⟩ := h
  have h2 := h2 e
  by_cases h0 : naps = 0
  · subst h0
    simp only [Option.isSome_none, prescribedRadii, Option.some.injEq, Prod.mk.injEq] at h1
    obtain ⟨rfl, rfl⟩ := h1
    obtain ⟨⟨root, r1, r2, r3⟩, r4⟩ := h2
    refine ⟨?_, r4⟩
    rw [r3, if_pos rfl, ← r2]
    have : (root ^ 3) ^ (1 / 3 : ℝ) = root := by
      have := Real.pow_rpow_inv_natCast r1 (n := 3) (by norm_num)
      rwa [show ((3 : ℕ) : ℝ)⁻¹ = 1 / 3 by norm_num] at this
    rw [this]
  · rw [if_neg h0]
    by_cases h1' : naps = 1
    · subst h1'
      simp only [Option.isSome_none, prescribedRadii, Option.some.injEq, Prod.mk.injEq] at h1
      obtain ⟨rfl, rfl⟩ := h1
      exact h2
    · simp [prescribedRadii, h0, h1'] at h1

variable {K : Constants} {neutronMass A E : ℝ} {incident target : Str} {naps : ℤ} {p : ReichMoore}
  {ws : List (CoupledWave × List Coupled)} {m : ReactionID → Option ℝ}

/-- What is known of the partial wave of an orbital angular momentum. -/
structure WaveOf (K : Constants) (neutronMass A E : ℝ) (naps : ℤ) (p : ReichMoore) (l : ℕ)
    (w : CoupledWave × List Coupled) : Prop where
  orbital : w.1.l = l
  penetrability : w.1.p = (hardSphere (neutronWaveNumber (waveConstant K.hbar neutronMass) A E
    * channelLength (A * neutronMass) naps p l) l).1
  phase : exp (2 * I * w.1.φ) = hardSpherePhase (neutronWaveNumber (waveConstant K.hbar neutronMass) A E
    * scatteringLength p l) l
  spins : ∀ J ∈ w.2.map Coupled.J, J ∈ spinsOf l
  levels : ∀ J, List.Forall₂ (Described (neutronWaveNumber (waveConstant K.hbar neutronMass) A)
    (channelLength (A * neutronMass) naps p l) l) (resonancesOf p l J) (w.2.filter fun a => a.J = J)

theorem waveOf_given (hs : SimpleReichMoore A p) {lv : ReichMooreLValue} (hlv : lv ∈ p.lValues)
    {w : CoupledWave × List Coupled} {channel scattering : ℝ → Outcome ℝ}
    (hr : IsRadii (lengthOf p lv) none naps (A * neutronMass) channel scattering)
    (hw : IsLevelWave (neutronWaveNumber (waveConstant K.hbar neutronMass) A) channel scattering E lv w.1 w.2) :
    WaveOf K neutronMass A E naps p lv.l w := by
  have hf := filter_l hs.distinct hlv
  have e1 : scatteringLength p lv.l = lengthOf p lv := by
    unfold scatteringLength
    rw [hf]
    rfl
  have e2 : ∀ e, channel e = .ok (channelLength (A * neutronMass) naps p lv.l) := by
    intro e
    unfold channelLength
    rw [e1]
    exact (radii_of hr e).1
  refine ⟨hw.l, ?_, ?_, ?_, ?_⟩
  · obtain ⟨radius, r1, r2⟩ := hw.own
    rw [e2] at r1
    obtain rfl := Except.ok.inj r1
    exact r2
  · obtain ⟨radius, r1, r2⟩ := hw.phase
    rw [(radii_of hr E).2, ← e1] at r1
    obtain rfl := Except.ok.inj r1
    exact r2
  · intro J hJ
    rw [level_spins hw.resonances] at hJ
    obtain ⟨r, hr', rfl⟩ := List.mem_map.mp hJ
    exact hs.spins lv hlv r hr'
  · intro J
    have e3 : resonancesOf p lv.l J = lv.resonances.filter fun r => r.spin = J := by
      unfold resonancesOf
      rw [hf]
      simp
    rw [e3]
    have h1 := forall₂_filter (f := fun r => decide (r.spin = J)) (g := fun a => decide (a.J = J))
      hw.resonances fun r a hra => by rw [hra.J]
    refine forall₂_of_mem h1 fun r hr' a hra => ?_
    have hr' := (List.mem_filter.mp hr').1
    obtain ⟨radius, r1, r2⟩ := hra.own
    rw [e2] at r1
    obtain rfl := Except.ok.inj r1
    exact ⟨hra.energy, hra.elastic, hra.capture, hra.fissionA, hra.fissionB, r2, hra.finite,
      hs.widths lv hlv r hr', hs.fission lv hlv r hr'⟩

theorem missing_zero (hs : SimpleReichMoore A p) {lv : ReichMooreLValue} (hlv : lv ∈ p.lValues)
    (h : ∀ J ∈ spinsOf lv.l, ∃ r ∈ lv.resonances, r.spin = J) : missingFactor p lv.l = 0 := by
  rw [missing_given hs.distinct hlv]
  unfold givenFactor
  have e1 : (lv.resonances.map ReichMooreResonance.spin).toFinset = (spinsOf lv.l).toFinset := by
    ext J
    rw [List.mem_toFinset, List.mem_toFinset]
    constructor
    · intro hJ
      obtain ⟨r, hr, rfl⟩ := List.mem_map.mp hJ
      exact hs.spins lv hlv r hr
    · intro hJ
      obtain ⟨r, hr, rfl⟩ := h J hJ
      exact List.mem_map_of_mem hr
  rw [e1, List.sum_toFinset _ (spinsOf_nodup _), hs.spin, sum_factors, sub_self]

theorem waves (hs : SimpleReichMoore A p)
    (h : IsReichMoore K neutronMass A E incident target none naps p ws m) :
    ∃ W : ℕ → CoupledWave × List Coupled, (∀ l < p.nlsc, WaveOf K neutronMass A E naps p l (W l)) ∧
      m (.elastic (pairID incident target)) = some (Real.pi
        / neutronWaveNumber (waveConstant K.hbar neutronMass) A E ^ 2
        * ∑ l ∈ Finset.range p.nlsc, coupledElastic 0 E (W l).1 (W l).2) ∧
      m (.transition (pairID incident target) "capture".toList) = some (Real.pi
        / neutronWaveNumber (waveConstant K.hbar neutronMass) A E ^ 2
        * ∑ l ∈ Finset.range p.nlsc, coupledCapture 0 E (W l).1 (W l).2) ∧
      (m (.transition (pairID incident target) "fission".toList)).getD 0 = Real.pi
        / neutronWaveNumber (waveConstant K.hbar neutronMass) A E ^ 2
        * ∑ l ∈ Finset.range p.nlsc, coupledFission 0 E (W l).1 (W l).2 := by
  classical
  obtain ⟨φ, hφ, hel⟩ := C69_elastic h hs.distinct hs.some fun lv hlv =>
    (hs.radius lv hlv).imp_right (Or.imp_right (missing_zero hs hlv))
  haveI : Nonempty (CoupledWave × List Coupled) := ⟨(⟨0, 0, 0⟩, [])⟩
  obtain ⟨W, hW, hR⟩ := forall₂_function (key := ReichMooreLValue.l) h.waves hs.distinct
  have hlt : ∀ l ∈ p.lValues.map ReichMooreLValue.l, l < p.nlsc := by
    intro l hmem
    obtain ⟨lv, hlv, rfl⟩ := List.mem_map.mp hmem
    have hw := hR lv hlv
    rw [if_neg (hs.some lv hlv)] at hw
    exact hw.2.1
  let V : ℕ → CoupledWave × List Coupled := fun l => if l ∈ p.lValues.map ReichMooreLValue.l then W l else
    (⟨l, (hardSphere (neutronWaveNumber (waveConstant K.hbar neutronMass) A E
      * channelLength (A * neutronMass) naps p l) l).1, φ l⟩, [])
  have hsum : ∀ f : CoupledWave × List Coupled → ℝ, ∑ l ∈ Finset.range p.nlsc, f (V l)
      = (ws.map f).sum + ∑ l ∈ (Finset.range p.nlsc).filter (· ∉ p.lValues.map ReichMooreLValue.l),
        f (⟨l, (hardSphere (neutronWaveNumber (waveConstant K.hbar neutronMass) A E
          * channelLength (A * neutronMass) naps p l) l).1, φ l⟩, []) := by
    intro f
    rw [sum_range_split hs.distinct hlt]
    congr 1
    · rw [← hW, List.map_map, List.map_map]
      congr 1
      refine List.map_congr_left fun lv hlv => ?_
      show f (V lv.l) = f (W lv.l)
      rw [show V lv.l = W lv.l from if_pos (List.mem_map_of_mem hlv)]
    · refine Finset.sum_congr rfl fun l hl => ?_
      rw [show V l = _ from if_neg (Finset.mem_filter.mp hl).2]
  refine ⟨V, ?_, ?_, ?_, ?_⟩
  · intro l hl
    by_cases hmem : l ∈ p.lValues.map ReichMooreLValue.l
    · rw [show V l = W l from if_pos hmem]
      obtain ⟨lv, hlv, rfl⟩ := List.mem_map.mp hmem
      have hw := hR lv hlv
      rw [if_neg (hs.some lv hlv)] at hw
      obtain ⟨-, -, channel, scattering, r1, r2⟩ := hw
      exact waveOf_given hs hlv r1 r2
    · rw [show V l = _ from if_neg hmem]
      obtain ⟨-, channel, scattering, radius, r1, r2, r3⟩ := hφ l hl hmem
      have e1 : scatteringLength p l = p.ap := by
        unfold scatteringLength
        rw [filter_absent hmem]
        rfl
      rw [(radii_of r1 E).2, ← e1] at r2
      obtain rfl := Except.ok.inj r2
      refine ⟨rfl, rfl, r3, by simp, fun J => ?_⟩
      unfold resonancesOf
      rw [filter_absent hmem]
      exact .nil
  · rw [hel, hs.spin, hsum fun w => coupledElastic 0 E w.1 w.2]
    congr 3
    refine Finset.sum_congr rfl fun l _ => ?_
    simp [coupledElastic]
  · rw [h.capture, hs.spin, hsum fun w => coupledCapture 0 E w.1 w.2]
    congr 2
    rw [Finset.sum_eq_zero, add_zero]
    intro l _
    simp [coupledCapture]
  · rw [h.fission, hs.spin, hsum fun w => coupledFission 0 E w.1 w.2]
    congr 1
    rw [Finset.sum_eq_zero, add_zero]
    intro l _
    simp [coupledFission]

end Verif.Formats
