import Verif.Props.IdleRange
import Verif.Props.OrderOld
import Verif.Props.PotentialOld

/-!
# C77 for the older code: resonances without neutron width may be left out
-/

namespace Verif.Endf

open Spec Complex

/-- The second l value has all resonances of the first, in any order, but for some without neutron width. -/
structure Thinned (lv lv' : BreitWignerLValue) : Prop where
  l : lv.l = lv'.l
  awri : lv.awri = lv'.awri
  qx : lv.qx = lv'.qx
  lrx : lv.lrx = lv'.lrx
  resonances : ∃ idle, lv.resonances.Perm (lv'.resonances ++ idle) ∧ ∀ r ∈ idle, r.neutronWidth = 0

/-- The same for the l values of a Reich-Moore evaluation: the resonances left out have no fission widths
either. -/
structure ThinnedCoupled (lv lv' : ReichMooreLValue) : Prop where
  l : lv.l = lv'.l
  awri : lv.awri = lv'.awri
  apl : lv.apl = lv'.apl
  resonances : ∃ idle, lv.resonances.Perm (lv'.resonances ++ idle) ∧
    ∀ r ∈ idle, r.neutronWidth = 0 ∧ r.firstFissionWidth = 0 ∧ r.secondFissionWidth = 0

variable {E : ℝ} {c : Old.WaveConstant} {channel scattering : ℝ → Outcome ℝ} {x x' : Old.CrossSection}

theorem forall₂_split {α β : Type} {Q : α → β → Prop} {xs ys : List α} {cs : List β}
    (h : List.Forall₂ Q (xs ++ ys) cs) :
    ∃ bs zs, List.Forall₂ Q xs bs ∧ List.Forall₂ Q ys zs ∧ cs = bs ++ zs := by
  refine ⟨cs.take xs.length, cs.drop xs.length, ?_, ?_, (List.take_append_drop _ _).symm⟩
  · simpa using List.forall₂_take xs.length h
  · simpa using List.forall₂_drop xs.length h

/-! ## Breit-Wigner systems -/

/-- The sums over the partial waves with and without the resonances that are left out. -/
theorem waves_thinned {p p' : BreitWigner} {A : ℝ} {ws ws' : List (Wave × List Assigned)}
    (hs : List.Forall₂ Thinned p.lValues p'.lValues)
    (h : List.Forall₂ (fun lv w => lv.l ≤ 4 ∧
      IsWave (neutronWaveNumber c.value A) channel scattering E lv w.1 w.2) p.lValues ws)
    (h' : List.Forall₂ (fun lv w => lv.l ≤ 4 ∧
      IsWave (neutronWaveNumber c.value A) channel scattering E lv w.1 w.2) p'.lValues ws')
    (multi : Bool) (i : ℚ) (f : ℝ × ℝ × ℝ → ℝ) :
    (ws.map fun w => f (waveSums multi i E w)).sum = (ws'.map fun w => f (waveSums multi i E w)).sum := by
  obtain ⟨vs, v1, v2⟩ := relate_along (P' := fun (lv : BreitWignerLValue) (w : Wave × List Assigned) =>
      lv.l ≤ 4 ∧ IsWave (neutronWaveNumber c.value A) channel scattering E lv w.1 w.2)
      (V := fun w w' => w.1 = w'.1 ∧ ∃ zs, w.2.Perm (w'.2 ++ zs) ∧ ∀ a ∈ zs, a.parameters.elastic = 0) hs h (by
    rintro y z ⟨w, as⟩ hyz ⟨h4, hw⟩
    dsimp only at hw ⊢
    obtain ⟨hl, ha, hq, hx, ⟨idle, s5, s6⟩⟩ := hyz
    obtain ⟨cs, k1, k2, -⟩ := perm_along s5 hw.resonances
    obtain ⟨bs, zs, b1, b2, rfl⟩ := forall₂_split k1
    refine ⟨⟨w, bs⟩, ⟨hl ▸ h4, ?_⟩, rfl, zs, k2, fun a ha => ?_⟩
    · have ho : competitiveOffset z = competitiveOffset y := by
        unfold competitiveOffset
        rw [hq, ha]
      refine ⟨by rw [← hl]; exact hw.l, by rw [← hl]; exact hw.own, by rw [← hl]; exact hw.phase,
        by rw [← hl, ← hx, ho]; exact hw.competitive, b1.imp fun r a ha => ?_⟩
      exact ⟨ha.J, ha.energy, ha.elastic, ha.capture, ha.fission, by rw [← hx]; exact ha.competition,
        by rw [← hx, ← hl]; exact ha.own, by rw [← hx, ← hl, ho]; exact ha.competitive⟩
    · obtain ⟨r, hr, hra⟩ := forall₂_mem_right b2 ha
      rw [hra.elastic, s6 r hr])
  refine (map_sum_related v2 ?_).trans (map_sum_unique v1 h' ?_)
  · rintro ⟨w, as⟩ ⟨w', bs⟩ ⟨g1, zs, g2, g3⟩
    dsimp only at g1 g2 g3
    subst g1
    obtain ⟨i1, i2, i3⟩ := idle_wave (E := E) (multi := multi) (I := i) (w := w) (bs := bs) g3
    rw [waveSums_perm g2]
    unfold waveSums
    dsimp only
    rw [i1, i2, i3]
  · rintro lv w w' ⟨-, g1⟩ ⟨-, g2⟩
    rw [waveSums_unique g1 g2]

theorem thinned_first {p p' : BreitWigner} (hs : List.Forall₂ Thinned p.lValues p'.lValues)
    {first first' : BreitWignerLValue} {rest rest' : List BreitWignerLValue} (h : p.lValues = first :: rest)
    (h' : p'.lValues = first' :: rest') : first'.awri = first.awri := by
  rw [h, h'] at hs
  cases hs with
  | cons h1 _ => exact h1.awri.symm

/-- C77 for the older single-level code: resonances without neutron width may be left out. -/
theorem C77_old_single {p p' : BreitWigner}
    {sort sort' : Old.Sorting Old.Resonance.statisticalFactor} {S S' : Old.System} (hspin : p.spin = p'.spin)
    (hs : List.Forall₂ Thinned p.lValues p'.lValues)
    (h : Old.build c sort .single p channel scattering = .ok S)
    (h' : Old.build c sort' .single p' channel scattering = .ok S')
    (hx : S.evaluate c .single E = .ok x) (hx' : S'.evaluate c .single E = .ok x') : x = x' := by
  obtain ⟨first, rest, hl, ws, w1, -, e1, e2, e3⟩ := Old.C58_single h hx
  obtain ⟨first', rest', hl', ws', w1', -, e1', e2', e3'⟩ := Old.C58_single h' hx'
  rw [thinned_first hs hl hl'] at w1' e1' e2' e3'
  rw [← hspin] at e1' e2' e3'
  have d1 := waves_thinned hs w1 w1' false p.spin fun t => t.1
  have d2 := waves_thinned hs w1 w1' false p.spin fun t => t.2.1
  have d3 := waves_thinned hs w1 w1' false p.spin fun t => t.2.2
  simp only [waveSums_single] at d1
  ext
  · rw [e1, e1', d1]
  · rw [e2, e2']
    exact congrArg _ d2
  · rw [e3, e3']
    exact congrArg _ d3

/-- C77 for the older multi-level code: resonances without neutron width may be left out, up to the rounding of
the decimals in its table. -/
theorem C77_old_multi {p p' : BreitWigner}
    {sort sort' : Old.Sorting Old.Resonance.statisticalFactor} {S S' : Old.System} (hspin : p.spin = p'.spin)
    (hs : List.Forall₂ Thinned p.lValues p'.lValues) (hI : HalfInt p.spin)
    (h : Old.build c sort .multi p channel scattering = .ok S)
    (h' : Old.build c sort' .multi p' channel scattering = .ok S')
    (hx : S.evaluate c .multi E = .ok x) (hx' : S'.evaluate c .multi E = .ok x') :
    x.capture = x'.capture ∧ x.fission = x'.fission ∧ ∃ first ∈ p.lValues, |x.elastic - x'.elastic|
      ≤ Real.pi / neutronWaveNumber c.value first.awri E ^ 2 * (8 * p.lValues.length / 10 ^ 15) := by
  obtain ⟨first, rest, hl, ws, w1, -, e1, e2, e3⟩ := Old.C58_multi hI h hx
  obtain ⟨first', rest', hl', ws', w1', -, e1', e2', e3'⟩ := Old.C58_multi (hspin ▸ hI) h' hx'
  rw [thinned_first hs hl hl'] at w1' e1' e2' e3'
  rw [← hspin] at e1' e2' e3'
  have d1 := waves_thinned hs w1 w1' true p.spin fun t => t.1
  have d2 := waves_thinned hs w1 w1' true p.spin fun t => t.2.1
  have d3 := waves_thinned hs w1 w1' true p.spin fun t => t.2.2
  simp only [waveSums_multi] at d1
  refine ⟨?_, ?_, first, by rw [hl]; simp, ?_⟩
  · rw [e2, e2']
    exact congrArg _ d2
  · rw [e3, e3']
    exact congrArg _ d3
  · rw [← w1.length_eq] at e1
    rw [← w1'.length_eq, ← hs.length_eq, ← d1] at e1'
    rw [abs_sub_comm] at e1'
    refine (abs_sub_le _ _ _).trans ((add_le_add e1 e1').trans (le_of_eq ?_))
    ring

/-- C77 for the older code: an evaluation that makes sense physically is accepted with and without these
resonances. -/
theorem C77_old_accepted {p p' : BreitWigner} {level : Old.Level}
    {sort sort' : Old.Sorting Old.Resonance.statisticalFactor} (hspin : p.spin = p'.spin)
    (hs : List.Forall₂ Thinned p.lValues p'.lValues) (h : Old.Physical p channel scattering) :
    ∃ S S', Old.build c sort level p channel scattering = .ok S ∧
      Old.build c sort' level p' channel scattering = .ok S' ∧
      ∀ E, E ≠ 0 → ∃ x x', S.evaluate c level E = .ok x ∧ S'.evaluate c level E = .ok x' := by
  have sub : ∀ {lv lv' : BreitWignerLValue}, Thinned lv lv' → ∀ r ∈ lv'.resonances, r ∈ lv.resonances := by
    intro lv lv' hl r hr
    obtain ⟨idle, hp, -⟩ := hl.resonances
    exact hp.symm.subset (List.mem_append_left _ hr)
  have h' : Old.Physical p' channel scattering := by
    refine ⟨hspin ▸ h.spin, fun e => h.nonempty ?_, fun lv hlv => ?_, fun lv hlv => ?_,
      h.channel, h.scattering, fun lv hlv r hr => ?_, fun lv hlv r hr => ?_⟩
    · rw [e] at hs
      exact List.forall₂_nil_right_iff.mp hs
    all_goals obtain ⟨y, hy, hyz⟩ := forall₂_mem_right hs hlv
    · rw [← hyz.awri]; exact h.awri y hy
    · rw [← hyz.l]; exact h.l y hy
    · have := h.energies y hy r (sub hyz r hr)
      unfold competitiveOffset at this ⊢
      rw [← hyz.lrx, ← hyz.qx, ← hyz.awri]
      exact this
    · exact h.widths y hy r (sub hyz r hr)
  obtain ⟨S, s1, s2⟩ := Old.C58_exists (c := c) (sort := sort) (level := level) h
  obtain ⟨S', s1', s2'⟩ := Old.C58_exists (c := c) (sort := sort') (level := level) h'
  refine ⟨S, S', s1, s1', fun E hE => ?_⟩
  obtain ⟨x, hx⟩ := s2 E hE
  obtain ⟨x', hx'⟩ := s2' E hE
  exact ⟨x, x', hx, hx'⟩

/-! ## Reich-Moore systems -/

theorem collisionOf_idle {w : CoupledWave} {bs zs : List Coupled}
    (h : ∀ a ∈ zs, a.elastic = 0 ∧ a.fissionA = 0 ∧ a.fissionB = 0) (J : ℚ) :
    collisionOf E w (bs ++ zs) J = collisionOf E w bs J := by
  unfold collisionOf reichMooreCollision
  have : reichMooreK E (((bs ++ zs).filter fun a => a.J = J).map (Coupled.level w.p))
      = reichMooreK E ((bs.filter fun a => a.J = J).map (Coupled.level w.p)) := by
    ext i j
    unfold reichMooreK
    simp only [Matrix.of_apply]
    rw [List.filter_append, List.map_append, List.map_append, List.sum_append, add_eq_left]
    apply List.sum_eq_zero
    intro t ht
    obtain ⟨v, hv, rfl⟩ := List.mem_map.mp ht
    obtain ⟨a, ha, rfl⟩ := List.mem_map.mp hv
    obtain ⟨h1, h2, h3⟩ := h a (List.mem_filter.mp ha).1
    have : (Coupled.level w.p a).amplitude i = 0 := by
      fin_cases i <;> simp [Coupled.level, h1, h2, h3, fissionAmplitude]
    rw [this]
    simp
  rw [this]

theorem collisionOf_none {w : CoupledWave} {bs : List Coupled} {J : ℚ} (h : J ∉ bs.map Coupled.J) (j : Fin 3) :
    collisionOf E w bs J 0 j = if j = 0 then exp (-(2 * I * w.φ)) else 0 := by
  have hnil : (bs.filter fun r => r.J = J) = [] := by
    rw [List.filter_eq_nil_iff]
    intro a ha hJ'
    exact h (List.mem_map.mpr ⟨a, ha, of_decide_eq_true hJ'⟩)
  unfold collisionOf
  rw [hnil]
  exact collision_uncoupled (by simp) (by simp) j

/-- Resonances without neutron and fission widths contribute nothing to the formulas. -/
theorem idle_coupled {spin : ℚ} {w : CoupledWave} {bs zs : List Coupled}
    (h : ∀ a ∈ zs, a.elastic = 0 ∧ a.fissionA = 0 ∧ a.fissionB = 0) :
    coupledElastic spin E w (bs ++ zs) = coupledElastic spin E w bs ∧
      coupledCapture spin E w (bs ++ zs) = coupledCapture spin E w bs ∧
      coupledFission spin E w (bs ++ zs) = coupledFission spin E w bs := by
  have hsub : (bs.map Coupled.J).toFinset ⊆ ((bs ++ zs).map Coupled.J).toFinset := by
    intro J hJ
    rw [List.mem_toFinset] at hJ ⊢
    rw [List.map_append]
    exact List.mem_append_left _ hJ
  refine ⟨?_, ?_, ?_⟩
  · have excess : ∀ rs : List Coupled, coupledElastic spin E w rs
        = ∑ J ∈ (rs.map Coupled.J).toFinset, (neutronFactor spin |J| : ℝ)
          * (normSq (1 - collisionOf E w rs J 0 0) - 4 * Real.sin w.φ ^ 2)
          + (2 * w.l + 1) * (4 * Real.sin w.φ ^ 2) := by
      intro rs
      unfold coupledElastic
      simp only [mul_sub, Finset.sum_sub_distrib, ← Finset.sum_mul]
      ring
    rw [excess, excess]
    simp only [collisionOf_idle h]
    congr 1
    refine (Finset.sum_subset hsub fun J _ hJ => ?_).symm
    rw [collisionOf_none (fun e => hJ (List.mem_toFinset.mpr e)), if_pos rfl, normSq_one_sub_exp, sub_self,
      mul_zero]
  · unfold coupledCapture
    simp only [collisionOf_idle h]
    refine (Finset.sum_subset hsub fun J _ hJ => ?_).symm
    simp only [collisionOf_none (E := E) (w := w) (fun e => hJ (List.mem_toFinset.mpr e)), Fin.sum_univ_three]
    simp [normSq_exp_neg]
  · unfold coupledFission
    simp only [collisionOf_idle h]
    refine (Finset.sum_subset hsub fun J _ hJ => ?_).symm
    simp [collisionOf_none (E := E) (w := w) (fun e => hJ (List.mem_toFinset.mpr e))]

/-- C77 for the older Reich-Moore code: resonances without neutron and fission widths may be left out. -/
theorem C77_old_reich_moore {p p' : ReichMoore}
    {sort sort' : Old.Sorting Old.ReichMoore.Resonance.flaggedStatisticalFactor} {tag : Old.ReichMoore.Tag}
    {S S' : Old.ReichMoore.System} (hspin : p.spin = p'.spin)
    (hs : List.Forall₂ ThinnedCoupled p.lValues p'.lValues)
    (hI : 0 < 4 * p.spin + 2) (hc : ∀ lv ∈ p.lValues, ∀ r ∈ lv.resonances, 0 ≤ r.gammaWidth)
    (h : Old.ReichMoore.build c sort p tag channel scattering tag.channel? = .ok S)
    (h' : Old.ReichMoore.build c sort' p' tag channel scattering tag.channel? = .ok S')
    (hx : S.evaluate c E = .ok x) (hx' : S'.evaluate c E = .ok x') : x = x' := by
  have hc' : ∀ lv ∈ p'.lValues, ∀ r ∈ lv.resonances, 0 ≤ r.gammaWidth := by
    intro lv hlv r hr
    obtain ⟨y, hy, hyz⟩ := forall₂_mem_right hs hlv
    obtain ⟨idle, hp, -⟩ := hyz.resonances
    exact hc y hy r (hp.symm.subset (List.mem_append_left _ hr))
  obtain ⟨first, rest, hl, ws, w1, -, e1, e2, e3⟩ := Old.ReichMoore.C59 hI hc h hx
  obtain ⟨first', rest', hl', ws', w1', -, e1', e2', e3'⟩ := Old.ReichMoore.C59 (hspin ▸ hI) hc' h' hx'
  have hf : first'.awri = first.awri := by
    have := hs
    rw [hl, hl'] at this
    cases this with
    | cons h1 _ => exact h1.awri.symm
  rw [hf] at w1' e1' e2' e3'
  have hr : ∀ {lv lv' : ReichMooreLValue} {b : Bool} {f : ℝ → Outcome ℝ}, ThinnedCoupled lv lv' →
      lRadius b lv' f = lRadius b lv f := by
    intro lv lv' b f h
    unfold lRadius
    rw [h.apl]
  obtain ⟨vs, v1, v2⟩ := relate_along (P' := fun (lv : ReichMooreLValue) (w : CoupledWave × List Coupled) =>
      lv.l ≤ 4 ∧ IsCoupledWave (neutronWaveNumber c.value first.awri) (lRadius tag.channel? lv channel)
        (lRadius tag.scattering? lv scattering) E lv w.1 w.2)
      (V := fun w w' => w.1 = w'.1 ∧ ∃ zs, w.2.Perm (w'.2 ++ zs) ∧
        ∀ a ∈ zs, a.elastic = 0 ∧ a.fissionA = 0 ∧ a.fissionB = 0) hs w1 (by
    rintro y z ⟨w, as⟩ hyz ⟨h4, hw⟩
    dsimp only at hw ⊢
    obtain ⟨idle, s5, s6⟩ := hyz.resonances
    obtain ⟨cs, k1, k2, -⟩ := perm_along s5 hw.resonances
    obtain ⟨bs, zs, b1, b2, rfl⟩ := forall₂_split k1
    refine ⟨⟨w, bs⟩, ⟨hyz.l ▸ h4, ?_⟩, rfl, zs, k2, fun a ha => ?_⟩
    · rw [hr hyz, hr hyz]
      have hl := hyz.l
      exact ⟨by rw [← hl]; exact hw.l, by rw [← hl]; exact hw.own, by rw [← hl]; exact hw.phase,
        by rw [← hl]; exact b1⟩
    · obtain ⟨r, hr, hra⟩ := forall₂_mem_right b2 ha
      rw [hra.elastic, hra.fissionA, hra.fissionB]
      exact s6 r hr)
  have sums : ∀ t : CoupledWave × List Coupled → ℝ,
      (∀ w as bs, as.Perm bs → t (w, as) = t (w, bs)) →
      (∀ w bs zs, (∀ a ∈ zs, a.elastic = 0 ∧ a.fissionA = 0 ∧ a.fissionB = 0) →
        t (w, bs ++ zs) = t (w, bs)) →
      (∀ w w' as, w.l = w'.l → w.p = w'.p → exp (2 * I * w.φ) = exp (2 * I * w'.φ) →
        t (w, as) = t (w', as)) → (ws.map t).sum = (ws'.map t).sum := by
    intro t ht hz hu
    refine (map_sum_related v2 ?_).trans (map_sum_unique v1 w1' ?_)
    · rintro ⟨w, as⟩ ⟨w', bs⟩ ⟨g1, zs, g2, g3⟩
      dsimp only at g1 g2 g3
      subst g1
      rw [ht _ _ _ g2, hz _ _ _ g3]
    · rintro lv ⟨w, as⟩ ⟨w', as'⟩ ⟨-, g1⟩ ⟨-, g2⟩
      obtain ⟨rfl, k1, k2, k3⟩ := coupledWave_unique g1 g2
      exact hu _ _ _ k1 k2 k3
  have d1 := sums (fun w => coupledElastic p.spin E w.1 w.2) (fun _ _ _ h => coupledElastic_perm h)
    (fun _ _ _ h => (idle_coupled h).1) fun w w' as k1 k2 k3 => (coupledSums_unique k1 k2 k3).1
  have d2 := sums (fun w => coupledCapture p.spin E w.1 w.2) (fun _ _ _ h => coupledCapture_perm h)
    (fun _ _ _ h => (idle_coupled h).2.1) fun w w' as k1 k2 k3 => (coupledSums_unique k1 k2 k3).2.1
  have d3 := sums (fun w => coupledFission p.spin E w.1 w.2) (fun _ _ _ h => coupledFission_perm h)
    (fun _ _ _ h => (idle_coupled h).2.2) fun w w' as k1 k2 k3 => (coupledSums_unique k1 k2 k3).2.2
  rw [← hspin] at e1' e2' e3'
  ext
  · rw [e1, e1', d1]
  · rw [e2, e2', d2]
  · rw [e3, e3', d3]

/-- C77 for the older code: a Reich-Moore evaluation that makes sense physically is accepted with and without
these resonances. -/
theorem C77_old_reich_moore_accepted {p p' : ReichMoore} {tag : Old.ReichMoore.Tag}
    {sort sort' : Old.Sorting Old.ReichMoore.Resonance.flaggedStatisticalFactor} (hspin : p.spin = p'.spin)
    (hs : List.Forall₂ ThinnedCoupled p.lValues p'.lValues) (h : Old.ReichMoore.Physical p channel scattering) :
    ∃ S S', Old.ReichMoore.build c sort p tag channel scattering tag.channel? = .ok S ∧
      Old.ReichMoore.build c sort' p' tag channel scattering tag.channel? = .ok S' ∧
      ∀ E, 0 < E → ∃ x x', S.evaluate c E = .ok x ∧ S'.evaluate c E = .ok x' := by
  have sub : ∀ {lv lv' : ReichMooreLValue}, ThinnedCoupled lv lv' →
      ∀ r ∈ lv'.resonances, r ∈ lv.resonances := by
    intro lv lv' hl r hr
    obtain ⟨idle, hp, -⟩ := hl.resonances
    exact hp.symm.subset (List.mem_append_left _ hr)
  have h' : Old.ReichMoore.Physical p' channel scattering := by
    refine ⟨hspin ▸ h.spin, fun e => h.nonempty ?_, fun lv hlv => ?_, fun lv hlv => ?_,
      fun lv hlv => ?_, h.channel, h.scattering, fun lv hlv r hr => ?_, fun lv hlv r hr => ?_⟩
    · rw [e] at hs
      exact List.forall₂_nil_right_iff.mp hs
    all_goals obtain ⟨y, hy, hyz⟩ := forall₂_mem_right hs hlv
    · rw [← hyz.awri]; exact h.awri y hy
    · rw [← hyz.l]; exact h.l y hy
    · rw [← hyz.apl]; exact h.apl y hy
    · exact h.energies y hy r (sub hyz r hr)
    · exact h.widths y hy r (sub hyz r hr)
  obtain ⟨S, s1, s2⟩ := Old.ReichMoore.C59_exists (c := c) (sort := sort) (tag := tag)
    (use := tag.channel?) h
  obtain ⟨S', s1', s2'⟩ := Old.ReichMoore.C59_exists (c := c) (sort := sort') (tag := tag)
    (use := tag.channel?) h'
  refine ⟨S, S', s1, s1', fun E hE => ?_⟩
  obtain ⟨x, hx⟩ := s2 E hE
  obtain ⟨x', hx'⟩ := s2' E hE
  exact ⟨x, x', hx, hx'⟩

/-! ## Examples -/

namespace IdleExample

open Old

/-- An s-wave resonance, and a p-wave resonance without neutron width. -/
noncomputable def breitWigner : BreitWigner :=
  ⟨1 / 2, 0.6, [⟨0, 100, 0, 0, [⟨10, 1, 0.3, 0.1, 0, 0⟩]⟩, ⟨1, 100, 0, 0, [⟨20, 2, 0, 0.1, 0.2, 0⟩]⟩]⟩

/-- The same without the p-wave resonance. -/
noncomputable def breitWigner' : BreitWigner :=
  ⟨1 / 2, 0.6, [⟨0, 100, 0, 0, [⟨10, 1, 0.3, 0.1, 0, 0⟩]⟩, ⟨1, 100, 0, 0, []⟩]⟩

theorem breitWigner_physical : Old.Physical breitWigner (constantRadius 0.6) (constantRadius 0.6) where
  spin := ⟨1, by norm_num [breitWigner]⟩
  nonempty := by simp [breitWigner]
  awri := by simp [breitWigner]
  l := by simp [breitWigner]
  channel := fun _ => ⟨0.6, by norm_num, rfl⟩
  scattering := fun _ => ⟨0.6, rfl⟩
  energies := by norm_num [breitWigner]
  widths := by norm_num [breitWigner]

example (c : WaveConstant) (sort : Sorting Resonance.statisticalFactor) : ∃ S S' x,
    build c sort .single breitWigner (constantRadius 0.6) (constantRadius 0.6) = .ok S ∧
    build c sort .single breitWigner' (constantRadius 0.6) (constantRadius 0.6) = .ok S' ∧
    S.evaluate c .single 20 = .ok x ∧ S'.evaluate c .single 20 = .ok x := by
  have hs : List.Forall₂ Thinned breitWigner.lValues breitWigner'.lValues :=
    .cons ⟨rfl, rfl, rfl, rfl, [], .refl _, by simp⟩
      (.cons ⟨rfl, rfl, rfl, rfl, [⟨20, 2, 0, 0.1, 0.2, 0⟩], .refl _, by simp⟩ .nil)
  obtain ⟨S, S', h1, h2, h3⟩ := C77_old_accepted (c := c) (level := .single) (sort := sort) (sort' := sort)
    (p := breitWigner) (p' := breitWigner') rfl hs breitWigner_physical
  obtain ⟨x, x', hx, hx'⟩ := h3 20 (by norm_num)
  obtain rfl := C77_old_single (p := breitWigner) (p' := breitWigner') rfl hs h1 h2 hx hx'
  exact ⟨S, S', x, h1, h2, hx, hx'⟩

/-- The same in the Reich-Moore format. -/
noncomputable def reichMoore : ReichMoore :=
  ⟨1 / 2, 0.6, 2, [⟨0, 100, 0, [⟨10, 1, 0.3, 0.1, 0.2, -0.3⟩]⟩, ⟨1, 100, 0.7, [⟨20, 2, 0, 0.1, 0, 0⟩]⟩]⟩

noncomputable def reichMoore' : ReichMoore :=
  ⟨1 / 2, 0.6, 2, [⟨0, 100, 0, [⟨10, 1, 0.3, 0.1, 0.2, -0.3⟩]⟩, ⟨1, 100, 0.7, []⟩]⟩

theorem reichMoore_physical : ReichMoore.Physical reichMoore (constantRadius 0.6) (constantRadius 0.6) where
  spin := ⟨1, by norm_num [reichMoore]⟩
  nonempty := by simp [reichMoore]
  awri := by simp [reichMoore]
  l := by simp [reichMoore]
  apl := by norm_num [reichMoore]
  channel := fun _ _ => ⟨0.6, by norm_num, rfl⟩
  scattering := fun _ _ => ⟨0.6, rfl⟩
  energies := by norm_num [reichMoore]
  widths := by norm_num [reichMoore]

example (c : WaveConstant) (sort : Sorting ReichMoore.Resonance.flaggedStatisticalFactor) : ∃ S S' x,
    ReichMoore.build c sort reichMoore .both (constantRadius 0.6) (constantRadius 0.6) true = .ok S ∧
    ReichMoore.build c sort reichMoore' .both (constantRadius 0.6) (constantRadius 0.6) true = .ok S' ∧
    S.evaluate c 20 = .ok x ∧ S'.evaluate c 20 = .ok x := by
  have hs : List.Forall₂ ThinnedCoupled reichMoore.lValues reichMoore'.lValues :=
    .cons ⟨rfl, rfl, rfl, [], .refl _, by simp⟩
      (.cons ⟨rfl, rfl, rfl, [⟨20, 2, 0, 0.1, 0, 0⟩], .refl _, by simp⟩ .nil)
  obtain ⟨S, S', h1, h2, h3⟩ := C77_old_reich_moore_accepted (c := c) (tag := .both) (sort := sort)
    (sort' := sort) (p := reichMoore) (p' := reichMoore') rfl hs reichMoore_physical
  obtain ⟨x, x', hx, hx'⟩ := h3 20 (by norm_num)
  obtain rfl := C77_old_reich_moore (p := reichMoore) (p' := reichMoore') rfl hs (by norm_num [reichMoore])
    (by norm_num [reichMoore]) h1 h2 hx hx'
  exact ⟨S, S', x, h1, h2, hx, hx'⟩

end IdleExample

end Verif.Endf
