import Verif.Props.Fission
import Verif.Props.OldBreitWigner
import Verif.Props.OldAccepted
import Verif.Props.OrderMore

/-!
# Property C93, continued: the order of the data in the older code
-/

namespace Verif.Endf

open Spec Complex

variable {E : ℝ} {c : Old.WaveConstant} {channel scattering : ℝ → Outcome ℝ} {x x' : Old.CrossSection}

/-! ## Reich-Moore systems -/

theorem coupledElastic_perm {spin : ℚ} {w : CoupledWave} {as bs : List Coupled} (h : as.Perm bs) :
    coupledElastic spin E w as = coupledElastic spin E w bs := by
  unfold coupledElastic
  rw [collisionOf_perm h, toFinset_perm (h.map _)]

/-- C93 for the older Reich-Moore code: two orders of an evaluation give the same cross sections. -/
theorem C93_old_reich_moore {p p' : ReichMoore} {A : ℝ}
    {sort sort' : Old.Sorting Old.ReichMoore.Resonance.flaggedStatisticalFactor} {tag : Old.ReichMoore.Tag}
    {S S' : Old.ReichMoore.System} (hs : SameReichMoore p p') (hA : ∀ lv ∈ p.lValues, lv.awri = A)
    (hI : 0 < 4 * p.spin + 2) (hc : ∀ lv ∈ p.lValues, ∀ r ∈ lv.resonances, 0 ≤ r.gammaWidth)
    (h : Old.ReichMoore.build c sort p tag channel scattering tag.channel? = .ok S)
    (h' : Old.ReichMoore.build c sort' p' tag channel scattering tag.channel? = .ok S')
    (hx : S.evaluate c E = .ok x) (hx' : S'.evaluate c E = .ok x') : x = x' := by
  have hc' : ∀ lv ∈ p'.lValues, ∀ r ∈ lv.resonances, 0 ≤ r.gammaWidth := by
    intro lv hlv r hr
    obtain ⟨y, hy, hyz⟩ := Relisted.mem hs.lValues hlv
    exact hc y hy r (hyz.resonances.mem_iff.mpr hr)
  obtain ⟨first, rest, hl, ws, w1, -, e1, e2, e3⟩ := Old.ReichMoore.C59 hI hc h hx
  obtain ⟨first', rest', hl', ws', w1', -, e1', e2', e3'⟩ := Old.ReichMoore.C59 (hs.spin ▸ hI) hc' h' hx'
  have hf : first.awri = A := hA first (by rw [hl]; simp)
  have hf' : first'.awri = A := by
    obtain ⟨y, hy, hyz⟩ := Relisted.mem (y := first') hs.lValues (by rw [hl']; simp)
    rw [← hyz.awri]
    exact hA y hy
  rw [hf] at w1 e1 e2 e3
  rw [hf'] at w1' e1' e2' e3'
  have hr : ∀ {lv lv' : ReichMooreLValue} {b : Bool} {f : ℝ → Outcome ℝ}, Verif.Spec.SameCoupled lv lv' →
      lRadius b lv' f = lRadius b lv f := by
    intro lv lv' b f h
    unfold lRadius
    rw [h.apl]
  obtain ⟨zs, s3, s4⟩ := hs.lValues
  obtain ⟨vs, v1, v2⟩ := relate_along (P' := fun (lv : ReichMooreLValue) (w : CoupledWave × List Coupled) =>
      lv.l ≤ 4 ∧ IsCoupledWave (neutronWaveNumber c.value A) (lRadius tag.channel? lv channel)
        (lRadius tag.scattering? lv scattering) E lv w.1 w.2)
      (V := fun w w' => w.1 = w'.1 ∧ w.2.Perm w'.2) s3 w1 (by
    rintro y z ⟨w, as⟩ hyz ⟨h4, hw⟩
    dsimp only at hw ⊢
    obtain ⟨bs, k1, k2, -⟩ := perm_along hyz.resonances hw.resonances
    refine ⟨⟨w, bs⟩, ⟨hyz.l ▸ h4, ?_⟩, rfl, k2⟩
    rw [hr hyz, hr hyz]
    have hl := hyz.l
    exact ⟨by rw [← hl]; exact hw.l, by rw [← hl]; exact hw.own, by rw [← hl]; exact hw.phase,
      by rw [← hl]; exact k1⟩)
  obtain ⟨us, u1, u2, -⟩ := perm_along s4 v1
  have sums : ∀ t : CoupledWave × List Coupled → ℝ,
      (∀ w as bs, as.Perm bs → t (w, as) = t (w, bs)) →
      (∀ w w' as, w.l = w'.l → w.p = w'.p → exp (2 * I * w.φ) = exp (2 * I * w'.φ) →
        t (w, as) = t (w', as)) → (ws.map t).sum = (ws'.map t).sum := by
    intro t ht hu
    refine (map_sum_related v2 ?_).trans (((u2.map t).sum_eq).trans (map_sum_unique u1 w1' ?_))
    · rintro ⟨w, as⟩ ⟨w', bs⟩ ⟨g1, g2⟩
      dsimp only at g1 g2
      subst g1
      exact ht _ _ _ g2
    · rintro lv ⟨w, as⟩ ⟨w', as'⟩ ⟨-, g1⟩ ⟨-, g2⟩
      obtain ⟨rfl, k1, k2, k3⟩ := coupledWave_unique g1 g2
      exact hu _ _ _ k1 k2 k3
  have d1 := sums (fun w => coupledElastic p.spin E w.1 w.2) (fun _ _ _ h => coupledElastic_perm h)
    fun w w' as k1 k2 k3 => (coupledSums_unique k1 k2 k3).1
  have d2 := sums (fun w => coupledCapture p.spin E w.1 w.2) (fun _ _ _ h => coupledCapture_perm h)
    fun w w' as k1 k2 k3 => (coupledSums_unique k1 k2 k3).2.1
  have d3 := sums (fun w => coupledFission p.spin E w.1 w.2) (fun _ _ _ h => coupledFission_perm h)
    fun w w' as k1 k2 k3 => (coupledSums_unique k1 k2 k3).2.2
  rw [← hs.spin] at e1' e2' e3'
  ext
  · rw [e1, e1', d1]
  · rw [e2, e2', d2]
  · rw [e3, e3', d3]

/-! ## Breit-Wigner systems -/

/-- The three sums of a partial wave. -/
noncomputable def waveSums (multi : Bool) (i : ℚ) (E : ℝ) (w : Wave × List Assigned) : ℝ × ℝ × ℝ :=
  (resonantElastic multi i E w.1 w.2 + 4 * (2 * w.1.l + 1) * Real.sin w.1.φ ^ 2, captureSum i E w.1 w.2,
    fissionSum i E w.1 w.2)

theorem waveSums_noCompetition {multi : Bool} {i : ℚ} {w : Wave} {as : List Assigned}
    (h : ∀ a ∈ as, a.parameters.competition = 0) (q : ℝ) :
    waveSums multi i E ({ w with q := q }, as) = waveSums multi i E (w, as) := by
  have ht : ∀ a ∈ as, ∀ p, a.parameters.totalWidth p q = a.parameters.totalWidth p w.q := by
    intro a ha p
    unfold Parameters.totalWidth
    rw [h a ha, zero_mul, zero_mul]
  have hd : ∀ a ∈ as, ∀ p s, a.parameters.denominator E p q s = a.parameters.denominator E p w.q s := by
    intro a ha p s
    unfold Parameters.denominator
    rw [ht a ha]
  unfold waveSums resonantElastic captureSum fissionSum
  refine Prod.ext ?_ (Prod.ext ?_ ?_)
  · dsimp only
    congr 2
    cases multi with
    | false =>
      simp only [Bool.false_eq_true, if_false]
      unfold singleElastic Parameters.elasticTerm
      congr 2
      refine List.map_congr_left fun a ha => ?_
      rw [ht a ha, hd a ha]
    | true =>
      simp only [if_true]
      unfold multiElastic
      congr 1
      refine Finset.sum_congr rfl fun J _ => ?_
      have hlv : (as.filter (·.J = J)).map (fun r => r.level { w with q := q }) =
          (as.filter (·.J = J)).map (fun r => r.level w) := by
        refine List.map_congr_left fun a ha => ?_
        unfold Assigned.level
        rw [ht a (List.mem_of_mem_filter ha)]
      rw [hlv]
  · dsimp only
    congr 1
    refine List.map_congr_left fun a ha => ?_
    unfold Parameters.captureTerm
    rw [hd a ha]
  · dsimp only
    congr 1
    refine List.map_congr_left fun a ha => ?_
    unfold Parameters.fissionTerm
    rw [hd a ha]

theorem same_of_isAssigned {k : ℝ → ℝ} {lv : BreitWignerLValue} {r : BreitWignerResonance} {a a' : Assigned}
    (h : IsAssigned k channel lv r a) (h' : IsAssigned k channel lv r a') : Verif.Same a a' := by
  obtain ⟨R, r1, r2, r3⟩ := h.own
  obtain ⟨R', r1', r2', r3'⟩ := h'.own
  obtain rfl := Except.ok.inj (r1.symm.trans r1')
  have hw : ∀ p, a.parameters.neutronWidth p = a'.parameters.neutronWidth p := fun p => by
    unfold Parameters.neutronWidth
    rw [h.elastic, h'.elastic, r2, r2']
  refine ⟨by rw [h.J, h'.J], by rw [h.capture, h'.capture], by rw [h.fission, h'.fission], hw,
    fun p q => ?_, fun s => ?_⟩
  · unfold Parameters.totalWidth
    rw [hw, h.capture, h'.capture, h.fission, h'.fission, h.competition, h'.competition]
    by_cases hl : lv.lrx = 0
    · simp [hl]
    · obtain ⟨Q, q1, q2⟩ := h.competitive hl
      obtain ⟨Q', q1', q2'⟩ := h'.competitive hl
      obtain rfl := Except.ok.inj (q1.symm.trans q1')
      rw [q2, q2']
  · unfold Parameters.position
    rw [h.energy, h'.energy, h.elastic, h'.elastic, r2, r2', r3, r3']

theorem waveSums_unique {multi : Bool} {i : ℚ} {k : ℝ → ℝ} {lv : BreitWignerLValue}
    {w w' : Wave × List Assigned} (h : IsWave k channel scattering E lv w.1 w.2)
    (h' : IsWave k channel scattering E lv w'.1 w'.2) : waveSums multi i E w = waveSums multi i E w' := by
  obtain ⟨w, as⟩ := w
  obtain ⟨w', as'⟩ := w'
  dsimp only at h h'
  obtain ⟨x, r1, r2, r3⟩ := h.own
  obtain ⟨x', r1', r2', r3'⟩ := h'.own
  obtain rfl := Except.ok.inj (r1.symm.trans r1')
  obtain ⟨y, r5, r6⟩ := h.phase
  obtain ⟨y', r7, r8⟩ := h'.phase
  obtain rfl := Except.ok.inj (r5.symm.trans r7)
  have hsame : List.Forall₂ Verif.Same as as' := by
    have h1 := h.resonances
    have h2 := h'.resonances
    generalize lv.resonances = rs at h1 h2
    clear h h'
    induction h1 generalizing as' with
    | nil => cases h2; exact .nil
    | cons a1 _ ih =>
      cases h2 with
      | cons b1 b2 => exact .cons (same_of_isAssigned a1 b1) (ih _ b2)
  have key : ∀ {v v' : Wave}, Verif.SameWave v v' → waveSums multi i E (v, as) = waveSums multi i E (v', as') := by
    intro v v' hv
    unfold waveSums
    rw [Verif.Same.resonantElastic_eq multi hsame hv, Verif.Same.captureSum_eq hsame hv, Verif.Same.fissionSum_eq hsame hv,
      hv.l, Verif.Same.sin_sq_eq hv]
  by_cases hl : lv.lrx = 0
  · have hz : ∀ a ∈ as', a.parameters.competition = 0 := by
      intro a ha
      obtain ⟨r, -, hr⟩ := forall₂_mem_right h'.resonances ha
      rw [hr.competition, if_pos hl]
    rw [← waveSums_noCompetition hz w.q]
    exact key ⟨r2.trans r2'.symm, rfl, r3.trans r3'.symm, r6.trans r8.symm, h.l.trans h'.l.symm⟩
  · obtain ⟨z, q1, q2⟩ := h.competitive hl
    obtain ⟨z', q1', q2'⟩ := h'.competitive hl
    obtain rfl := Except.ok.inj (q1.symm.trans q1')
    exact key ⟨r2.trans r2'.symm, q2.trans q2'.symm, r3.trans r3'.symm, r6.trans r8.symm,
      h.l.trans h'.l.symm⟩

theorem waveSums_perm {multi : Bool} {i : ℚ} {w : Wave} {as bs : List Assigned} (h : as.Perm bs) :
    waveSums multi i E (w, as) = waveSums multi i E (w, bs) := by
  unfold waveSums
  rw [resonantElastic_perm h, captureSum_perm h, fissionSum_perm h]

/-- The sums over the partial waves of two orders of an evaluation. -/
theorem waves_relisted {p p' : BreitWigner} {A : ℝ} {ws ws' : List (Wave × List Assigned)}
    (hs : SameBreitWigner p p')
    (h : List.Forall₂ (fun lv w => lv.l ≤ 4 ∧
      IsWave (neutronWaveNumber c.value A) channel scattering E lv w.1 w.2) p.lValues ws)
    (h' : List.Forall₂ (fun lv w => lv.l ≤ 4 ∧
      IsWave (neutronWaveNumber c.value A) channel scattering E lv w.1 w.2) p'.lValues ws')
    (multi : Bool) (i : ℚ) (f : ℝ × ℝ × ℝ → ℝ) :
    (ws.map fun w => f (waveSums multi i E w)).sum = (ws'.map fun w => f (waveSums multi i E w)).sum := by
  obtain ⟨zs, s3, s4⟩ := hs.lValues
  obtain ⟨vs, v1, v2⟩ := relate_along (P' := fun (lv : BreitWignerLValue) (w : Wave × List Assigned) =>
      lv.l ≤ 4 ∧ IsWave (neutronWaveNumber c.value A) channel scattering E lv w.1 w.2)
      (V := fun w w' => w.1 = w'.1 ∧ w.2.Perm w'.2) s3 h (by
    rintro y z ⟨w, as⟩ hyz ⟨h4, hw⟩
    dsimp only at hw ⊢
    obtain ⟨bs, k1, k2, -⟩ := perm_along hyz.resonances hw.resonances
    refine ⟨⟨w, bs⟩, ⟨hyz.l ▸ h4, ?_⟩, rfl, k2⟩
    have hl := hyz.l
    have ho : competitiveOffset z = competitiveOffset y := by
      unfold competitiveOffset
      rw [hyz.qx, hyz.awri]
    have hx := hyz.lrx
    refine ⟨by rw [← hl]; exact hw.l, by rw [← hl]; exact hw.own, by rw [← hl]; exact hw.phase,
      by rw [← hl, ← hx, ho]; exact hw.competitive, k1.imp fun r a ha => ?_⟩
    exact ⟨ha.J, ha.energy, ha.elastic, ha.capture, ha.fission, by rw [← hx]; exact ha.competition,
      by rw [← hx, ← hl]; exact ha.own, by rw [← hx, ← hl, ho]; exact ha.competitive⟩)
  obtain ⟨us, u1, u2, -⟩ := perm_along s4 v1
  refine (map_sum_related v2 ?_).trans (((u2.map _).sum_eq).trans (map_sum_unique u1 h' ?_))
  · rintro ⟨w, as⟩ ⟨w', bs⟩ ⟨g1, g2⟩
    dsimp only at g1 g2
    subst g1
    rw [waveSums_perm g2]
  · rintro lv w w' ⟨-, g1⟩ ⟨-, g2⟩
    rw [waveSums_unique g1 g2]

theorem waveSums_single {i : ℚ} (w : Wave × List Assigned) :
    (waveSums false i E w).1 = singleElastic i E w.1 w.2 := by
  simp [waveSums, resonantElastic]

theorem waveSums_multi {i : ℚ} (w : Wave × List Assigned) :
    (waveSums true i E w).1 = multiElastic i E w.1 w.2 := by
  simp [waveSums, resonantElastic]

theorem first_awri {p p' : BreitWigner} {A : ℝ} (hs : SameBreitWigner p p')
    (hA : ∀ lv ∈ p.lValues, lv.awri = A) : ∀ lv ∈ p'.lValues, lv.awri = A := by
  intro lv hlv
  obtain ⟨y, hy, hyz⟩ := Relisted.mem hs.lValues hlv
  rw [← hyz.awri]
  exact hA y hy

/-- C93 for the older single-level code: two orders of an evaluation give the same cross sections. -/
theorem C93_old_single {p p' : BreitWigner} {A : ℝ}
    {sort sort' : Old.Sorting Old.Resonance.statisticalFactor} {S S' : Old.System}
    (hs : SameBreitWigner p p') (hA : ∀ lv ∈ p.lValues, lv.awri = A)
    (h : Old.build c sort .single p channel scattering = .ok S)
    (h' : Old.build c sort' .single p' channel scattering = .ok S')
    (hx : S.evaluate c .single E = .ok x) (hx' : S'.evaluate c .single E = .ok x') : x = x' := by
  obtain ⟨first, rest, hl, ws, w1, -, e1, e2, e3⟩ := Old.C58_single h hx
  obtain ⟨first', rest', hl', ws', w1', -, e1', e2', e3'⟩ := Old.C58_single h' hx'
  rw [hA first (by rw [hl]; simp)] at w1 e1 e2 e3
  rw [first_awri hs hA first' (by rw [hl']; simp)] at w1' e1' e2' e3'
  rw [← hs.spin] at e1' e2' e3'
  have d1 := waves_relisted hs w1 w1' false p.spin fun t => t.1
  have d2 := waves_relisted hs w1 w1' false p.spin fun t => t.2.1
  have d3 := waves_relisted hs w1 w1' false p.spin fun t => t.2.2
  simp only [waveSums_single] at d1
  ext
  · rw [e1, e1', d1]
  · rw [e2, e2']
    exact congrArg _ d2
  · rw [e3, e3']
    exact congrArg _ d3

/-- C93 for the older multi-level code: two orders of an evaluation give the same cross sections, up to the
rounding of the decimals in its table. -/
theorem C93_old_multi {p p' : BreitWigner} {A : ℝ}
    {sort sort' : Old.Sorting Old.Resonance.statisticalFactor} {S S' : Old.System}
    (hs : SameBreitWigner p p') (hA : ∀ lv ∈ p.lValues, lv.awri = A) (hI : HalfInt p.spin)
    (h : Old.build c sort .multi p channel scattering = .ok S)
    (h' : Old.build c sort' .multi p' channel scattering = .ok S')
    (hx : S.evaluate c .multi E = .ok x) (hx' : S'.evaluate c .multi E = .ok x') :
    x.capture = x'.capture ∧ x.fission = x'.fission ∧ |x.elastic - x'.elastic|
      ≤ Real.pi / neutronWaveNumber c.value A E ^ 2 * (8 * p.lValues.length / 10 ^ 15) := by
  obtain ⟨first, rest, hl, ws, w1, -, e1, e2, e3⟩ := Old.C58_multi hI h hx
  obtain ⟨first', rest', hl', ws', w1', -, e1', e2', e3'⟩ := Old.C58_multi (hs.spin ▸ hI) h' hx'
  rw [hA first (by rw [hl]; simp)] at w1 e1 e2 e3
  rw [first_awri hs hA first' (by rw [hl']; simp)] at w1' e1' e2' e3'
  rw [← hs.spin] at e1' e2' e3'
  have d1 := waves_relisted hs w1 w1' true p.spin fun t => t.1
  have d2 := waves_relisted hs w1 w1' true p.spin fun t => t.2.1
  have d3 := waves_relisted hs w1 w1' true p.spin fun t => t.2.2
  simp only [waveSums_multi] at d1
  refine ⟨?_, ?_, ?_⟩
  · rw [e2, e2']
    exact congrArg _ d2
  · rw [e3, e3']
    exact congrArg _ d3
  · rw [← w1.length_eq] at e1
    rw [← w1'.length_eq, ← Relisted.length_eq hs.lValues, ← d1] at e1'
    rw [abs_sub_comm] at e1'
    refine (abs_sub_le _ _ _).trans ((add_le_add e1 e1').trans (le_of_eq ?_))
    ring

/-! ## Acceptance -/

theorem relisted_nonempty {α β : Type} {r : α → β → Prop} {xs : List α} {ys : List β} (h : Relisted r xs ys)
    (hx : xs ≠ []) : ys ≠ [] := by
  intro hy
  have := Relisted.length_eq h
  rw [hy] at this
  exact hx (List.eq_nil_of_length_eq_zero this)

/-- C93 for the older code: whether a Breit-Wigner evaluation makes sense physically does not depend on the
order, so that it is accepted in every order, by `Old.C58_exists`. -/
theorem C93_old_accepted {p p' : BreitWigner} {level : Old.Level}
    {sort sort' : Old.Sorting Old.Resonance.statisticalFactor} (hs : SameBreitWigner p p')
    (h : Old.Physical p channel scattering) :
    ∃ S S', Old.build c sort level p channel scattering = .ok S ∧
      Old.build c sort' level p' channel scattering = .ok S' ∧
      ∀ E, E ≠ 0 → ∃ x x', S.evaluate c level E = .ok x ∧ S'.evaluate c level E = .ok x' := by
  have h' : Old.Physical p' channel scattering := by
    refine ⟨hs.spin ▸ h.spin, relisted_nonempty hs.lValues h.nonempty, fun lv hlv => ?_, fun lv hlv => ?_,
      h.channel, h.scattering, fun lv hlv r hr => ?_, fun lv hlv r hr => ?_⟩ <;>
    obtain ⟨y, hy, hyz⟩ := Relisted.mem hs.lValues hlv
    · rw [← hyz.awri]; exact h.awri y hy
    · rw [← hyz.l]; exact h.l y hy
    · have := h.energies y hy r (hyz.resonances.mem_iff.mpr hr)
      unfold competitiveOffset at this ⊢
      rw [← hyz.lrx, ← hyz.qx, ← hyz.awri]
      exact this
    · exact h.widths y hy r (hyz.resonances.mem_iff.mpr hr)
  obtain ⟨S, s1, s2⟩ := Old.C58_exists (c := c) (sort := sort) (level := level) h
  obtain ⟨S', s1', s2'⟩ := Old.C58_exists (c := c) (sort := sort') (level := level) h'
  refine ⟨S, S', s1, s1', fun E hE => ?_⟩
  obtain ⟨x, hx⟩ := s2 E hE
  obtain ⟨x', hx'⟩ := s2' E hE
  exact ⟨x, x', hx, hx'⟩

/-- C93 for the older code: a Reich-Moore evaluation that makes sense physically is accepted in every
order. -/
theorem C93_old_reich_moore_accepted {p p' : ReichMoore} {tag : Old.ReichMoore.Tag}
    {sort sort' : Old.Sorting Old.ReichMoore.Resonance.flaggedStatisticalFactor} (hs : SameReichMoore p p')
    (h : Old.ReichMoore.Physical p channel scattering) :
    ∃ S S', Old.ReichMoore.build c sort p tag channel scattering tag.channel? = .ok S ∧
      Old.ReichMoore.build c sort' p' tag channel scattering tag.channel? = .ok S' ∧
      ∀ E, 0 < E → ∃ x x', S.evaluate c E = .ok x ∧ S'.evaluate c E = .ok x' := by
  have h' : Old.ReichMoore.Physical p' channel scattering := by
    refine ⟨hs.spin ▸ h.spin, relisted_nonempty hs.lValues h.nonempty, fun lv hlv => ?_, fun lv hlv => ?_,
      fun lv hlv => ?_, h.channel, h.scattering, fun lv hlv r hr => ?_, fun lv hlv r hr => ?_⟩ <;>
    obtain ⟨y, hy, hyz⟩ := Relisted.mem hs.lValues hlv
    · rw [← hyz.awri]; exact h.awri y hy
    · rw [← hyz.l]; exact h.l y hy
    · rw [← hyz.apl]; exact h.apl y hy
    · exact h.energies y hy r (hyz.resonances.mem_iff.mpr hr)
    · exact h.widths y hy r (hyz.resonances.mem_iff.mpr hr)
  obtain ⟨S, s1, s2⟩ := Old.ReichMoore.C59_exists (c := c) (sort := sort) (tag := tag)
    (use := tag.channel?) h
  obtain ⟨S', s1', s2'⟩ := Old.ReichMoore.C59_exists (c := c) (sort := sort') (tag := tag)
    (use := tag.channel?) h'
  refine ⟨S, S', s1, s1', fun E hE => ?_⟩
  obtain ⟨x, hx⟩ := s2 E hE
  obtain ⟨x', hx'⟩ := s2' E hE
  exact ⟨x, x', hx, hx'⟩

/-! ## Examples -/

/-- Two s-wave resonances and a p-wave resonance with a competitive reaction, turned round. -/
example (sort sort' : Old.Sorting Old.Resonance.statisticalFactor) : ∃ S S' x,
    Old.build c sort .single Old.exampleEvaluation (Old.constantRadius 0.6) (Old.constantRadius 0.6) = .ok S ∧
    Old.build c sort' .single Old.exampleEvaluation.reversed (Old.constantRadius 0.6)
      (Old.constantRadius 0.6) = .ok S' ∧
    S.evaluate c .single 20 = .ok x ∧ S'.evaluate c .single 20 = .ok x := by
  obtain ⟨S, S', h1, h2, h3⟩ := C93_old_accepted (c := c) (sort := sort) (sort' := sort')
    (level := .single) (BreitWigner.reversed_same _) Old.example_physical
  obtain ⟨x, x', hx, hx'⟩ := h3 20 (by norm_num)
  obtain rfl := C93_old_single (A := 100) (BreitWigner.reversed_same _) (by simp [Old.exampleEvaluation])
    h1 h2 hx hx'
  exact ⟨S, S', x, h1, h2, hx, hx'⟩

/-- With the multi-level formula. -/
example (sort sort' : Old.Sorting Old.Resonance.statisticalFactor) : ∃ S S' x x',
    Old.build c sort .multi Old.exampleEvaluation (Old.constantRadius 0.6) (Old.constantRadius 0.6) = .ok S ∧
    Old.build c sort' .multi Old.exampleEvaluation.reversed (Old.constantRadius 0.6)
      (Old.constantRadius 0.6) = .ok S' ∧
    S.evaluate c .multi 20 = .ok x ∧ S'.evaluate c .multi 20 = .ok x' ∧ x.capture = x'.capture := by
  obtain ⟨S, S', h1, h2, h3⟩ := C93_old_accepted (c := c) (sort := sort) (sort' := sort')
    (level := .multi) (BreitWigner.reversed_same _) Old.example_physical
  obtain ⟨x, x', hx, hx'⟩ := h3 20 (by norm_num)
  exact ⟨S, S', x, x', h1, h2, hx, hx', (C93_old_multi (A := 100) (BreitWigner.reversed_same _)
    (by simp [Old.exampleEvaluation]) Old.example_physical.spin h1 h2 hx hx').1⟩

/-- A Reich-Moore evaluation with fission, turned round. -/
example (sort sort' : Old.Sorting Old.ReichMoore.Resonance.flaggedStatisticalFactor)
    (tag : Old.ReichMoore.Tag) : ∃ S S' x,
    Old.ReichMoore.build c sort Formats.Example.evaluation tag (fun _ => .ok 1) (fun _ => .ok 1)
      tag.channel? = .ok S ∧
    Old.ReichMoore.build c sort' Formats.Example.evaluation.reversed tag (fun _ => .ok 1) (fun _ => .ok 1)
      tag.channel? = .ok S' ∧
    S.evaluate c 5 = .ok x ∧ S'.evaluate c 5 = .ok x := by
  obtain ⟨S, S', h1, h2, h3⟩ := C93_old_reich_moore_accepted (c := c) (sort := sort) (sort' := sort')
    (tag := tag) (ReichMoore.reversed_same _) (FissionExample.old_physical (.inl rfl))
  obtain ⟨x, x', hx, hx'⟩ := h3 5 (by norm_num)
  obtain rfl := C93_old_reich_moore (A := (Formats.Example.evaluation.lValues.map (·.awri)).headD 0)
    (ReichMoore.reversed_same _) (by norm_num [Formats.Example.evaluation])
    (by norm_num [Formats.Example.evaluation]) (by norm_num [Formats.Example.evaluation]) h1 h2 hx hx'
  exact ⟨S, S', x, h1, h2, hx, hx'⟩

end Verif.Endf
