import Verif.Props.SensitivityRange

/-!
# C114: average cross sections depend on the average widths relative to the level spacing alone
-/

namespace Verif.Unresolved

open Spec

/-- The spacing and all widths of `t'` are `s` times those of `t`. -/
structure Proportional (s : ℝ) (t t' : Resonance) : Prop where
  energy : t'.energy = t.energy
  spacing : t'.spacing = s * t.spacing
  elastic : t'.elastic = s * t.elastic
  capture : t'.capture = s * t.capture
  fission : t'.fission = s * t.fission
  competition : t'.competition = s * t.competition

/-- The second group has the channel and the degrees of freedom of the first. At the energy the widths are the
same in relation to the level spacing. -/
structure SameStrength (E : ℝ) (g g' : SpinGroup) : Prop where
  channel : g'.channel = g.channel
  degrees : g'.table.degrees = g.table.degrees
  parameters : ∀ t, g.table.call E = .ok t → ∃ s t', s ≠ 0 ∧ g'.table.call E = .ok t' ∧ Proportional s t t'

variable {K : Constants} {lib : CoulombLibrary} {E : ℝ}

/-- C114: if a spin group can be evaluated, then a group with the same ratios of average widths and level spacing
adds the same to the cross sections. -/
theorem C114_spin_group {g g' g₁ : SpinGroup} {m m₁ : LegacyMap} (hs : SameStrength E g g')
    (hu : Unsigned g.table.degrees) (h : g.evaluate K lib E m = .ok (m₁, g₁)) :
    g₁ = g ∧ g'.evaluate K lib E m = .ok (m₁, g') := by
  obtain ⟨P, φ, R, t, r, hP, hφ, hr, ht, hg, hk, hR0, hE, hD, hint, -⟩ := evaluate_ok h
  refine ⟨hg, ?_⟩
  obtain ⟨s, t', s0, ht', -, p1, p2, p3, p4, p5⟩ := hs.parameters t ht
  have hint' := C56_scaling hu s0 hint
  simp only at hint'
  have hbad : ¬(g.channel.waveNumber K E = 0 ∨ g.channel.waveNumber K E * R = 0 ∨ E < 0 ∨ t.spacing = 0) := by
    push Not
    exact ⟨hk, mul_ne_zero hk hR0, hE, hD⟩
  have hbad' : ¬(g.channel.waveNumber K E = 0 ∨ g.channel.waveNumber K E * R = 0 ∨ E < 0
      ∨ t'.spacing = 0) := by
    push Not
    exact ⟨hk, mul_ne_zero hk hR0, hE, by rw [p1]; exact mul_ne_zero s0 hD⟩
  have ew : t'.elastic * Real.sqrt E * (g.table.degrees.elastic * P / (g.channel.waveNumber K E * R))
      = s * (t.elastic * Real.sqrt E * (g.table.degrees.elastic * P / (g.channel.waveNumber K E * R))) := by
    rw [p2]; ring
  unfold SpinGroup.evaluate at h ⊢
  simp only [hP, hφ, hr, ht, Bind.bind, Except.bind] at h
  rw [if_neg hbad, hint] at h
  simp only [hs.channel, hP, hφ, hr, ht', Bind.bind, Except.bind, hs.degrees]
  rw [if_neg hbad', ew, p3, p4, p5, hint']
  simp only [pure, Except.pure, Except.ok.injEq, Prod.mk.injEq] at h ⊢
  refine ⟨?_, trivial⟩
  rw [← h.1]
  generalize t.elastic * Real.sqrt E * (g.table.degrees.elastic * P / (g.channel.waveNumber K E * R)) = w
  have e1 : ∀ q c : ℝ, q * (g.channel.spinFactor / t'.spacing * (s * w * (s * w * (r.elastic / s) - c)))
      = q * (g.channel.spinFactor / t.spacing * (w * (w * r.elastic - c))) := by
    intro q c
    rw [p1]
    field_simp
  have e2 : ∀ q a b : ℝ, q * g.channel.spinFactor / t'.spacing * (s * w * (s * a) * (b / s))
      = q * g.channel.spinFactor / t.spacing * (w * a * b) := by
    intro q a b
    rw [p1]
    field_simp
  have e3 : s * t.fission ≠ 0 ↔ t.fission ≠ 0 := by simp [s0]
  simp only [e1, e2, e3]

open LegacySystem in
theorem groups_strength {gs hs : List SpinGroup} (hi : List.Forall₂ (SameStrength E) gs hs) :
    ∀ {m m₁ : LegacyMap} {gs' : List SpinGroup}, (∀ g ∈ gs, Unsigned g.table.degrees) →
      evaluateGroups (fun g => g.evaluate K lib E) gs m = .ok (m₁, gs') →
      gs' = gs ∧ evaluateGroups (fun g => g.evaluate K lib E) hs m = .ok (m₁, hs) := by
  induction hi with
  | nil =>
    intro m m₁ gs' _ h
    cases h
    exact ⟨rfl, rfl⟩
  | cons hg _ ih =>
    intro m m₁ gs' hu h
    obtain ⟨n, g₁, rest, a, b, rfl⟩ := evaluateGroups_cons_ok.mp h
    obtain ⟨rfl, i1⟩ := C114_spin_group hg (hu _ List.mem_cons_self) a
    obtain ⟨rfl, i2⟩ := ih (fun g hg => hu g (List.mem_cons_of_mem _ hg)) b
    exact ⟨rfl, evaluateGroups_cons_ok.mpr ⟨n, _, _, i1, i2, rfl⟩⟩

/-- C114 for a compound system of the unresolved resonance region. -/
theorem C114_system {s s₁ s' : LegacySystem SpinGroup} (hu : ∀ g ∈ s.groups, Unsigned g.table.degrees)
    {start m : LegacyMap} (hl : s'.lmax = s.lmax) (hs : List.Forall₂ (SameStrength E) s.groups s'.groups)
    (h : s.evaluate K lib SpinGroup.channel (fun g => g.evaluate K lib E) E start = .ok (m, s₁)) :
    s'.evaluate K lib SpinGroup.channel (fun g => g.evaluate K lib E) E start = .ok (m, s') := by
  obtain ⟨n, f, rest, R, v, a, -, b, hk, c, rfl⟩ := LegacySystem.evaluate_ok h
  obtain ⟨e1, e2⟩ := groups_strength hs hu a
  obtain ⟨gs', lmax'⟩ := s'
  subst hl
  rw [← e1] at hs
  cases hs with
  | cons h1 h2 =>
    rw [← h1.channel] at b hk c ⊢
    exact LegacySystem.evaluate_of e2 b hk c

/-- The integrals with all widths multiplied by the same factor. -/
theorem averages_scaled {w : Data ℝ} {s : ℝ} {A B C : Distribution} :
    averages ⟨s * w.elastic, s * w.capture, s * w.fission, s * w.competition⟩ A B C
      = ⟨(averages w A B C).elastic / s, (averages w A B C).capture / s, (averages w A B C).fission / s,
        (averages w A B C).competition / s⟩ := by
  have e1 : ∀ a b c, totalWidth ⟨s * w.elastic, s * w.capture, s * w.fission, s * w.competition⟩ a b c
      = s * totalWidth w a b c := by
    intro a b c
    unfold totalWidth
    ring
  have e3 : ∀ (A B C : Distribution) (f : ℝ → ℝ → ℝ → ℝ),
      average₃ A B C (fun a b c => f a b c / (s * totalWidth w a b c))
      = average₃ A B C (fun a b c => f a b c / totalWidth w a b c) / s := by
    intro A B C f
    rw [div_eq_inv_mul, ← average₃_mul]
    refine average₃_congr fun a _ b _ c _ => ?_
    rw [mul_comm s, ← div_div, div_eq_inv_mul _ s]
  simp only [averages, e1, e3]

namespace Example

/-- The table with a level spacing and widths that are three times as large. -/
noncomputable def tripled : SpinGroup :=
  ⟨group.channel, ⟨table.resonances, table.degrees, fun e => (3 * ·) <$> table.spacing e,
    fun e => (3 * ·) <$> table.elastic e, fun e => (3 * ·) <$> table.capture e,
    fun e => (3 * ·) <$> table.fission e, fun e => (3 * ·) <$> table.competition e⟩⟩

end Example

/-- The group with fission and competition of C39 and one with a triple spacing and triple widths. -/
example (lib : CoulombLibrary) (m : LegacyMap) : ∃ m₁,
    Example.group.evaluate Verif.Example.constants lib 2 m = .ok (m₁, Example.group) ∧
    Example.tripled.evaluate Verif.Example.constants lib 2 m = .ok (m₁, Example.tripled) := by
  obtain ⟨m₁, h₁⟩ := Example.evaluates lib m
  refine ⟨m₁, h₁, (C114_spin_group (g := Example.group) (g' := Example.tripled) ⟨rfl, rfl, fun t ht => ?_⟩
    ⟨by decide, by decide, by decide, by decide⟩ h₁).2⟩
  obtain rfl := Except.ok.inj (Example.table_call.symm.trans ht)
  refine ⟨3, ⟨2, 3 * Example.parameters.spacing, 3 * Example.parameters.elastic,
    3 * Example.parameters.capture, 3 * Example.parameters.fission, 3 * Example.parameters.competition⟩,
    by norm_num, ?_, ⟨rfl, rfl, rfl, rfl, rfl, rfl⟩⟩
  have h : ∀ a b : ℝ, Example.linearAt [(1, a), (100, b)] 2
      = .ok (a + (b - a) * ((2 - 1) / (100 - 1))) := by
    intro a b
    rw [Example.linearAt, if_pos (by norm_num)]
  unfold Table.call Example.tripled Example.table Example.parameters
  simp only [h, bind, Except.bind, pure, Except.pure, Functor.map, Except.map, Except.ok.injEq,
    Resonance.mk.injEq, true_and]
  norm_num

end Verif.Unresolved

namespace Verif.Endf

open Spec Averages Unresolved

variable {K : Constants} {lib : CoulombLibrary} {tables : InterpolationLibrary} {reactions : ReactionLibrary}
  {initialBreitWigner : Channel → Verif.BreitWigner.Cache}
  {initial : (g : SpinGroup) → MatrixCache g.channels.length}
  {neutronMass elementaryCharge A E : ℝ} {incident target : Str} {range : Range} {R R' R₁ R₁' : Reconstructor}
  {m m' : ReactionMap} {nro : Option (ℝ → Outcome ℝ)}

/-- The average parameters of one l and J: the second have the spacing and all widths of the first times a
positive factor. -/
structure RescaledGroup (g g' : AverageGroup) : Prop where
  l : g.l = g'.l
  J : g.J = g'.J
  degrees : g.degrees = g'.degrees
  rows : ∃ s > 0, List.Forall₂ (Proportional s) g.rows g'.rows

/-- The average parameters of two ranges with the same ratios of widths and spacings. -/
structure RescaledAverages (d d' : AverageParameters) : Prop where
  spin : d.spin = d'.spin
  ap : d.ap = d'.ap
  awri : d.awri = d'.awri
  groups : List.Forall₂ RescaledGroup d.groups d'.groups

theorem rescaled_physical {d d' : AverageParameters} (hs : RescaledAverages d d')
    (h : PhysicalAverages neutronMass A d) : PhysicalAverages neutronMass A d' := by
  refine ⟨h.mass, ⟨h.awri.1, hs.awri ▸ h.awri.2⟩, fun e => ?_, ?_, ?_, ?_, ?_, ?_⟩
  · have hg := hs.groups
    rw [e] at hg
    cases hg' : d.groups with
    | nil => exact h.some hg'
    | cons a b => rw [hg'] at hg; cases hg
  · have e : d'.groups.map (fun g => (g.l, g.J)) = d.groups.map fun g => (g.l, g.J) := by
      have hg := hs.groups
      generalize d.groups = l at hg
      generalize d'.groups = l' at hg
      induction hg with
      | nil => rfl
      | cons h1 _ ih => rw [List.map_cons, List.map_cons, ih, h1.l, h1.J]
    rw [e]
    exact h.distinct
  · intro g' hg'
    obtain ⟨g, hg, hgg⟩ := forall₂_mem_right hs.groups hg'
    rw [← hgg.l]
    exact h.l g hg
  · intro g' hg'
    obtain ⟨g, hg, hgg⟩ := forall₂_mem_right hs.groups hg'
    rw [← hgg.degrees]
    exact h.degrees g hg
  · intro g' hg'
    obtain ⟨g, hg, hgg⟩ := forall₂_mem_right hs.groups hg'
    obtain ⟨s, -, hrows⟩ := hgg.rows
    obtain ⟨h1, h2⟩ := h.rows g hg
    have e : g'.rows.map (·.energy) = g.rows.map (·.energy) := by
      clear h1 h2
      generalize g.rows = l at hrows
      generalize g'.rows = l' at hrows
      induction hrows with
      | nil => rfl
      | cons h1 _ ih => rw [List.map_cons, List.map_cons, ih, h1.energy]
    rw [e, ← hrows.length_eq]
    exact ⟨h1, h2⟩
  · intro g' hg' r' hr'
    obtain ⟨g, hg, hgg⟩ := forall₂_mem_right hs.groups hg'
    obtain ⟨s, s0, hrows⟩ := hgg.rows
    obtain ⟨r, hr, hrr⟩ := forall₂_mem_right hrows hr'
    obtain ⟨w1, w2, w3, w4, w5⟩ := h.widths g hg r hr
    rw [hrr.spacing, hrr.elastic, hrr.capture, hrr.fission, hrr.competition]
    exact ⟨by positivity, by positivity, by positivity, by positivity, by positivity⟩

/-- Parameters in between have the same ratios. -/
theorem averages_rescaled {g g' : AverageGroup} {r r' : Unresolved.Resonance} {s : ℝ}
    (hx : (g.rows.map (·.energy)).Pairwise (· < ·)) (hrows : List.Forall₂ (Proportional s) g.rows g'.rows)
    (h : IsAverage E g r) (h' : IsAverage E g' r') : Proportional s r r' := by
  obtain ⟨t, a, b, a', b', -, -, -, -, -, -, ha, hb, q, q'⟩ :=
    averages_mixed hx (fun _ _ h => h.energy) hrows h h'
  refine ⟨h'.energy.trans h.energy.symm, ?_, ?_, ?_, ?_, ?_⟩
  · rw [q.spacing, q'.spacing, ha.spacing, hb.spacing]; ring
  · rw [q.elastic, q'.elastic, ha.elastic, hb.elastic]; ring
  · rw [q.capture, q'.capture, ha.capture, hb.capture]; ring
  · rw [q.fission, q'.fission, ha.fission, hb.fission]; ring
  · rw [q.competition, q'.competition, ha.competition, hb.competition]; ring

theorem terms_rescaled {g g' : AverageGroup} {r r' : Unresolved.Resonance} {I : ℚ} {ρ s φ φ' : ℝ}
    (hs : s ≠ 0) (hl : g.l = g'.l) (hJ : g.J = g'.J) (hdeg : g.degrees = g'.degrees)
    (hφ : Real.sin φ ^ 2 = Real.sin φ' ^ 2) (h : Proportional s r r') (hD : r.spacing ≠ 0) :
    g.elasticTerm I ρ E φ r = g'.elasticTerm I ρ E φ' r' ∧ g.captureTerm I ρ E r = g'.captureTerm I ρ E r' ∧
      g.fissionTerm I ρ E r = g'.fissionTerm I ρ E r' := by
  have ew : g'.widths ρ E r' = ⟨s * (g.widths ρ E r).elastic, s * (g.widths ρ E r).capture,
      s * (g.widths ρ E r).fission, s * (g.widths ρ E r).competition⟩ := by
    unfold AverageGroup.widths
    rw [← hl, ← hdeg, h.elastic, h.capture, h.fission, h.competition]
    congr 1
    ring
  have e2 : ∀ (x : ℝ) n, fluctuations (s * x) n = fluctuations x n := by
    intro x n
    unfold fluctuations
    simp [hs]
  have ei : g'.integrals (g'.widths ρ E r') = ⟨(g.integrals (g.widths ρ E r)).elastic / s,
      (g.integrals (g.widths ρ E r)).capture / s, (g.integrals (g.widths ρ E r)).fission / s,
      (g.integrals (g.widths ρ E r)).competition / s⟩ := by
    rw [ew]
    unfold AverageGroup.integrals
    simp only [e2]
    rw [averages_scaled, ← hdeg]
  unfold AverageGroup.elasticTerm AverageGroup.captureTerm AverageGroup.fissionTerm
  rw [ei, ew, h.spacing, h.capture, h.fission, ← hJ, ← hφ]
  refine ⟨?_, ?_, ?_⟩ <;> field_simp

theorem zipWith_sum_eq {P : AverageGroup → AverageGroup → Prop} {gs gs' : List AverageGroup}
    {rs rs' : List Unresolved.Resonance} {f f' : AverageGroup → Unresolved.Resonance → ℝ}
    (hg : List.Forall₂ P gs gs') (h : List.Forall₂ (IsAverage E) gs rs)
    (h' : List.Forall₂ (IsAverage E) gs' rs')
    (hf : ∀ g ∈ gs, ∀ g' ∈ gs', ∀ r r', P g g' → IsAverage E g r → IsAverage E g' r' → f g r = f' g' r') :
    (List.zipWith f gs rs).sum = (List.zipWith f' gs' rs').sum := by
  induction hg generalizing rs rs' with
  | nil => simp
  | cons a1 _ ih =>
    cases h with
    | cons b1 b2 =>
      cases h' with
      | cons c1 c2 =>
        rw [List.zipWith_cons_cons, List.zipWith_cons_cons, List.sum_cons, List.sum_cons,
          hf _ List.mem_cons_self _ List.mem_cons_self _ _ a1 b1 c1,
          ih b2 c2 fun g hg g' hg' => hf g (List.mem_cons_of_mem _ hg) g' (List.mem_cons_of_mem _ hg')]

/-- C114 for unresolved ranges: evaluations with the same ratios of average widths and level spacings give the
same cross sections at all energies. -/
theorem C114_range {q : Endf.Parameters} {d d' : AverageParameters}
    (hR : fromENDF K lib tables reactions initialBreitWigner initial neutronMass elementaryCharge incident
      target range = .ok R)
    (hR' : fromENDF K lib tables reactions initialBreitWigner initial neutronMass elementaryCharge incident
      target { range with parameters := q } = .ok R')
    (hd : averageParameters range.lower range.upper range.parameters = some d)
    (hd' : averageParameters range.lower range.upper q = some d')
    (hA : ∀ awri ∈ d.awri, awri = A)
    (hrows : ∀ g ∈ d.groups, (g.rows.map (·.energy)).Pairwise (· < ·)) (hs : RescaledAverages d d')
    (hc : Conforms .linLin tables.linLin)
    (hn : prescribedRadii range.scatteringRadius.isSome range.naps ≠ none)
    (hE : range.lower ≤ E ∧ E ≤ range.upper) (hm : R.call K lib E = .ok (m, R₁))
    (hm' : R'.call K lib E = .ok (m', R₁')) (id : ReactionID ⊕ LegacyID) :
    (m id).getD 0 = (m' id).getD 0 := by
  obtain ⟨n1, c1, c2, a, b, φ, lmax, rs, t1, i1, i2, i3, l1, l2, p1, f1, g1, o1⟩ :=
    C67_cross_sections hR hd hA hc hn hE hm
  obtain ⟨n2, c1', c2', a', b', φ', lmax', rs', t2, i1', i2', i3', l1', l2', p1', f2, g2, o2⟩ :=
    C67_cross_sections hR' hd' (hs.awri ▸ hA) hc hn hE hm'
  obtain rfl := rel_unique t1 t2
  rw [← hs.ap] at i1'
  have hch := (isRadii_unique (e := E) i1 i1')
  obtain rfl : a = a' := Except.ok.inj (i2.symm.trans (hch.1.trans i2'))
  obtain rfl : b = b' := Except.ok.inj (i3.symm.trans (hch.2.trans i3'))
  have hg := hs.groups
  obtain rfl : lmax = lmax' := by
    apply le_antisymm
    · obtain ⟨g, hgm, rfl⟩ := l2
      obtain ⟨g', hg', hgg⟩ := forall₂_mem_left hg hgm
      rw [hgg.l]
      exact l1' g' hg'
    · obtain ⟨g', hgm, rfl⟩ := l2'
      obtain ⟨g, hg', hgg⟩ := forall₂_mem_right hg hgm
      rw [← hgg.l]
      exact l1 g hg'
  have hsin : ∀ l ≤ lmax, Real.sin (φ l) ^ 2 = Real.sin (φ' l) ^ 2 := fun l hl =>
    sin_sq_eq_of_exp ((p1 l hl).trans (p1' l hl).symm)
  generalize neutronWaveNumber (waveConstant K.hbar neutronMass) A E = k at *
  have key : ∀ g ∈ d.groups, ∀ g' ∈ d'.groups, ∀ r r', RescaledGroup g g' → IsAverage E g r →
      IsAverage E g' r' → g.elasticTerm d.spin (k * a) E (φ g.l) r
          = g'.elasticTerm d.spin (k * a) E (φ' g'.l) r' ∧
        g.captureTerm d.spin (k * a) E r = g'.captureTerm d.spin (k * a) E r' ∧
        g.fissionTerm d.spin (k * a) E r = g'.fissionTerm d.spin (k * a) E r' := by
    intro g hg g' _ r r' hgg k1 k2
    obtain ⟨s, s0, hr⟩ := hgg.rows
    refine terms_rescaled s0.ne' hgg.l hgg.J hgg.degrees ?_ (averages_rescaled (hrows g hg) hr k1 k2) k1.finite
    rw [← hgg.l]
    exact hsin g.l (l1 g hg)
  rcases id with id | id
  · rw [o1, o2]
  by_cases hid : ∃ kind, id = ⟨incident, target, kind⟩
  · obtain ⟨kind, rfl⟩ := hid
    cases kind with
    | elastic =>
      have e1 := g1.elastic
      have e2 := g2.elastic
      rw [e1, e2, ← hs.spin, zipWith_sum_eq hg f1 f2 fun g hg g' hg' r r' hgg k1 k2 =>
        (key g hg g' hg' r r' hgg k1 k2).1]
      congr 4
      refine Finset.sum_congr rfl fun l hl => ?_
      rw [hsin l (Nat.lt_succ_iff.mp (Finset.mem_range.mp hl))]
    | capture =>
      have e1 := g1.capture
      have e2 := g2.capture
      rw [e1, e2, ← hs.spin, zipWith_sum_eq hg f1 f2 fun g hg g' hg' r r' hgg k1 k2 =>
        (key g hg g' hg' r r' hgg k1 k2).2.1]
    | fission =>
      have e1 := g1.fission
      have e2 := g2.fission
      rw [e1, e2, ← hs.spin, zipWith_sum_eq hg f1 f2 fun g hg g' hg' r r' hgg k1 k2 =>
        (key g hg g' hg' r r' hgg k1 k2).2.2]
  · push Not at hid
    have e1 := g1.other id hid
    have e2 := g2.other id hid
    rw [e1, e2]

/-- C114 for unresolved ranges: if the first evaluation makes sense physically, then both are accepted, and they
have the same values at all energies of their tables. -/
theorem C114_range_accepted {q : Endf.Parameters} {d d' : AverageParameters}
    (hmakes : Makes tables.linLin) (hc : Conforms .linLin tables.linLin) (htype : range.type = 2)
    (hd : averageParameters range.lower range.upper range.parameters = some d)
    (hd' : averageParameters range.lower range.upper q = some d')
    (h : PhysicalAverages neutronMass A d) (hs : RescaledAverages d d')
    (ht : Option.Rel (IsRadiusTable tables) range.scatteringRadius nro)
    {channel scattering : ℝ → Outcome ℝ}
    (hr : IsRadii d.ap nro range.naps (A * neutronMass) channel scattering) :
    ∃ R R', fromENDF K lib tables reactions initialBreitWigner initial neutronMass elementaryCharge incident
        target range = .ok R ∧
      fromENDF K lib tables reactions initialBreitWigner initial neutronMass elementaryCharge incident
        target { range with parameters := q } = .ok R' ∧
      ∀ E, 0 < E → range.lower ≤ E ∧ E ≤ range.upper → (∃ a, 0 < a ∧ channel E = .ok a) →
        (∃ b, scattering E = .ok b) →
        (∀ g ∈ d.groups, (∃ r ∈ g.rows, r.energy ≤ E) ∧ ∃ r ∈ g.rows, E ≤ r.energy) →
        ∃ m m' R₁ R₁', R.call K lib E = .ok (m, R₁) ∧ R'.call K lib E = .ok (m', R₁') ∧
          ∀ id, (m id).getD 0 = (m' id).getD 0 := by
  have h' := rescaled_physical hs h
  obtain ⟨R, h1, h2⟩ := C67_accepted (K := K) (lib := lib) (reactions := reactions)
    (initialBreitWigner := initialBreitWigner) (initial := initial) (elementaryCharge := elementaryCharge)
    (incident := incident) (target := target) hmakes hc htype hd ht h hr
  obtain ⟨R', h3, h4⟩ := C67_accepted (K := K) (lib := lib) (reactions := reactions)
    (initialBreitWigner := initialBreitWigner) (initial := initial) (elementaryCharge := elementaryCharge)
    (incident := incident) (target := target) (range := { range with parameters := q }) hmakes hc htype hd'
    ht h' (hs.ap ▸ hr)
  have hn : prescribedRadii range.scatteringRadius.isSome range.naps ≠ none := by
    obtain ⟨a, b, hab, -⟩ := hr
    rw [rel_isSome ht, hab]
    simp
  refine ⟨R, R', h1, h3, fun E h0 hE ha hb hrow => ?_⟩
  have hrow' : ∀ g ∈ d'.groups, (∃ r ∈ g.rows, r.energy ≤ E) ∧ ∃ r ∈ g.rows, E ≤ r.energy := by
    intro g' hg'
    obtain ⟨g, hg, hgg⟩ := forall₂_mem_right hs.groups hg'
    obtain ⟨⟨r, hr, hr'⟩, u, hu, hu'⟩ := hrow g hg
    obtain ⟨s, -, hrows⟩ := hgg.rows
    obtain ⟨x, hx, hx'⟩ := forall₂_mem_left hrows hr
    obtain ⟨y, hy, hy'⟩ := forall₂_mem_left hrows hu
    exact ⟨⟨x, hx, by rw [hx'.energy]; exact hr'⟩, y, hy, by rw [hy'.energy]; exact hu'⟩
  obtain ⟨⟨m, R₁⟩, h5⟩ := h2 E h0 ha hb hrow
  obtain ⟨⟨m', R₁'⟩, h6⟩ := h4 E h0 ha hb hrow'
  exact ⟨m, m', R₁, R₁', h5, h6, C114_range h1 h3 hd hd' h.awri.2 (fun g hg => (h.rows g hg).2) hs hc hn hE
    h5 h6⟩

/-! ## Example -/

namespace StrengthExample

open UnresolvedExample

/-- The example of C67 with another unit for the spacing and widths of the second group. -/
noncomputable def rescaled : UnresolvedParameters UnresolvedDependentJ :=
  ⟨0, 1 / 2, [], [⟨0, 10, [⟨1 / 2, [⟨1, 1, 1 / 1000, 1 / 20, 1 / 100, 1 / 10⟩,
    ⟨10, 2, 1 / 500, 1 / 20, 1 / 50, 1 / 5⟩, ⟨100, 3, 1 / 400, 1 / 20, 1 / 50, 1 / 5⟩], ⟨1, 0, 2, 4⟩⟩]⟩,
    ⟨1, 10, [⟨3 / 2, [⟨1, 7, 7 / 1000, 7 / 20, 0, 0⟩, ⟨100, 14, 7 / 500, 7 / 20, 0, 0⟩], ⟨2, 0, 0, 0⟩⟩]⟩]⟩

noncomputable def rescaledAverages : AverageParameters :=
  ⟨0, 1 / 2, [10, 10], [⟨0, 1 / 2, [⟨1, 1, 1 / 1000, 1 / 20, 1 / 100, 1 / 10⟩,
    ⟨10, 2, 1 / 500, 1 / 20, 1 / 50, 1 / 5⟩, ⟨100, 3, 1 / 400, 1 / 20, 1 / 50, 1 / 5⟩], ⟨1, 0, 2, 4⟩⟩,
    ⟨1, 3 / 2, [⟨1, 7, 7 / 1000, 7 / 20, 0, 0⟩, ⟨100, 14, 7 / 500, 7 / 20, 0, 0⟩], ⟨2, 0, 0, 0⟩⟩]⟩

theorem same : RescaledAverages UnresolvedExample.averages rescaledAverages := by
  refine ⟨rfl, rfl, rfl, .cons ⟨rfl, rfl, rfl, 1, one_pos, .cons ?_ (.cons ?_ (.cons ?_ .nil))⟩
    (.cons ⟨rfl, rfl, rfl, 7, by norm_num, .cons ?_ (.cons ?_ .nil)⟩ .nil)⟩ <;>
  · constructor <;> norm_num

/-- The cross sections of both evaluations at 20 eV. -/
example :
    ∃ R R', fromENDF K lib library reactions initialBreitWigner initial 1 1 "n".toList "X".toList
        endfRange = .ok R ∧
      fromENDF K lib library reactions initialBreitWigner initial 1 1 "n".toList "X".toList
        { endfRange with parameters := .unresolvedDependent rescaled } = .ok R' ∧
      ∃ m m' R₁ R₁', R.call K lib 20 = .ok (m, R₁) ∧ R'.call K lib 20 = .ok (m', R₁') ∧
        ∀ id, (m id).getD 0 = (m' id).getD 0 := by
  obtain ⟨R, R', h1, h2, h3⟩ := C114_range_accepted (K := K) (lib := lib) (tables := library)
    (reactions := reactions) (initialBreitWigner := initialBreitWigner) (initial := initial)
    (elementaryCharge := 1) (incident := "n".toList) (target := "X".toList) (range := endfRange)
    (q := .unresolvedDependent rescaled) (d' := rescaledAverages) linear_makes linear_conforms rfl averages_eq
    rfl physical same .none
    (channel := fun _ => .ok (1 / 2)) (scattering := fun _ => .ok (1 / 2)) (BreitWignerExample.radii _)
  refine ⟨R, R', h1, h2, h3 20 (by norm_num) ⟨by norm_num [endfRange], by norm_num [endfRange]⟩
    ⟨1 / 2, by norm_num, rfl⟩ ⟨1 / 2, rfl⟩ ?_⟩
  intro g hg
  simp only [UnresolvedExample.averages, List.mem_cons, List.not_mem_nil, or_false] at hg
  rcases hg with rfl | rfl
  · exact ⟨⟨_, List.mem_cons_self, by norm_num⟩, ⟨100, 3, 1 / 400, 1 / 20, 1 / 50, 1 / 5⟩, by simp, by norm_num⟩
  · exact ⟨⟨_, List.mem_cons_self, by norm_num⟩, ⟨100, 2, 1 / 500, 1 / 20, 0, 0⟩, by simp, by norm_num⟩

end StrengthExample

end Verif.Endf
