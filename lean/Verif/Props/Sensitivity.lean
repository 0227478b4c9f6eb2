import Verif.Props.WidthFluctuations

/-!
# C112: how average cross sections depend on the average widths

An evaluator who raises an average width expects more of that reaction and less of the others. The
strength of a reaction is `Γ_n Γ_c r_c`, with the fluctuation integral `r_c` of the reaction; the average
cross section is this times a factor without widths. The widths fluctuate and the integrals are products of
quadratures, so that this is a statement about a thousand terms with their weights.
-/

namespace Verif

namespace Unresolved

open Spec

/-- Widths that vanish vanish in both sets: a width that vanishes takes no part in the quadrature. -/
def SameReactions (w w' : Data ℝ) : Prop :=
  (w.fission = 0 ↔ w'.fission = 0) ∧ (w.competition = 0 ↔ w'.competition = 0)

section

/-- The average over one resonance: the product of two widths over the total width. -/
theorem share_le {x x' g g' o o' : ℝ} (hx : 0 ≤ x) (hg : 0 ≤ g) (ho : 0 ≤ o') (hxx : x ≤ x')
    (hgg : g ≤ g') (hoo : o' ≤ o) (hp : 0 < x + g + o) (hp' : 0 < x' + g' + o') :
    x * g / (x + g + o) ≤ x' * g' / (x' + g' + o') := by
  have hx' := hx.trans hxx
  have hg' := hg.trans hgg
  rw [div_le_div_iff₀ hp hp']
  have h1 : x * x' * g ≤ x * x' * g' := mul_le_mul_of_nonneg_left hgg (mul_nonneg hx hx')
  have h2 : g * g' * x ≤ g * g' * x' := mul_le_mul_of_nonneg_left hxx (mul_nonneg hg hg')
  have h3 : x * g * o' ≤ x' * g' * o :=
    mul_le_mul (mul_le_mul hxx hgg hg hx') hoo ho (mul_nonneg hx' hg')
  linarith

theorem square_le {x x' o o' : ℝ} (hx : 0 ≤ x) (ho : 0 ≤ o') (hxx : x ≤ x') (hoo : o' ≤ o)
    (hp : 0 < x + o) (hp' : 0 < x' + o') : x * x / (x + o) ≤ x' * x' / (x' + o') := by
  have hx' := hx.trans hxx
  rw [div_le_div_iff₀ hp hp']
  have h1 : x * x' * x ≤ x * x' * x' := mul_le_mul_of_nonneg_left hxx (mul_nonneg hx hx')
  have h2 : x * x * o' ≤ x' * x' * o :=
    mul_le_mul (mul_le_mul hxx hxx hx hx') hoo ho (mul_nonneg hx' hx')
  linarith

end

section

variable {w w' r r' : Data ℝ} {degrees : Data ℕ}

/-- Two sets of widths with the same reactions are averaged over the same points, with weights and factors
that are not negative. -/
theorem same_points (hw : Nonnegative w) (hw' : Nonnegative w') (hs : SameReactions w w')
    (hu : Unsigned degrees) (h : calculateFluctuationIntegrals w degrees = .ok r)
    (h' : calculateFluctuationIntegrals w' degrees = .ok r') :
    ∃ A B C : Distribution, r = averages w A B C ∧ r' = averages w' A B C ∧
      (∀ p ∈ A, 0 ≤ p.1 ∧ 0 ≤ p.2) ∧ (∀ p ∈ B, 0 ≤ p.1 ∧ 0 ≤ p.2) ∧ (∀ p ∈ C, 0 ≤ p.1 ∧ 0 ≤ p.2) ∧
      ∀ a ∈ A, ∀ b ∈ B, ∀ c ∈ C, 0 < totalWidth w a.1 b.1 c.1 ∧ 0 < totalWidth w' a.1 b.1 c.1 := by
  have p := positive hw hu h
  have p' := positive hw' hu h'
  obtain ⟨⟨h1, h4, h5, h6⟩, -, e⟩ := integrals_ok hu h
  obtain ⟨-, -, e'⟩ := integrals_ok hu h'
  have ef : fluctuations w'.fission degrees.fission = fluctuations w.fission degrees.fission := by
    unfold fluctuations
    simp only [hs.1]
  have ex : fluctuations w'.competition degrees.competition
      = fluctuations w.competition degrees.competition := by
    unfold fluctuations
    simp only [hs.2]
  rw [ef, ex] at e' p'
  refine ⟨_, _, _, e, e', fun q hq => ?_, fun q hq => fluctuations_nonneg h5 hq,
    fun q hq => fluctuations_nonneg h6 hq, fun a ha b hb c hc => ⟨p a ha b hb c hc, p' a ha b hb c hc⟩⟩
  have := column_pos (by omega) hq
  exact ⟨this.1.le, this.2⟩

/-- C112: the strength of capture does not fall when the neutron and capture widths rise and the fission and
competitive widths fall. -/
theorem C112_capture (hw : Nonnegative w) (hw' : Nonnegative w') (hs : SameReactions w w')
    (hu : Unsigned degrees) (h : calculateFluctuationIntegrals w degrees = .ok r)
    (h' : calculateFluctuationIntegrals w' degrees = .ok r') (hn : w.elastic ≤ w'.elastic)
    (hγ : w.capture ≤ w'.capture) (hf : w'.fission ≤ w.fission) (hx : w'.competition ≤ w.competition) :
    w.elastic * w.capture * r.capture ≤ w'.elastic * w'.capture * r'.capture := by
  obtain ⟨A, B, C, rfl, rfl, hA, hB, hC, hp⟩ := same_points hw hw' hs hu h h'
  obtain ⟨n1, n2, n3, n4⟩ := hw
  obtain ⟨m1, m2, m3, m4⟩ := hw'
  simp only [averages]
  rw [← average₃_mul, ← average₃_mul]
  refine average₃_mono (fun p hp => (hA p hp).2) (fun p hp => (hB p hp).2) (fun p hp => (hC p hp).2)
    fun a ha b hb c hc => ?_
  obtain ⟨p1, p2⟩ := hp a ha b hb c hc
  have ka := (hA a ha).1
  have kb := (hB b hb).1
  have kc := (hC c hc).1
  have e1 : totalWidth w a.1 b.1 c.1
      = a.1 * w.elastic + w.capture + (b.1 * w.fission + c.1 * w.competition) := by
    unfold totalWidth
    ring
  have e2 : totalWidth w' a.1 b.1 c.1
      = a.1 * w'.elastic + w'.capture + (b.1 * w'.fission + c.1 * w'.competition) := by
    unfold totalWidth
    ring
  rw [e1] at p1 ⊢
  rw [e2] at p2 ⊢
  have := share_le (mul_nonneg ka n1) n2 (add_nonneg (mul_nonneg kb m3) (mul_nonneg kc m4))
    (mul_le_mul_of_nonneg_left hn ka) hγ
    (add_le_add (mul_le_mul_of_nonneg_left hf kb) (mul_le_mul_of_nonneg_left hx kc)) p1 p2
  calc _ = a.1 * w.elastic * w.capture
        / (a.1 * w.elastic + w.capture + (b.1 * w.fission + c.1 * w.competition)) := by ring
    _ ≤ _ := this
    _ = _ := by ring

/-- C112: the strength of fission does not fall when the neutron and fission widths rise and the capture and
competitive widths fall. -/
theorem C112_fission (hw : Nonnegative w) (hw' : Nonnegative w') (hs : SameReactions w w')
    (hu : Unsigned degrees) (h : calculateFluctuationIntegrals w degrees = .ok r)
    (h' : calculateFluctuationIntegrals w' degrees = .ok r') (hn : w.elastic ≤ w'.elastic)
    (hγ : w'.capture ≤ w.capture) (hf : w.fission ≤ w'.fission) (hx : w'.competition ≤ w.competition) :
    w.elastic * w.fission * r.fission ≤ w'.elastic * w'.fission * r'.fission := by
  obtain ⟨A, B, C, rfl, rfl, hA, hB, hC, hp⟩ := same_points hw hw' hs hu h h'
  obtain ⟨n1, n2, n3, n4⟩ := hw
  obtain ⟨m1, m2, m3, m4⟩ := hw'
  simp only [averages]
  rw [← average₃_mul, ← average₃_mul]
  refine average₃_mono (fun p hp => (hA p hp).2) (fun p hp => (hB p hp).2) (fun p hp => (hC p hp).2)
    fun a ha b hb c hc => ?_
  obtain ⟨p1, p2⟩ := hp a ha b hb c hc
  have ka := (hA a ha).1
  have kb := (hB b hb).1
  have kc := (hC c hc).1
  have e1 : totalWidth w a.1 b.1 c.1
      = a.1 * w.elastic + b.1 * w.fission + (w.capture + c.1 * w.competition) := by
    unfold totalWidth
    ring
  have e2 : totalWidth w' a.1 b.1 c.1
      = a.1 * w'.elastic + b.1 * w'.fission + (w'.capture + c.1 * w'.competition) := by
    unfold totalWidth
    ring
  rw [e1] at p1 ⊢
  rw [e2] at p2 ⊢
  have := share_le (mul_nonneg ka n1) (mul_nonneg kb n3) (add_nonneg m2 (mul_nonneg kc m4))
    (mul_le_mul_of_nonneg_left hn ka) (mul_le_mul_of_nonneg_left hf kb)
    (add_le_add hγ (mul_le_mul_of_nonneg_left hx kc)) p1 p2
  calc _ = a.1 * w.elastic * (b.1 * w.fission)
        / (a.1 * w.elastic + b.1 * w.fission + (w.capture + c.1 * w.competition)) := by ring
    _ ≤ _ := this
    _ = _ := by ring

/-- C112: the strength of competition does not fall when the neutron and competitive widths rise and the
capture and fission widths fall. -/
theorem C112_competition (hw : Nonnegative w) (hw' : Nonnegative w') (hs : SameReactions w w')
    (hu : Unsigned degrees) (h : calculateFluctuationIntegrals w degrees = .ok r)
    (h' : calculateFluctuationIntegrals w' degrees = .ok r') (hn : w.elastic ≤ w'.elastic)
    (hγ : w'.capture ≤ w.capture) (hf : w'.fission ≤ w.fission) (hx : w.competition ≤ w'.competition) :
    w.elastic * w.competition * r.competition ≤ w'.elastic * w'.competition * r'.competition := by
  obtain ⟨A, B, C, rfl, rfl, hA, hB, hC, hp⟩ := same_points hw hw' hs hu h h'
  obtain ⟨n1, n2, n3, n4⟩ := hw
  obtain ⟨m1, m2, m3, m4⟩ := hw'
  simp only [averages]
  rw [← average₃_mul, ← average₃_mul]
  refine average₃_mono (fun p hp => (hA p hp).2) (fun p hp => (hB p hp).2) (fun p hp => (hC p hp).2)
    fun a ha b hb c hc => ?_
  obtain ⟨p1, p2⟩ := hp a ha b hb c hc
  have ka := (hA a ha).1
  have kb := (hB b hb).1
  have kc := (hC c hc).1
  have e1 : totalWidth w a.1 b.1 c.1
      = a.1 * w.elastic + c.1 * w.competition + (w.capture + b.1 * w.fission) := by
    unfold totalWidth
    ring
  have e2 : totalWidth w' a.1 b.1 c.1
      = a.1 * w'.elastic + c.1 * w'.competition + (w'.capture + b.1 * w'.fission) := by
    unfold totalWidth
    ring
  rw [e1] at p1 ⊢
  rw [e2] at p2 ⊢
  have := share_le (mul_nonneg ka n1) (mul_nonneg kc n4) (add_nonneg m2 (mul_nonneg kb m3))
    (mul_le_mul_of_nonneg_left hn ka) (mul_le_mul_of_nonneg_left hx kc)
    (add_le_add hγ (mul_le_mul_of_nonneg_left hf kb)) p1 p2
  calc _ = a.1 * w.elastic * (c.1 * w.competition)
        / (a.1 * w.elastic + c.1 * w.competition + (w.capture + b.1 * w.fission)) := by ring
    _ ≤ _ := this
    _ = _ := by ring

/-- C112: the strength of compound elastic scattering does not fall when the neutron width rises and the
other widths fall. -/
theorem C112_elastic (hw : Nonnegative w) (hw' : Nonnegative w') (hs : SameReactions w w')
    (hu : Unsigned degrees) (h : calculateFluctuationIntegrals w degrees = .ok r)
    (h' : calculateFluctuationIntegrals w' degrees = .ok r') (hn : w.elastic ≤ w'.elastic)
    (hγ : w'.capture ≤ w.capture) (hf : w'.fission ≤ w.fission) (hx : w'.competition ≤ w.competition) :
    w.elastic * w.elastic * r.elastic ≤ w'.elastic * w'.elastic * r'.elastic := by
  obtain ⟨A, B, C, rfl, rfl, hA, hB, hC, hp⟩ := same_points hw hw' hs hu h h'
  obtain ⟨n1, n2, n3, n4⟩ := hw
  obtain ⟨m1, m2, m3, m4⟩ := hw'
  simp only [averages]
  rw [← average₃_mul, ← average₃_mul]
  refine average₃_mono (fun p hp => (hA p hp).2) (fun p hp => (hB p hp).2) (fun p hp => (hC p hp).2)
    fun a ha b hb c hc => ?_
  obtain ⟨p1, p2⟩ := hp a ha b hb c hc
  have ka := (hA a ha).1
  have kb := (hB b hb).1
  have kc := (hC c hc).1
  have e1 : totalWidth w a.1 b.1 c.1
      = a.1 * w.elastic + (w.capture + b.1 * w.fission + c.1 * w.competition) := by
    unfold totalWidth
    ring
  have e2 : totalWidth w' a.1 b.1 c.1
      = a.1 * w'.elastic + (w'.capture + b.1 * w'.fission + c.1 * w'.competition) := by
    unfold totalWidth
    ring
  rw [e1] at p1 ⊢
  rw [e2] at p2 ⊢
  have := square_le (mul_nonneg ka n1)
    (add_nonneg (add_nonneg m2 (mul_nonneg kb m3)) (mul_nonneg kc m4))
    (mul_le_mul_of_nonneg_left hn ka)
    (add_le_add (add_le_add hγ (mul_le_mul_of_nonneg_left hf kb)) (mul_le_mul_of_nonneg_left hx kc)) p1 p2
  calc _ = a.1 * w.elastic * (a.1 * w.elastic)
        / (a.1 * w.elastic + (w.capture + b.1 * w.fission + c.1 * w.competition)) := by ring
    _ ≤ _ := this
    _ = _ := by ring

end

/-- The parameters of two tables at an energy: no negative widths, positive spacings, and the same reactions. -/
structure Comparable (t t' : Resonance) : Prop where
  spacing : 0 < t.spacing ∧ 0 < t'.spacing
  elastic : 0 ≤ t.elastic ∧ 0 ≤ t'.elastic
  capture : 0 ≤ t.capture ∧ 0 ≤ t'.capture
  fission : 0 ≤ t.fission ∧ 0 ≤ t'.fission
  competition : 0 ≤ t.competition ∧ 0 ≤ t'.competition
  noFission : t.fission = 0 ↔ t'.fission = 0
  noCompetition : t.competition = 0 ↔ t'.competition = 0

/-- More capture is expected with the second set of parameters. -/
def FavoursCapture (t t' : Resonance) : Prop :=
  t'.spacing ≤ t.spacing ∧ t.elastic ≤ t'.elastic ∧ t.capture ≤ t'.capture ∧ t'.fission ≤ t.fission ∧
    t'.competition ≤ t.competition

/-- More fission is expected with the second set of parameters. -/
def FavoursFission (t t' : Resonance) : Prop :=
  t'.spacing ≤ t.spacing ∧ t.elastic ≤ t'.elastic ∧ t'.capture ≤ t.capture ∧ t.fission ≤ t'.fission ∧
    t'.competition ≤ t.competition

/-- More elastic scattering is expected with the second set of parameters. The neutron width and the spacing
have to be the same, since they also occur in the interference with potential scattering. -/
def FavoursElastic (t t' : Resonance) : Prop :=
  t'.spacing = t.spacing ∧ t.elastic = t'.elastic ∧ t'.capture ≤ t.capture ∧ t'.fission ≤ t.fission ∧
    t'.competition ≤ t.competition

/-- The second set of parameters favours the reaction. -/
def Favours : LegacyKind → Resonance → Resonance → Prop
  | .elastic => FavoursElastic
  | .capture => FavoursCapture
  | .fission => FavoursFission

/-- Two spin groups that differ in their tables of average parameters alone, the parameters of the second
favouring the reaction at the energy. -/
structure Improved (kind : LegacyKind) (E : ℝ) (g h : SpinGroup) : Prop where
  channel : h.channel = g.channel
  degrees : h.table.degrees = g.table.degrees
  unsigned : Unsigned g.table.degrees
  type : g.channel.type = .neutron
  radius : ∀ R, g.channel.radii.penetrability E = .ok R → 0 ≤ R
  spinFactor : 0 ≤ g.channel.spinFactor
  parameters : ∀ t t', g.table.call E = .ok t → h.table.call E = .ok t' →
    Comparable t t' ∧ Favours kind t t'

/-- C112: what this means for cross sections. A spin group adds no less to the cross section of a reaction
than another with parameters that favour the reaction less. -/
theorem C112_spin_group {K : Constants} {lib : CoulombLibrary} {E : ℝ} {g g' h h' : SpinGroup}
    {m m' m₁ m₂ : LegacyMap} {id : LegacyID} (hi : Improved id.kind E g h)
    (h₁ : g.evaluate K lib E m = .ok (m₁, g')) (h₂ : h.evaluate K lib E m' = .ok (m₂, h')) :
    (m₁ id).getD 0 - (m id).getD 0 ≤ (m₂ id).getD 0 - (m' id).getD 0 := by
  obtain ⟨hchannel, hdegrees, hu, htype, hR, hg, hpar⟩ := hi
  obtain ⟨P, φ, R, t, r, hP, hφ, hr, ht, -, hk, hR0, hE, -, hint, hm⟩ := evaluate_ok h₁
  obtain ⟨P', φ', R', t', r', hP', hφ', hr', ht', -, -, -, -, -, hint', hm'⟩ := evaluate_ok h₂
  obtain ⟨hc, hfav⟩ := hpar t t' ht ht'
  rw [hchannel] at hP' hφ' hr' hint' hm'
  rw [hdegrees] at hint' hm'
  obtain rfl : P = P' := Except.ok.inj (hP.symm.trans hP')
  obtain rfl : φ = φ' := Except.ok.inj (hφ.symm.trans hφ')
  obtain rfl : R = R' := Except.ok.inj (hr.symm.trans hr')
  have hP0 : 0 ≤ P := BreitWigner.penetrability_nonneg htype hR hP
  have hR1 := hR R hr
  have hk0 : 0 ≤ g.channel.waveNumber K E := div_nonneg (Real.sqrt_nonneg _) K.hbar_pos.le
  have hg0 : (0 : ℝ) ≤ g.channel.spinFactor := by exact_mod_cast hg
  have hv : 0 ≤ g.table.degrees.elastic * P / (g.channel.waveNumber K E * R) := by positivity
  have hpi := Real.pi_pos
  generalize g.table.degrees.elastic * P / (g.channel.waveNumber K E * R) = v at *
  have hsq := Real.sqrt_nonneg E
  generalize Real.sqrt E = q at *
  have hw : Nonnegative ⟨t.elastic * q * v, t.capture, t.fission, t.competition⟩ :=
    ⟨mul_nonneg (mul_nonneg hc.elastic.1 hsq) hv, hc.capture.1, hc.fission.1, hc.competition.1⟩
  have hw' : Nonnegative ⟨t'.elastic * q * v, t'.capture, t'.fission, t'.competition⟩ :=
    ⟨mul_nonneg (mul_nonneg hc.elastic.2 hsq) hv, hc.capture.2, hc.fission.2, hc.competition.2⟩
  have hsame : SameReactions ⟨t.elastic * q * v, t.capture, t.fission, t.competition⟩
    ⟨t'.elastic * q * v, t'.capture, t'.fission, t'.competition⟩ := ⟨hc.noFission, hc.noCompetition⟩
  have hX : 0 ≤ 2 * Real.pi ^ 2 / g.channel.waveNumber K E ^ 2 * g.channel.spinFactor := by positivity
  generalize 2 * Real.pi ^ 2 / g.channel.waveNumber K E ^ 2 * g.channel.spinFactor = X at *
  have hwidth : t.elastic ≤ t'.elastic → t.elastic * q * v ≤ t'.elastic * q * v := fun h =>
    mul_le_mul_of_nonneg_right (mul_le_mul_of_nonneg_right h hsq) hv
  obtain ⟨j1, j2, j3, -⟩ := C37_nonneg hu hw.1 hw.2.1 hw.2.2.1 hw.2.2.2 hint
  have hX' : t'.spacing ≤ t.spacing → X / t.spacing ≤ X / t'.spacing := fun h =>
    div_le_div_of_nonneg_left hX hc.spacing.2 h
  have hX0 : 0 ≤ X / t'.spacing := div_nonneg hX hc.spacing.2.le
  rw [hm, hm']
  have other : ∀ k : LegacyKind, id.kind ≠ k → id ≠ legacyID g.channel k := by
    rintro k hk rfl
    exact hk rfl
  cases hkind : id.kind with
  | elastic =>
    rw [hkind] at hfav
    obtain ⟨hD, hn, hγ, hf, hx⟩ := hfav
    rw [if_neg (other .capture (by simp [hkind])), if_neg (other .fission (by simp [hkind])),
      if_neg (other .capture (by simp [hkind])), if_neg (other .fission (by simp [hkind]))]
    by_cases hid : id = legacyID g.channel .elastic
    · rw [if_pos hid, if_pos hid]
      have k1 := C112_elastic hw hw' hsame hu hint hint' (hwidth hn.le) hγ hf hx
      rw [hD]
      rw [hD] at hX0
      rw [← hn] at k1 ⊢
      have k2 := mul_le_mul_of_nonneg_left k1 hX0
      linarith
    · rw [if_neg hid, if_neg hid]
      linarith
  | capture =>
    rw [hkind] at hfav
    obtain ⟨hD, hn, hγ, hf, hx⟩ := hfav
    rw [if_neg (other .elastic (by simp [hkind])), if_neg (other .fission (by simp [hkind])),
      if_neg (other .elastic (by simp [hkind])), if_neg (other .fission (by simp [hkind]))]
    by_cases hid : id = legacyID g.channel .capture
    · rw [if_pos hid, if_pos hid]
      have k1 := C112_capture hw hw' hsame hu hint hint' (hwidth hn) hγ hf hx
      have k2 := mul_le_mul (hX' hD) k1 (mul_nonneg (mul_nonneg hw.1 hw.2.1) j2) hX0
      linarith
    · rw [if_neg hid, if_neg hid]
      linarith
  | fission =>
    rw [hkind] at hfav
    obtain ⟨hD, hn, hγ, hf, hx⟩ := hfav
    rw [if_neg (other .elastic (by simp [hkind])), if_neg (other .capture (by simp [hkind])),
      if_neg (other .elastic (by simp [hkind])), if_neg (other .capture (by simp [hkind]))]
    by_cases hid : id = legacyID g.channel .fission
    · rw [if_pos hid, if_pos hid]
      have k1 := C112_fission hw hw' hsame hu hint hint' (hwidth hn) hγ hf hx
      have k2 := mul_le_mul (hX' hD) k1 (mul_nonneg (mul_nonneg hw.1 hw.2.2.1) j3) hX0
      linarith
    · rw [if_neg hid, if_neg hid]
      linarith

open LegacySystem in
theorem groups_le {K : Constants} {lib : CoulombLibrary} {E : ℝ} {id : LegacyID} {gs hs : List SpinGroup}
    (hi : List.Forall₂ (Improved id.kind E) gs hs) :
    ∀ {m m' m₁ m₂ : LegacyMap} {gs' hs' : List SpinGroup},
      evaluateGroups (fun g => g.evaluate K lib E) gs m = .ok (m₁, gs') →
      evaluateGroups (fun g => g.evaluate K lib E) hs m' = .ok (m₂, hs') →
      (m₁ id).getD 0 - (m id).getD 0 ≤ (m₂ id).getD 0 - (m' id).getD 0 ∧
        gs'.map SpinGroup.channel = hs'.map SpinGroup.channel := by
  induction hi with
  | nil =>
    intro m m' m₁ m₂ gs' hs' h₁ h₂
    cases h₁
    cases h₂
    simp
  | cons hg _ ih =>
    intro m m' m₁ m₂ gs' hs' h₁ h₂
    obtain ⟨n₁, g₁, rest₁, a₁, b₁, rfl⟩ := evaluateGroups_cons_ok.mp h₁
    obtain ⟨n₂, g₂, rest₂, a₂, b₂, rfl⟩ := evaluateGroups_cons_ok.mp h₂
    obtain ⟨i1, i2⟩ := ih b₁ b₂
    have i3 := C112_spin_group hg a₁ a₂
    obtain ⟨_, _, _, _, _, _, _, _, _, rfl, _⟩ := evaluate_ok a₁
    obtain ⟨_, _, _, _, _, _, _, _, _, rfl, _⟩ := evaluate_ok a₂
    refine ⟨by linarith, ?_⟩
    rw [List.map_cons, List.map_cons, i2, hg.channel]

/-- C112: the same for a compound system, whose groups differ in their tables of average parameters alone:
with parameters that favour a reaction the cross section of the reaction is not smaller. -/
theorem C112_system {K : Constants} {lib : CoulombLibrary} {E : ℝ} {s s₁ s' s₂ : LegacySystem SpinGroup}
    {m₁ m₂ : LegacyMap} {id : LegacyID} (hl : s'.lmax = s.lmax)
    (hi : List.Forall₂ (Improved id.kind E) s.groups s'.groups)
    (h₁ : s.evaluate K lib SpinGroup.channel (fun g => g.evaluate K lib E) E (fun _ => none)
      = .ok (m₁, s₁))
    (h₂ : s'.evaluate K lib SpinGroup.channel (fun g => g.evaluate K lib E) E (fun _ => none)
      = .ok (m₂, s₂)) : (m₁ id).getD 0 ≤ (m₂ id).getD 0 := by
  obtain ⟨n₁, f₁, r₁, R₁, v₁, a₁, -, b₁, -, c₁, rfl⟩ := LegacySystem.evaluate_ok h₁
  obtain ⟨n₂, f₂, r₂, R₂, v₂, a₂, -, b₂, -, c₂, rfl⟩ := LegacySystem.evaluate_ok h₂
  obtain ⟨i1, i2⟩ := groups_le hi a₁ a₂
  rw [List.map_cons, List.map_cons] at i2
  have e := (List.cons.inj i2).1
  rw [← e] at b₂ c₂ ⊢
  obtain rfl : R₁ = R₂ := Except.ok.inj (b₁.symm.trans b₂)
  rw [hl] at c₂
  obtain rfl : v₁ = v₂ := Except.ok.inj (c₁.symm.trans c₂)
  rw [LegacyMap.add_getD, LegacyMap.add_getD]
  linarith

/-- Widths with all reactions, of which capture rises and the others fall: a case of the comparison of the
integrals. -/
example : ∃ r r', calculateFluctuationIntegrals ⟨1, 1 / 10, 1 / 2, 3⟩ ⟨1, 0, 2, 4⟩ = .ok r ∧
    calculateFluctuationIntegrals ⟨2, 1 / 5, 1 / 3, 1⟩ ⟨1, 0, 2, 4⟩ = .ok r' ∧
    1 * (1 / 10) * r.capture ≤ 2 * (1 / 5) * r'.capture := by
  obtain ⟨r, hr⟩ := C37_exists (widths := ⟨1, 1 / 10, 1 / 2, 3⟩) (degrees := ⟨1, 0, 2, 4⟩)
    ⟨by decide, by decide, fun _ => by decide, fun _ => by decide⟩
    (by norm_num) (by norm_num) (by norm_num) (by norm_num) (.inl (by norm_num))
  obtain ⟨r', hr'⟩ := C37_exists (widths := ⟨2, 1 / 5, 1 / 3, 1⟩) (degrees := ⟨1, 0, 2, 4⟩)
    ⟨by decide, by decide, fun _ => by decide, fun _ => by decide⟩
    (by norm_num) (by norm_num) (by norm_num) (by norm_num) (.inl (by norm_num))
  refine ⟨r, r', hr, hr', ?_⟩
  exact C112_capture (w := ⟨1, 1 / 10, 1 / 2, 3⟩) (w' := ⟨2, 1 / 5, 1 / 3, 1⟩)
    ⟨by norm_num, by norm_num, by norm_num, by norm_num⟩
    ⟨by norm_num, by norm_num, by norm_num, by norm_num⟩ ⟨by norm_num, by norm_num⟩
    ⟨by decide, by decide, by decide, by decide⟩ hr hr' (by norm_num) (by norm_num) (by norm_num)
    (by norm_num)

namespace Example

/-- The table with twice the capture width. -/
noncomputable def moreCapture : SpinGroup :=
  ⟨group.channel, { table with capture := linearAt [(1, 1 / 10), (100, 1 / 10)] }⟩

end Example

/-- Two groups that differ in the capture width: a case of the comparison of the cross sections, with more
capture, and less fission and elastic scattering. -/
example (lib : CoulombLibrary) (m : LegacyMap) : ∃ m₁ m₂,
    Example.group.evaluate Verif.Example.constants lib 2 m = .ok (m₁, Example.group) ∧
    Example.moreCapture.evaluate Verif.Example.constants lib 2 m = .ok (m₂, Example.moreCapture) ∧
    (m₁ (legacyID Example.group.channel .capture)).getD 0
      ≤ (m₂ (legacyID Example.group.channel .capture)).getD 0 ∧
    (m₂ (legacyID Example.group.channel .fission)).getD 0
      ≤ (m₁ (legacyID Example.group.channel .fission)).getD 0 ∧
    (m₂ (legacyID Example.group.channel .elastic)).getD 0
      ≤ (m₁ (legacyID Example.group.channel .elastic)).getD 0 := by
  obtain ⟨m₁, h₁⟩ := Example.evaluates lib m
  have ht : Example.group.table.call 2 = .ok Example.parameters := Example.table_call
  have ht' : Example.moreCapture.table.call 2 = .ok { Example.parameters with capture := 1 / 10 } := by
    have h : ∀ a b : ℝ, Example.linearAt [(1, a), (100, b)] 2
        = .ok (a + (b - a) * ((2 - 1) / (100 - 1))) := by
      intro a b
      rw [Example.linearAt, if_pos (by norm_num)]
    unfold Table.call Example.moreCapture Example.table Example.parameters
    simp only [h, bind, Except.bind, pure, Except.pure, Except.ok.injEq, Resonance.mk.injEq, true_and]
    norm_num
  have hk : Example.moreCapture.channel.waveNumber Verif.Example.constants 2 = 1 :=
    BreitWigner.Example.waveNumber 0 (1 / 2) 1
  have hP : Example.moreCapture.channel.penetrability Verif.Example.constants lib 2 = .ok 1 :=
    BreitWigner.Example.penetrability lib 0 (1 / 2) 1
  have hφ : Example.moreCapture.channel.phaseShift Verif.Example.constants lib 2 = .ok 1 :=
    BreitWigner.Example.phaseShift lib 0 (1 / 2) 1
  have hR : Example.moreCapture.channel.radii.penetrability 2 = .ok 1 := rfl
  obtain ⟨m₂, h₂⟩ : ∃ m₂, Example.moreCapture.evaluate Verif.Example.constants lib 2 m
      = .ok (m₂, Example.moreCapture) := by
    obtain ⟨r, hr⟩ := C37_exists (widths := ⟨Example.parameters.elastic * Real.sqrt 2
        * (((1 : ℕ) : ℝ) * 1 / (1 * 1)), 1 / 10, Example.parameters.fission,
        Example.parameters.competition⟩) (degrees := ⟨1, 0, 2, 4⟩)
      ⟨by decide, by decide, fun _ => by decide, fun _ => by decide⟩
      (by simp only [Example.parameters]; positivity) (by norm_num)
      (by norm_num [Example.parameters]) (by norm_num [Example.parameters]) (.inr (by norm_num))
    unfold SpinGroup.evaluate
    simp only [hP, hφ, hR, ht', bind, Except.bind, hk]
    rw [if_neg (by norm_num [Example.parameters]),
      show Example.moreCapture.table.degrees = ⟨1, 0, 2, 4⟩ from rfl]
    simp only
    rw [hr]
    exact ⟨_, rfl⟩
  have hu : Unsigned Example.group.table.degrees := ⟨by decide, by decide, by decide, by decide⟩
  have hr : ∀ R, Example.group.channel.radii.penetrability 2 = .ok R → 0 ≤ R := by
    intro R hR
    have : (1 : ℝ) = R := Except.ok.inj hR
    rw [← this]
    norm_num
  have hg : 0 ≤ Example.group.channel.spinFactor := by
    show (0 : ℚ) ≤ statisticalSpinFactor (1 / 2) (1 / 2) 0
    norm_num [statisticalSpinFactor]
  have up : Improved .capture 2 Example.group Example.moreCapture := by
    refine ⟨rfl, rfl, hu, rfl, hr, hg, fun t t' h h' => ?_⟩
    obtain rfl := Except.ok.inj (ht.symm.trans h)
    obtain rfl := Except.ok.inj (ht'.symm.trans h')
    refine ⟨by constructor <;> norm_num [Example.parameters], ?_⟩
    norm_num [Favours, FavoursCapture, Example.parameters]
  have down : ∀ kind, kind ≠ .capture → Improved kind 2 Example.moreCapture Example.group := by
    intro kind hkind
    refine ⟨rfl, rfl, hu, rfl, hr, hg, fun t t' h h' => ?_⟩
    obtain rfl := Except.ok.inj (ht'.symm.trans h)
    obtain rfl := Except.ok.inj (ht.symm.trans h')
    refine ⟨by constructor <;> norm_num [Example.parameters], ?_⟩
    cases kind with
    | capture => exact absurd rfl hkind
    | elastic => norm_num [Favours, FavoursElastic, Example.parameters]
    | fission => norm_num [Favours, FavoursFission, Example.parameters]
  have a := C112_spin_group (id := legacyID Example.group.channel .capture) up h₁ h₂
  have b := C112_spin_group (id := legacyID Example.group.channel .fission) (down _ (by decide)) h₂ h₁
  have c := C112_spin_group (id := legacyID Example.group.channel .elastic) (down _ (by decide)) h₂ h₁
  exact ⟨m₁, m₂, h₁, h₂, by linarith, by linarith, by linarith⟩

end Unresolved

end Verif
