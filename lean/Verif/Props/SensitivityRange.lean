import Verif.Props.Sensitivity
import Verif.Props.Averages

/-!
# C112 for unresolved ranges: evaluations that differ in their average parameters alone
-/

namespace Verif.Endf

open Spec Averages

variable {K : Constants} {lib : CoulombLibrary} {tables : InterpolationLibrary} {reactions : ReactionLibrary}
  {initialBreitWigner : Channel → Verif.BreitWigner.Cache}
  {initial : (g : SpinGroup) → MatrixCache g.channels.length}
  {neutronMass elementaryCharge A E : ℝ} {incident target : Str} {range : Range} {R R' R₁ R₁' : Reconstructor}
  {m m' : ReactionMap} {nro : Option (ℝ → Outcome ℝ)}

/-- Two rows of average parameters at the same energy, with the same reactions, of which the second favours
the reaction. -/
structure FavouredRow (kind : LegacyKind) (r r' : Unresolved.Resonance) : Prop where
  energy : r'.energy = r.energy
  noFission : r.fission = 0 ↔ r'.fission = 0
  noCompetition : r.competition = 0 ↔ r'.competition = 0
  favours : Unresolved.Favours kind r r'

/-- The average parameters of one l and J, of which the second favour the reaction. -/
structure FavouredGroup (kind : LegacyKind) (g g' : AverageGroup) : Prop where
  l : g.l = g'.l
  J : g.J = g'.J
  degrees : g.degrees = g'.degrees
  rows : List.Forall₂ (FavouredRow kind) g.rows g'.rows

/-- The average parameters of two ranges, of which the second favour the reaction. -/
structure FavouredAverages (kind : LegacyKind) (d d' : AverageParameters) : Prop where
  spin : d.spin = d'.spin
  ap : d.ap = d'.ap
  groups : List.Forall₂ (FavouredGroup kind) d.groups d'.groups

/-! ## Interpolation -/

/-- A row with the fraction `t` of the way from one row to another. -/
structure Mixes (t : ℝ) (a b r : Unresolved.Resonance) : Prop where
  spacing : r.spacing = (1 - t) * a.spacing + t * b.spacing
  elastic : r.elastic = (1 - t) * a.elastic + t * b.elastic
  capture : r.capture = (1 - t) * a.capture + t * b.capture
  fission : r.fission = (1 - t) * a.fission + t * b.fission
  competition : r.competition = (1 - t) * a.competition + t * b.competition

theorem mixes_of_average {g : AverageGroup} {a b r : Unresolved.Resonance} {i : ℕ}
    (hx : (g.rows.map (·.energy)).Pairwise (· < ·)) (ha : g.rows[i]? = some a) (hb : g.rows[i + 1]? = some b)
    (h0 : a.energy ≤ E) (h1 : E ≤ b.energy) (h : IsAverage E g r) :
    Mixes ((E - a.energy) / (b.energy - a.energy)) a b r := by
  have key : ∀ {f : Unresolved.Resonance → ℝ} {y : ℝ},
      Interpolates .linLin (g.rows.map (·.energy)) (g.rows.map f) E y →
      y = (1 - (E - a.energy) / (b.energy - a.energy)) * f a
        + (E - a.energy) / (b.energy - a.energy) * f b := by
    intro f y hy
    have h2 : Interpolates .linLin (g.rows.map (·.energy)) (g.rows.map f) E
        (Law.between a.energy (f a) b.energy (f b) E .linLin) := by
      refine ⟨i, _, _, _, _, ?_, ?_, h0, h1, rfl⟩ <;> rw [List.zip_map', List.getElem?_map]
      · rw [ha]; rfl
      · rw [hb]; rfl
    rw [interpolates_unique (by simp) hx hy h2]
    simp only [Law.between]
    ring
  exact ⟨key h.spacing, key h.elastic, key h.capture, key h.fission, key h.competition⟩

/-- The parameters of two tables with the same energies are mixed in the same way. -/
theorem averages_mixed {P : Unresolved.Resonance → Unresolved.Resonance → Prop} {g g' : AverageGroup}
    {r r' : Unresolved.Resonance} (hx : (g.rows.map (·.energy)).Pairwise (· < ·))
    (hP : ∀ a b, P a b → b.energy = a.energy) (hrows : List.Forall₂ P g.rows g'.rows)
    (h : IsAverage E g r) (h' : IsAverage E g' r') :
    ∃ t a b a' b', 0 ≤ t ∧ t ≤ 1 ∧ a ∈ g.rows ∧ b ∈ g.rows ∧ a' ∈ g'.rows ∧ b' ∈ g'.rows ∧ P a a' ∧ P b b' ∧
      Mixes t a b r ∧ Mixes t a' b' r' := by
  have hx' : (g'.rows.map (·.energy)).Pairwise (· < ·) := by
    have e : g'.rows.map (·.energy) = g.rows.map (·.energy) := by
      clear h h' hx
      generalize g.rows = l at hrows
      generalize g'.rows = l' at hrows
      induction hrows with
      | nil => rfl
      | cons h1 _ ih => rw [List.map_cons, List.map_cons, ih, hP _ _ h1]
    rw [e]
    exact hx
  obtain ⟨i, x0, y0, x1, y1, g0, g1, b0, b1, -⟩ := h.spacing
  rw [List.zip_map', List.getElem?_map, Option.map_eq_some_iff] at g0 g1
  obtain ⟨a, ha, e0⟩ := g0
  obtain ⟨b, hb, e1⟩ := g1
  obtain ⟨rfl, rfl⟩ := Prod.mk.inj e0
  obtain ⟨rfl, rfl⟩ := Prod.mk.inj e1
  obtain ⟨i0, q0⟩ := List.getElem?_eq_some_iff.mp ha
  obtain ⟨i1, q1⟩ := List.getElem?_eq_some_iff.mp hb
  have hlen := hrows.length_eq
  have k0 := hrows.get i0 (hlen ▸ i0)
  have k1 := hrows.get i1 (hlen ▸ i1)
  simp only [List.get_eq_getElem, q0, q1] at k0 k1
  have ha' : g'.rows[i]? = some g'.rows[i] := List.getElem?_eq_getElem _
  have hb' : g'.rows[i + 1]? = some g'.rows[i + 1] := List.getElem?_eq_getElem _
  have f0 := hP _ _ k0
  have f1 := hP _ _ k1
  have m1 := mixes_of_average hx ha hb b0 b1 h
  have m2 := mixes_of_average hx' ha' hb' (by rw [f0]; exact b0) (by rw [f1]; exact b1) h'
  rw [f0, f1] at m2
  have hd : 0 ≤ b.energy - a.energy := by linarith
  exact ⟨_, a, b, _, _, div_nonneg (by linarith) hd, div_le_one_of_le₀ (by linarith) hd,
    List.mem_of_getElem? ha, List.mem_of_getElem? hb, List.mem_of_getElem? ha', List.mem_of_getElem? hb', k0, k1,
    m1, m2⟩

theorem mix_le {t a b a' b' : ℝ} (h0 : 0 ≤ t) (h1 : t ≤ 1) (ha : a ≤ a') (hb : b ≤ b') :
    (1 - t) * a + t * b ≤ (1 - t) * a' + t * b' :=
  add_le_add (mul_le_mul_of_nonneg_left ha (by linarith)) (mul_le_mul_of_nonneg_left hb h0)

theorem mix_nonneg {t a b : ℝ} (h0 : 0 ≤ t) (h1 : t ≤ 1) (ha : 0 ≤ a) (hb : 0 ≤ b) :
    0 ≤ (1 - t) * a + t * b :=
  add_nonneg (mul_nonneg (by linarith) ha) (mul_nonneg h0 hb)

theorem mix_pos {t a b : ℝ} (h0 : 0 ≤ t) (h1 : t ≤ 1) (ha : 0 < a) (hb : 0 < b) :
    0 < (1 - t) * a + t * b := by
  rcases h0.eq_or_lt with rfl | h
  · simpa using ha
  · exact add_pos_of_nonneg_of_pos (mul_nonneg (by linarith) ha.le) (mul_pos h hb)

theorem mix_zero {t a b a' b' : ℝ} (h0 : 0 ≤ t) (h1 : t ≤ 1) (ha : 0 ≤ a) (hb : 0 ≤ b) (ha' : 0 ≤ a')
    (hb' : 0 ≤ b') (ea : a = 0 ↔ a' = 0) (eb : b = 0 ↔ b' = 0) :
    (1 - t) * a + t * b = 0 ↔ (1 - t) * a' + t * b' = 0 := by
  rw [add_eq_zero_iff_of_nonneg (mul_nonneg (by linarith) ha) (mul_nonneg h0 hb),
    add_eq_zero_iff_of_nonneg (mul_nonneg (by linarith) ha') (mul_nonneg h0 hb'), mul_eq_zero, mul_eq_zero,
    mul_eq_zero, mul_eq_zero, ea, eb]

/-- Parameters in between favour the reaction as well. -/
theorem mixed_favours {kind : LegacyKind} {t : ℝ} {a b r a' b' r' : Unresolved.Resonance} (h0 : 0 ≤ t)
    (h1 : t ≤ 1) (m : Mixes t a b r) (m' : Mixes t a' b' r') (ha : Unresolved.Favours kind a a')
    (hb : Unresolved.Favours kind b b') : Unresolved.Favours kind r r' := by
  cases kind with
  | elastic =>
    obtain ⟨a1, a2, a3, a4, a5⟩ := ha
    obtain ⟨b1, b2, b3, b4, b5⟩ := hb
    refine ⟨?_, ?_, ?_, ?_, ?_⟩
    · rw [m.spacing, m'.spacing, a1, b1]
    · rw [m.elastic, m'.elastic, a2, b2]
    · rw [m.capture, m'.capture]; exact mix_le h0 h1 a3 b3
    · rw [m.fission, m'.fission]; exact mix_le h0 h1 a4 b4
    · rw [m.competition, m'.competition]; exact mix_le h0 h1 a5 b5
  | capture =>
    obtain ⟨a1, a2, a3, a4, a5⟩ := ha
    obtain ⟨b1, b2, b3, b4, b5⟩ := hb
    refine ⟨?_, ?_, ?_, ?_, ?_⟩
    · rw [m.spacing, m'.spacing]; exact mix_le h0 h1 a1 b1
    · rw [m.elastic, m'.elastic]; exact mix_le h0 h1 a2 b2
    · rw [m.capture, m'.capture]; exact mix_le h0 h1 a3 b3
    · rw [m.fission, m'.fission]; exact mix_le h0 h1 a4 b4
    · rw [m.competition, m'.competition]; exact mix_le h0 h1 a5 b5
  | fission =>
    obtain ⟨a1, a2, a3, a4, a5⟩ := ha
    obtain ⟨b1, b2, b3, b4, b5⟩ := hb
    refine ⟨?_, ?_, ?_, ?_, ?_⟩
    · rw [m.spacing, m'.spacing]; exact mix_le h0 h1 a1 b1
    · rw [m.elastic, m'.elastic]; exact mix_le h0 h1 a2 b2
    · rw [m.capture, m'.capture]; exact mix_le h0 h1 a3 b3
    · rw [m.fission, m'.fission]; exact mix_le h0 h1 a4 b4
    · rw [m.competition, m'.competition]; exact mix_le h0 h1 a5 b5

/-- What is required of the rows of a table. -/
def GoodRow (r : Unresolved.Resonance) : Prop :=
  0 < r.spacing ∧ 0 ≤ r.elastic ∧ 0 < r.capture ∧ 0 ≤ r.fission ∧ 0 ≤ r.competition

theorem mixed_comparable {kind : LegacyKind} {t : ℝ} {a b r a' b' r' : Unresolved.Resonance} (h0 : 0 ≤ t)
    (h1 : t ≤ 1) (m : Mixes t a b r) (m' : Mixes t a' b' r') (ha : GoodRow a) (hb : GoodRow b)
    (ha' : GoodRow a') (hb' : GoodRow b') (fa : FavouredRow kind a a') (fb : FavouredRow kind b b') :
    Unresolved.Comparable r r' ∧ 0 < r.capture ∧ 0 < r'.capture := by
  obtain ⟨a1, a2, a3, a4, a5⟩ := ha
  obtain ⟨b1, b2, b3, b4, b5⟩ := hb
  obtain ⟨c1, c2, c3, c4, c5⟩ := ha'
  obtain ⟨d1, d2, d3, d4, d5⟩ := hb'
  have k1 : 0 < r.capture := by rw [m.capture]; exact mix_pos h0 h1 a3 b3
  have k2 : 0 < r'.capture := by rw [m'.capture]; exact mix_pos h0 h1 c3 d3
  refine ⟨⟨⟨?_, ?_⟩, ⟨?_, ?_⟩, ⟨k1.le, k2.le⟩, ⟨?_, ?_⟩, ⟨?_, ?_⟩, ?_, ?_⟩, k1, k2⟩
  · rw [m.spacing]; exact mix_pos h0 h1 a1 b1
  · rw [m'.spacing]; exact mix_pos h0 h1 c1 d1
  · rw [m.elastic]; exact mix_nonneg h0 h1 a2 b2
  · rw [m'.elastic]; exact mix_nonneg h0 h1 c2 d2
  · rw [m.fission]; exact mix_nonneg h0 h1 a4 b4
  · rw [m'.fission]; exact mix_nonneg h0 h1 c4 d4
  · rw [m.competition]; exact mix_nonneg h0 h1 a5 b5
  · rw [m'.competition]; exact mix_nonneg h0 h1 c5 d5
  · rw [m.fission, m'.fission]; exact mix_zero h0 h1 a4 b4 c4 d4 fa.noFission fb.noFission
  · rw [m.competition, m'.competition]
    exact mix_zero h0 h1 a5 b5 c5 d5 fa.noCompetition fb.noCompetition

/-! ## The term of a group -/

theorem terms_le {kind : LegacyKind} {g g' : AverageGroup} {r r' : Unresolved.Resonance} {I : ℚ} {ρ : ℝ}
    (hl : g.l = g'.l) (hJ : g.J = g'.J) (hdeg : g.degrees = g'.degrees) (hI : 0 ≤ I) (hJ0 : 0 ≤ g.J)
    (hρ : 0 ≤ ρ) (htab : 1 ≤ g.degrees.elastic ∧ g.degrees.elastic ≤ 4 ∧ g.degrees.capture ≤ 4 ∧
      g.degrees.fission ≤ 4 ∧ g.degrees.competition ≤ 4)
    (hc : Unresolved.Comparable r r') (hγ : 0 < r.capture) (hγ' : 0 < r'.capture)
    (hf : Unresolved.Favours kind r r') :
    match kind with
    | .elastic => ∀ φ φ' : ℝ, Real.sin φ ^ 2 = Real.sin φ' ^ 2 →
        g.elasticTerm I ρ E φ r ≤ g'.elasticTerm I ρ E φ' r'
    | .capture => g.captureTerm I ρ E r ≤ g'.captureTerm I ρ E r'
    | .fission => g.fissionTerm I ρ E r ≤ g'.fissionTerm I ρ E r' := by
  have hP : 0 ≤ (hardSphere ρ g.l).1 / ρ := div_nonneg (hardSphere_nonneg hρ _) hρ
  have hN : (0 : ℝ) ≤ neutronFactor I g.J := by
    have : (0 : ℚ) ≤ neutronFactor I g.J := div_nonneg (by linarith) (by linarith)
    exact_mod_cast this
  have hq := Real.sqrt_nonneg E
  have hn : (0 : ℝ) ≤ g.degrees.elastic := Nat.cast_nonneg _
  have ew : g'.widths ρ E r' = ⟨g.degrees.elastic * r'.elastic * Real.sqrt E * ((hardSphere ρ g.l).1 / ρ),
      r'.capture, r'.fission, r'.competition⟩ := by
    unfold AverageGroup.widths
    rw [hl, hdeg]
  have ei : ∀ w, g'.integrals w = g.integrals w := by
    intro w
    unfold AverageGroup.integrals
    rw [hdeg]
  have hw : Unresolved.Nonnegative (g.widths ρ E r) :=
    ⟨mul_nonneg (mul_nonneg (mul_nonneg hn hc.elastic.1) hq) hP, hc.capture.1, hc.fission.1, hc.competition.1⟩
  have hw' : Unresolved.Nonnegative (g'.widths ρ E r') := by
    rw [ew]
    exact ⟨mul_nonneg (mul_nonneg (mul_nonneg hn hc.elastic.2) hq) hP, hc.capture.2, hc.fission.2,
      hc.competition.2⟩
  have hs : Unresolved.SameReactions (g.widths ρ E r) (g'.widths ρ E r') := ⟨hc.noFission, hc.noCompetition⟩
  obtain ⟨t1, t2, t3, t4, t5⟩ := htab
  have hu : Unresolved.Unsigned g.degrees :=
    ⟨by omega, by omega, by omega, by omega⟩
  have hint : ∀ {w : Data ℝ}, Unresolved.Nonnegative w → 0 < w.capture →
      Unresolved.calculateFluctuationIntegrals w g.degrees = .ok (g.integrals w) := by
    intro w hw hpos
    have htab : Unresolved.InTables w g.degrees := ⟨t1, t2, fun _ => t4, fun _ => t5⟩
    obtain ⟨s, hs⟩ := Unresolved.C37_exists htab hw.1 hw.2.1 hw.2.2.1 hw.2.2.2 (.inr hpos)
    rw [hs, (Unresolved.integrals_ok hu hs).2.2]
    rfl
  have i1 := hint hw hγ
  have i2 := hint hw' hγ'
  have hwidth : r.elastic ≤ r'.elastic → (g.widths ρ E r).elastic ≤ (g'.widths ρ E r').elastic := by
    intro h
    rw [ew]
    exact mul_le_mul_of_nonneg_right (mul_le_mul_of_nonneg_right (mul_le_mul_of_nonneg_left h hn) hq) hP
  obtain ⟨j1, j2, j3, -⟩ := Unresolved.C37_nonneg hu hw.1 hw.2.1 hw.2.2.1 hw.2.2.2 i1
  have hX : r'.spacing ≤ r.spacing →
      (neutronFactor I g.J : ℝ) / r.spacing ≤ (neutronFactor I g'.J : ℝ) / r'.spacing := by
    intro h
    rw [← hJ]
    exact div_le_div_of_nonneg_left hN hc.spacing.2 h
  have hX0 : 0 ≤ (neutronFactor I g'.J : ℝ) / r'.spacing := by
    rw [← hJ]
    exact div_nonneg hN hc.spacing.2.le
  cases kind with
  | elastic =>
    obtain ⟨f1, f2, f3, f4, f5⟩ := hf
    intro φ φ' hφ
    have k := Unresolved.C112_elastic hw hw' hs hu i1 i2 (hwidth f2.le) f3 f4 f5
    have e : (g'.widths ρ E r').elastic = (g.widths ρ E r).elastic := by
      rw [ew, ← f2]
      rfl
    unfold AverageGroup.elasticTerm
    rw [ei, e, f1, ← hJ, hφ]
    rw [e] at k
    rw [f1, ← hJ] at hX0
    refine mul_le_mul_of_nonneg_left ?_ hX0
    rw [pow_two]
    linarith
  | capture =>
    obtain ⟨f1, f2, f3, f4, f5⟩ := hf
    have k := Unresolved.C112_capture hw hw' hs hu i1 i2 (hwidth f2) f3 f4 f5
    unfold AverageGroup.captureTerm
    rw [ei]
    exact mul_le_mul (hX f1) k (mul_nonneg (mul_nonneg hw.1 hc.capture.1) j2) hX0
  | fission =>
    obtain ⟨f1, f2, f3, f4, f5⟩ := hf
    have k := Unresolved.C112_fission hw hw' hs hu i1 i2 (hwidth f2) f3 f4 f5
    unfold AverageGroup.fissionTerm
    rw [ei]
    exact mul_le_mul (hX f1) k (mul_nonneg (mul_nonneg hw.1 hc.fission.1) j3) hX0

theorem zipWith_sum_le {P : AverageGroup → AverageGroup → Prop} {gs gs' : List AverageGroup}
    {rs rs' : List Unresolved.Resonance} {f f' : AverageGroup → Unresolved.Resonance → ℝ}
    (hg : List.Forall₂ P gs gs') (h : List.Forall₂ (IsAverage E) gs rs)
    (h' : List.Forall₂ (IsAverage E) gs' rs')
    (hf : ∀ g ∈ gs, ∀ g' ∈ gs', ∀ r r', P g g' → IsAverage E g r → IsAverage E g' r' → f g r ≤ f' g' r') :
    (List.zipWith f gs rs).sum ≤ (List.zipWith f' gs' rs').sum := by
  induction hg generalizing rs rs' with
  | nil => simp
  | cons a1 _ ih =>
    cases h with
    | cons b1 b2 =>
      cases h' with
      | cons c1 c2 =>
        rw [List.zipWith_cons_cons, List.zipWith_cons_cons, List.sum_cons, List.sum_cons]
        exact add_le_add (hf _ List.mem_cons_self _ List.mem_cons_self _ _ a1 b1 c1)
          (ih b2 c2 fun g hg g' hg' => hf g (List.mem_cons_of_mem _ hg) g' (List.mem_cons_of_mem _ hg'))

/-- C112 for unresolved ranges: if the average parameters of an evaluation favour a reaction over those of
another one in each row of its tables, then the cross section of that reaction is not smaller at any energy. -/
theorem C112_range {q : Endf.Parameters} {d d' : AverageParameters} {kind : LegacyKind}
    (hR : fromENDF K lib tables reactions initialBreitWigner initial neutronMass elementaryCharge incident
      target range = .ok R)
    (hR' : fromENDF K lib tables reactions initialBreitWigner initial neutronMass elementaryCharge incident
      target { range with parameters := q } = .ok R')
    (hd : averageParameters range.lower range.upper range.parameters = some d)
    (hd' : averageParameters range.lower range.upper q = some d')
    (h : PhysicalAverages neutronMass A d) (h' : PhysicalAverages neutronMass A d')
    (hI : 0 ≤ d.spin) (hJ : ∀ g ∈ d.groups, 0 ≤ g.J) (hs : FavouredAverages kind d d')
    (hc : Conforms .linLin tables.linLin)
    (hn : prescribedRadii range.scatteringRadius.isSome range.naps ≠ none)
    (ha : ∀ nro channel scattering a, Option.Rel (IsRadiusTable tables) range.scatteringRadius nro →
      IsRadii d.ap nro range.naps (A * neutronMass) channel scattering → channel E = .ok a → 0 ≤ a)
    (hE : range.lower ≤ E ∧ E ≤ range.upper) (hm : R.call K lib E = .ok (m, R₁))
    (hm' : R'.call K lib E = .ok (m', R₁')) :
    (m (.inr ⟨incident, target, kind⟩)).getD 0 ≤ (m' (.inr ⟨incident, target, kind⟩)).getD 0 := by
  obtain ⟨n1, c1, c2, a, b, φ, lmax, rs, t1, i1, i2, i3, l1, l2, p1, f1, g1, o1⟩ :=
    C67_cross_sections hR hd h.awri.2 hc hn hE hm
  obtain ⟨n2, c1', c2', a', b', φ', lmax', rs', t2, i1', i2', i3', l1', l2', p1', f2, g2, o2⟩ :=
    C67_cross_sections hR' hd' h'.awri.2 hc hn hE hm'
  have ha := ha _ _ _ _ t1 i1 i2
  obtain rfl := rel_unique t1 t2
  rw [← hs.ap] at i1'
  have hch := (isRadii_unique (e := E) i1 i1')
  obtain rfl : a = a' := Except.ok.inj (i2.symm.trans (hch.1.trans i2'))
  obtain rfl : b = b' := Except.ok.inj (i3.symm.trans (hch.2.trans i3'))
  have hg := hs.groups
  obtain rfl : lmax = lmax' := by
    apply le_antisymm
    · obtain ⟨g, hgm, rfl⟩ := l2
      obtain ⟨g', hg', hgg⟩ := forall₂_mem_left hg hgm
      rw [hgg.l]
      exact l1' g' hg'
    · obtain ⟨g', hgm, rfl⟩ := l2'
      obtain ⟨g, hg', hgg⟩ := forall₂_mem_right hg hgm
      rw [← hgg.l]
      exact l1 g hg'
  have hsin : ∀ l ≤ lmax, Real.sin (φ l) ^ 2 = Real.sin (φ' l) ^ 2 := fun l hl =>
    sin_sq_eq_of_exp ((p1 l hl).trans (p1' l hl).symm)
  have hk : 0 ≤ neutronWaveNumber (waveConstant K.hbar neutronMass) A E := by
    have := h.awri.1
    have hw : 0 ≤ waveConstant K.hbar neutronMass := div_nonneg (Real.sqrt_nonneg _) K.hbar_pos.le
    unfold neutronWaveNumber
    positivity
  generalize neutronWaveNumber (waveConstant K.hbar neutronMass) A E = k at *
  have hX : 0 ≤ 2 * Real.pi ^ 2 / k ^ 2 := by positivity
  have key : ∀ g ∈ d.groups, ∀ g' ∈ d'.groups, ∀ r r', FavouredGroup kind g g' → IsAverage E g r →
      IsAverage E g' r' → Unresolved.Comparable r r' ∧ 0 < r.capture ∧ 0 < r'.capture ∧
        Unresolved.Favours kind r r' := by
    intro g hg g' hg' r r' hgg k1 k2
    obtain ⟨t, x, y, x', y', q0, q1, q2, q3, q4, q5, q6, q7, q8, q9⟩ :=
      averages_mixed (h.rows g hg).2 (fun _ _ h => h.energy) hgg.rows k1 k2
    obtain ⟨e1, e2, e3⟩ := mixed_comparable q0 q1 q8 q9 (h.widths g hg _ q2) (h.widths g hg _ q3)
      (h'.widths g' hg' _ q4) (h'.widths g' hg' _ q5) q6 q7
    exact ⟨e1, e2, e3, mixed_favours q0 q1 q8 q9 q6.favours q7.favours⟩
  cases kind with
  | elastic =>
    have e1 := g1.elastic
    have e2 := g2.elastic
    rw [e1, e2, ← hs.spin, Option.getD_some, Option.getD_some]
    refine add_le_add (le_of_eq (congrArg _ ?_)) (mul_le_mul_of_nonneg_left ?_ hX)
    · refine Finset.sum_congr rfl fun l hl => ?_
      rw [hsin l (Nat.lt_succ_iff.mp (Finset.mem_range.mp hl))]
    · refine zipWith_sum_le hg f1 f2 fun g hg g' hg' r r' hgg k1 k2 => ?_
      obtain ⟨x1, x2, x3, x4⟩ := key g hg g' hg' r r' hgg k1 k2
      refine terms_le hgg.l hgg.J hgg.degrees hI (hJ g hg) (mul_nonneg hk ha) (h.degrees g hg) x1 x2 x3 x4 _ _ ?_
      rw [← hgg.l]
      exact hsin g.l (l1 g hg)
  | capture =>
    have e1 := g1.capture
    have e2 := g2.capture
    rw [e1, e2, ← hs.spin, Option.getD_some, Option.getD_some]
    refine mul_le_mul_of_nonneg_left ?_ hX
    refine zipWith_sum_le hg f1 f2 fun g hg g' hg' r r' hgg k1 k2 => ?_
    obtain ⟨x1, x2, x3, x4⟩ := key g hg g' hg' r r' hgg k1 k2
    exact terms_le hgg.l hgg.J hgg.degrees hI (hJ g hg) (mul_nonneg hk ha) (h.degrees g hg) x1 x2 x3 x4
  | fission =>
    have e1 := g1.fission
    have e2 := g2.fission
    rw [e1, e2, ← hs.spin]
    refine mul_le_mul_of_nonneg_left ?_ hX
    refine zipWith_sum_le hg f1 f2 fun g hg g' hg' r r' hgg k1 k2 => ?_
    obtain ⟨x1, x2, x3, x4⟩ := key g hg g' hg' r r' hgg k1 k2
    exact terms_le hgg.l hgg.J hgg.degrees hI (hJ g hg) (mul_nonneg hk ha) (h.degrees g hg) x1 x2 x3 x4

/-- C112 for unresolved ranges: if both evaluations make sense physically, then they are accepted, they have
values at all energies of their tables, and the cross sections compare as they should. -/
theorem C112_range_accepted {q : Endf.Parameters} {d d' : AverageParameters} {kind : LegacyKind}
    (hmakes : Makes tables.linLin) (hc : Conforms .linLin tables.linLin) (htype : range.type = 2)
    (hd : averageParameters range.lower range.upper range.parameters = some d)
    (hd' : averageParameters range.lower range.upper q = some d')
    (h : PhysicalAverages neutronMass A d) (h' : PhysicalAverages neutronMass A d')
    (hI : 0 ≤ d.spin) (hJ : ∀ g ∈ d.groups, 0 ≤ g.J) (hs : FavouredAverages kind d d')
    (ht : Option.Rel (IsRadiusTable tables) range.scatteringRadius nro)
    {channel scattering : ℝ → Outcome ℝ}
    (hr : IsRadii d.ap nro range.naps (A * neutronMass) channel scattering) :
    ∃ R R', fromENDF K lib tables reactions initialBreitWigner initial neutronMass elementaryCharge incident
        target range = .ok R ∧
      fromENDF K lib tables reactions initialBreitWigner initial neutronMass elementaryCharge incident
        target { range with parameters := q } = .ok R' ∧
      ∀ E, 0 < E → range.lower ≤ E ∧ E ≤ range.upper → (∃ a, 0 < a ∧ channel E = .ok a) →
        (∃ b, scattering E = .ok b) →
        (∀ g ∈ d.groups, (∃ r ∈ g.rows, r.energy ≤ E) ∧ ∃ r ∈ g.rows, E ≤ r.energy) →
        ∃ m m' R₁ R₁', R.call K lib E = .ok (m, R₁) ∧ R'.call K lib E = .ok (m', R₁') ∧
          (m (.inr ⟨incident, target, kind⟩)).getD 0 ≤ (m' (.inr ⟨incident, target, kind⟩)).getD 0 := by
  obtain ⟨R, h1, h2⟩ := C67_accepted (K := K) (lib := lib) (reactions := reactions)
    (initialBreitWigner := initialBreitWigner) (initial := initial) (elementaryCharge := elementaryCharge)
    (incident := incident) (target := target) hmakes hc htype hd ht h hr
  obtain ⟨R', h3, h4⟩ := C67_accepted (K := K) (lib := lib) (reactions := reactions)
    (initialBreitWigner := initialBreitWigner) (initial := initial) (elementaryCharge := elementaryCharge)
    (incident := incident) (target := target) (range := { range with parameters := q }) hmakes hc htype hd'
    ht h' (hs.ap ▸ hr)
  have hn : prescribedRadii range.scatteringRadius.isSome range.naps ≠ none := by
    obtain ⟨a, b, hab, -⟩ := hr
    rw [rel_isSome ht, hab]
    simp
  refine ⟨R, R', h1, h3, fun E h0 hE ha hb hrow => ?_⟩
  have hrow' : ∀ g ∈ d'.groups, (∃ r ∈ g.rows, r.energy ≤ E) ∧ ∃ r ∈ g.rows, E ≤ r.energy := by
    intro g' hg'
    obtain ⟨g, hg, hgg⟩ := forall₂_mem_right hs.groups hg'
    obtain ⟨⟨r, hr, hr'⟩, s, hs, hs'⟩ := hrow g hg
    obtain ⟨x, hx, hx'⟩ := forall₂_mem_left hgg.rows hr
    obtain ⟨y, hy, hy'⟩ := forall₂_mem_left hgg.rows hs
    exact ⟨⟨x, hx, by rw [hx'.energy]; exact hr'⟩, y, hy, by rw [hy'.energy]; exact hs'⟩
  obtain ⟨⟨m, R₁⟩, h5⟩ := h2 E h0 ha hb hrow
  obtain ⟨⟨m', R₁'⟩, h6⟩ := h4 E h0 ha hb hrow'
  refine ⟨m, m', R₁, R₁', h5, h6, C112_range h1 h3 hd hd' h h' hI hJ hs hc hn ?_ hE h5 h6⟩
  intro n c s a t1 t2 t3
  obtain rfl := rel_unique ht t1
  obtain ⟨a', ha', hca⟩ := ha
  have e := (isRadii_unique (e := E) hr t2).1
  rw [hca, t3] at e
  rw [← Except.ok.inj e]
  exact ha'.le

/-! ## Example -/

namespace SensitivityExample

open UnresolvedExample

/-- The example of C67 with twice the capture width in one of the rows and less fission in another. -/
noncomputable def more : UnresolvedParameters UnresolvedDependentJ :=
  ⟨0, 1 / 2, [], [⟨0, 10, [⟨1 / 2, [⟨1, 1, 1 / 1000, 1 / 20, 1 / 100, 1 / 10⟩,
    ⟨10, 2, 1 / 500, 1 / 10, 1 / 50, 1 / 5⟩, ⟨100, 3, 1 / 400, 1 / 20, 1 / 100, 1 / 5⟩], ⟨1, 0, 2, 4⟩⟩]⟩,
    ⟨1, 10, [⟨3 / 2, [⟨1, 1, 1 / 1000, 1 / 20, 0, 0⟩, ⟨100, 2, 1 / 500, 1 / 20, 0, 0⟩], ⟨2, 0, 0, 0⟩⟩]⟩]⟩

noncomputable def moreAverages : AverageParameters :=
  ⟨0, 1 / 2, [10, 10], [⟨0, 1 / 2, [⟨1, 1, 1 / 1000, 1 / 20, 1 / 100, 1 / 10⟩,
    ⟨10, 2, 1 / 500, 1 / 10, 1 / 50, 1 / 5⟩, ⟨100, 3, 1 / 400, 1 / 20, 1 / 100, 1 / 5⟩], ⟨1, 0, 2, 4⟩⟩,
    ⟨1, 3 / 2, [⟨1, 1, 1 / 1000, 1 / 20, 0, 0⟩, ⟨100, 2, 1 / 500, 1 / 20, 0, 0⟩], ⟨2, 0, 0, 0⟩⟩]⟩

theorem more_physical : PhysicalAverages 1 10 moreAverages where
  mass := one_pos
  awri := by simp [moreAverages]
  some := by simp [moreAverages]
  distinct := by simp [moreAverages]
  l := by simp [moreAverages]
  degrees := by simp [moreAverages]
  rows := by
    intro g hg
    simp only [moreAverages, List.mem_cons, List.not_mem_nil, or_false] at hg
    rcases hg with rfl | rfl <;> norm_num
  widths := by
    intro g hg r hr
    simp only [moreAverages, List.mem_cons, List.not_mem_nil, or_false] at hg
    rcases hg with rfl | rfl <;> simp only [List.mem_cons, List.not_mem_nil, or_false] at hr
    · rcases hr with rfl | rfl | rfl <;> norm_num
    · rcases hr with rfl | rfl <;> norm_num

theorem favoured : FavouredAverages .capture averages moreAverages := by
  refine ⟨rfl, rfl, .cons ⟨rfl, rfl, rfl, .cons ?_ (.cons ?_ (.cons ?_ .nil))⟩
    (.cons ⟨rfl, rfl, rfl, .cons ?_ (.cons ?_ .nil)⟩ .nil)⟩ <;>
  · constructor <;> norm_num [Unresolved.Favours, Unresolved.FavoursCapture]

/-- The capture cross sections of both evaluations. -/
example :
    ∃ R R', fromENDF K lib library reactions initialBreitWigner initial 1 1 "n".toList "X".toList
        endfRange = .ok R ∧
      fromENDF K lib library reactions initialBreitWigner initial 1 1 "n".toList "X".toList
        { endfRange with parameters := .unresolvedDependent more } = .ok R' ∧
      ∃ m m' R₁ R₁', R.call K lib 20 = .ok (m, R₁) ∧ R'.call K lib 20 = .ok (m', R₁') ∧
        (m (.inr ⟨"n".toList, "X".toList, .capture⟩)).getD 0
          ≤ (m' (.inr ⟨"n".toList, "X".toList, .capture⟩)).getD 0 := by
  obtain ⟨R, R', h1, h2, h3⟩ := C112_range_accepted (K := K) (lib := lib) (tables := library)
    (reactions := reactions) (initialBreitWigner := initialBreitWigner) (initial := initial)
    (elementaryCharge := 1) (incident := "n".toList) (target := "X".toList) (range := endfRange)
    (q := .unresolvedDependent more) (d' := moreAverages) linear_makes linear_conforms rfl averages_eq rfl
    physical more_physical (by norm_num [averages])
    (by norm_num [averages]) favoured .none
    (channel := fun _ => .ok (1 / 2)) (scattering := fun _ => .ok (1 / 2)) (BreitWignerExample.radii _)
  refine ⟨R, R', h1, h2, h3 20 (by norm_num) ⟨by norm_num [endfRange], by norm_num [endfRange]⟩
    ⟨1 / 2, by norm_num, rfl⟩ ⟨1 / 2, rfl⟩ ?_⟩
  intro g hg
  simp only [averages, List.mem_cons, List.not_mem_nil, or_false] at hg
  rcases hg with rfl | rfl
  · exact ⟨⟨_, List.mem_cons_self, by norm_num⟩, ⟨100, 3, 1 / 400, 1 / 20, 1 / 50, 1 / 5⟩, by simp, by norm_num⟩
  · exact ⟨⟨_, List.mem_cons_self, by norm_num⟩, ⟨100, 2, 1 / 500, 1 / 20, 0, 0⟩, by simp, by norm_num⟩

end SensitivityExample

end Verif.Endf
