import Verif.Spec.Averages
import Verif.Props.Order

/-!
# Lemmas for properties C95 and C96
-/

namespace Verif.Averages

open Endf Spec

variable {K : Constants} {lib : CoulombLibrary} {tables : InterpolationLibrary} {reactions : ReactionLibrary}
  {initialBreitWigner : Channel → Verif.BreitWigner.Cache}
  {initial : (g : SpinGroup) → MatrixCache g.channels.length}
  {neutronMass elementaryCharge A E : ℝ} {incident target : Str} {range : Range} {R R' R₁ R₁' : Reconstructor}
  {m m' : ReactionMap}

/-- Groups that have the same parameters at an energy. -/
structure AgreeAt (E : ℝ) (g g' : AverageGroup) : Prop where
  l : g.l = g'.l
  J : g.J = g'.J
  degrees : g.degrees = g'.degrees
  rows : ∀ r r', IsAverage E g r → IsAverage E g' r' → r = r'

theorem zipWith_agree {gs gs' : List AverageGroup} {rs rs' : List Unresolved.Resonance}
    {f f' : AverageGroup → Unresolved.Resonance → ℝ}
    (hg : List.Forall₂ (AgreeAt E) gs gs') (h : List.Forall₂ (IsAverage E) gs rs)
    (h' : List.Forall₂ (IsAverage E) gs' rs')
    (hf : ∀ g ∈ gs, ∀ g' r, AgreeAt E g g' → f g r = f' g' r) :
    (List.zipWith f gs rs).sum = (List.zipWith f' gs' rs').sum := by
  induction hg generalizing rs rs' with
  | nil => rfl
  | cons a1 _ ih =>
    cases h with
    | cons b1 b2 =>
      cases h' with
      | cons c1 c2 =>
        rw [List.zipWith_cons_cons, List.zipWith_cons_cons, List.sum_cons, List.sum_cons,
          ih b2 c2 fun g hg => hf g (List.mem_cons_of_mem _ hg), a1.rows _ _ b1 c1,
          hf _ List.mem_cons_self _ _ a1]

theorem terms_agree {g g' : AverageGroup} (h : AgreeAt E g g') (I : ℚ) (ρ : ℝ) (r : Unresolved.Resonance) :
    (∀ φ φ' : ℝ, Real.sin φ ^ 2 = Real.sin φ' ^ 2 → g.elasticTerm I ρ E φ r = g'.elasticTerm I ρ E φ' r) ∧
    g.captureTerm I ρ E r = g'.captureTerm I ρ E r ∧ g.fissionTerm I ρ E r = g'.fissionTerm I ρ E r := by
  obtain ⟨h1, h2, h3, -⟩ := h
  have hw : g.widths ρ E r = g'.widths ρ E r := by
    unfold AverageGroup.widths
    rw [h1, h3]
  have hi : ∀ w, g.integrals w = g'.integrals w := by
    intro w
    unfold AverageGroup.integrals
    rw [h3]
  unfold AverageGroup.elasticTerm AverageGroup.captureTerm AverageGroup.fissionTerm
  rw [hw, hi, h2]
  exact ⟨fun φ φ' h => by rw [h], rfl, rfl⟩

/-- Ranges that have the same average parameters at an energy have the same cross sections. -/
theorem unresolved_agree {l u : ℝ} {q : Endf.Parameters} {d d' : AverageParameters}
    (hR : fromENDF K lib tables reactions initialBreitWigner initial neutronMass elementaryCharge incident
      target range = .ok R)
    (hR' : fromENDF K lib tables reactions initialBreitWigner initial neutronMass elementaryCharge incident
      target { range with lower := l, upper := u, parameters := q } = .ok R')
    (hd : averageParameters range.lower range.upper range.parameters = some d)
    (hd' : averageParameters l u q = some d') (hspin : d.spin = d'.spin) (hap : d.ap = d'.ap)
    (hA : ∀ awri ∈ d.awri, awri = A) (hA' : ∀ awri ∈ d'.awri, awri = A)
    (hg : List.Forall₂ (AgreeAt E) d.groups d'.groups) (hc : Conforms .linLin tables.linLin)
    (hn : prescribedRadii range.scatteringRadius.isSome range.naps ≠ none)
    (hE : range.lower ≤ E ∧ E ≤ range.upper) (hE' : l ≤ E ∧ E ≤ u) (hm : R.call K lib E = .ok (m, R₁))
    (hm' : R'.call K lib E = .ok (m', R₁')) : SameCrossSections m m' := by
  obtain ⟨n1, c1, c2, a, b, φ, lmax, rs, t1, i1, i2, i3, l1, l2, p1, f1, g1, o1⟩ :=
    C67_cross_sections hR hd hA hc hn hE hm
  obtain ⟨n2, c1', c2', a', b', φ', lmax', rs', t2, i1', i2', i3', l1', l2', p1', f2, g2, o2⟩ :=
    C67_cross_sections hR' hd' hA' hc hn hE' hm'
  obtain rfl := rel_unique t1 t2
  rw [← hap] at i1'
  have hch := (isRadii_unique (e := E) i1 i1')
  obtain rfl : a = a' := Except.ok.inj (i2.symm.trans (hch.1.trans i2'))
  obtain rfl : b = b' := Except.ok.inj (i3.symm.trans (hch.2.trans i3'))
  obtain rfl : lmax = lmax' := by
    apply le_antisymm
    · obtain ⟨g, hgm, rfl⟩ := l2
      obtain ⟨g', hg', hgg⟩ := forall₂_mem_left hg hgm
      rw [hgg.l]
      exact l1' g' hg'
    · obtain ⟨g', hgm, rfl⟩ := l2'
      obtain ⟨g, hg', hgg⟩ := forall₂_mem_right hg hgm
      rw [← hgg.l]
      exact l1 g hg'
  have hsin : ∀ l ≤ lmax, Real.sin (φ l) ^ 2 = Real.sin (φ' l) ^ 2 := fun l hl =>
    sin_sq_eq_of_exp ((p1 l hl).trans (p1' l hl).symm)
  rintro (id | id)
  · rw [o1, o2]
  by_cases hid : ∃ kind, id = ⟨incident, target, kind⟩
  · obtain ⟨kind, rfl⟩ := hid
    cases kind with
    | elastic =>
      have e1 := g1.elastic
      have e2 := g2.elastic
      rw [e1, e2, ← hspin]
      refine congrArg (fun x => (some x).getD 0) (congrArg₂ _ (congrArg _ ?_) (congrArg _ ?_))
      · refine Finset.sum_congr rfl fun l hl => ?_
        rw [hsin l (Nat.lt_succ_iff.mp (Finset.mem_range.mp hl))]
      · refine zipWith_agree hg f1 f2 fun g hgm g' r hgg => (terms_agree hgg _ _ r).1 _ _ ?_
        rw [← hgg.l]
        exact hsin g.l (l1 g hgm)
    | capture =>
      have e1 := g1.capture
      have e2 := g2.capture
      rw [e1, e2, ← hspin]
      exact congrArg (fun x => (some (_ * x)).getD 0)
        (zipWith_agree hg f1 f2 fun g _ g' r hgg => (terms_agree hgg _ _ r).2.1)
    | fission =>
      have e1 := g1.fission
      have e2 := g2.fission
      rw [e1, e2, ← hspin]
      exact congrArg (fun x => _ * x)
        (zipWith_agree hg f1 f2 fun g _ g' r hgg => (terms_agree hgg _ _ r).2.2)
  · have e1 := g1.other id fun kind e => hid ⟨kind, e⟩
    have e2 := g2.other id fun kind e => hid ⟨kind, e⟩
    rw [e1, e2]

/-! ## Interpolation -/

theorem between_const {x0 x1 x y : ℝ} : Law.between x0 y x1 y x .linLin = y := by
  simp [Law.between]

/-- Constant values are interpolated to themselves. -/
theorem interpolates_const {xs ys : List ℝ} {x y v : ℝ} (hy : ∀ z ∈ ys, z = v)
    (h : Interpolates .linLin xs ys x y) : y = v := by
  obtain ⟨i, x0, y0, x1, y1, h0, h1, -, -, rfl⟩ := h
  have e0 := hy y0 (List.of_mem_zip (List.mem_of_getElem? h0)).2
  have e1 := hy y1 (List.of_mem_zip (List.mem_of_getElem? h1)).2
  rw [e0, e1, between_const]

/-- Interpolation in a table with more points on the same line segments. -/
theorem interpolates_refined {xs ys xs' ys' : List ℝ} {x y y' : ℝ} (hl : xs.length = ys.length)
    (hx : xs.Pairwise (· < ·)) (hx' : xs'.Pairwise (· < ·))
    (hk : ∀ z ∈ xs, z ∈ xs') (hi : ∀ p ∈ xs'.zip ys', Interpolates .linLin xs ys p.1 p.2)
    (h : Interpolates .linLin xs ys x y) (h' : Interpolates .linLin xs' ys' x y') : y = y' := by
  obtain ⟨j, u0, v0, u1, v1, g0, g1, b0, b1, e'⟩ := h'
  have m0 := hi _ (List.mem_of_getElem? g0)
  have m1 := hi _ (List.mem_of_getElem? g1)
  rw [List.getElem?_zip_eq_some] at g0 g1
  obtain ⟨j0, q0⟩ := List.getElem?_eq_some_iff.mp g0.1
  obtain ⟨j1, q1⟩ := List.getElem?_eq_some_iff.mp g1.1
  dsimp only at q0 q1 m0 m1
  have hu : u0 < u1 := by
    rw [← q0, ← q1]
    exact List.pairwise_iff_getElem.mp hx' j (j + 1) j0 j1 (by omega)
  -- no point of the finer table is between the two
  have gap : ∀ z ∈ xs', z ≤ u0 ∨ u1 ≤ z := by
    intro z hz
    obtain ⟨k, hk, rfl⟩ := List.getElem_of_mem hz
    rcases Nat.lt_or_ge j k with hjk | hjk
    · right
      rw [← q1]
      rcases Nat.eq_or_lt_of_le (show j + 1 ≤ k from hjk) with rfl | hlt
      · exact le_rfl
      · exact (List.pairwise_iff_getElem.mp hx' _ _ j1 hk hlt).le
    · left
      rw [← q0]
      rcases Nat.eq_or_lt_of_le hjk with rfl | hlt
      · exact le_rfl
      · exact (List.pairwise_iff_getElem.mp hx' _ _ hk j0 hlt).le
  by_cases hx0 : x = u0
  · subst hx0
    rw [e']
    simp only [Law.between, sub_self, mul_zero, zero_div, add_zero]
    exact interpolates_unique hl hx h m0
  by_cases hx1 : x = u1
  · subst hx1
    rw [e', interpolates_unique hl hx h m1]
    have : x - u0 ≠ 0 := by linarith
    simp only [Law.between]
    field_simp
    ring
  have b0 : u0 < x := lt_of_le_of_ne b0 (Ne.symm hx0)
  have b1 : x < u1 := lt_of_le_of_ne b1 hx1
  obtain ⟨i, x0, y0, x1, y1, h0, h1, a0, a1, e⟩ := h
  have c0 : x0 ≤ u0 := by
    rcases gap x0 (hk x0 (List.of_mem_zip (List.mem_of_getElem? h0)).1) with h | h
    · exact h
    · linarith
  have c1 : u1 ≤ x1 := by
    rcases gap x1 (hk x1 (List.of_mem_zip (List.mem_of_getElem? h1)).1) with h | h
    · linarith
    · exact h
  have d0 := interpolates_unique hl hx m0 ⟨i, x0, y0, x1, y1, h0, h1, c0, by linarith, rfl⟩
  have d1 := interpolates_unique hl hx m1 ⟨i, x0, y0, x1, y1, h0, h1, by linarith, c1, rfl⟩
  rw [e, e', d0, d1]
  have n1 : x1 - x0 ≠ 0 := by linarith
  have n2 : u1 - u0 ≠ 0 := by linarith
  simp only [Law.between]
  field_simp
  ring

theorem zip_mem {rows : List Unresolved.Resonance} {f : Unresolved.Resonance → ℝ} {p : ℝ × ℝ}
    (h : p ∈ (rows.map (·.energy)).zip (rows.map f)) : ∃ r ∈ rows, p = (r.energy, f r) := by
  rw [List.zip_map'] at h
  obtain ⟨r, hr, rfl⟩ := List.mem_map.mp h
  exact ⟨r, hr, rfl⟩

theorem refined_agree {g g' : AverageGroup} (h : RefinedGroup g g')
    (hx : (g.rows.map (·.energy)).Pairwise (· < ·)) (hx' : (g'.rows.map (·.energy)).Pairwise (· < ·)) :
    AgreeAt E g g' := by
  refine ⟨h.l, h.J, h.degrees, fun r r' h1 h2 => ?_⟩
  have key : ∀ (f : Unresolved.Resonance → ℝ) {y y' : ℝ},
      (∀ r ∈ g'.rows, Interpolates .linLin (g.rows.map (·.energy)) (g.rows.map f) r.energy (f r)) →
      Interpolates .linLin (g.rows.map (·.energy)) (g.rows.map f) E y →
      Interpolates .linLin (g'.rows.map (·.energy)) (g'.rows.map f) E y' → y = y' := by
    intro f y y' hf k1 k2
    refine interpolates_refined (by simp) hx hx' ?_ ?_ k1 k2
    · intro z hz
      obtain ⟨r, hr, rfl⟩ := List.mem_map.mp hz
      exact List.mem_map.mpr ⟨r, h.kept r hr, rfl⟩
    · intro p hp
      obtain ⟨r, hr, rfl⟩ := zip_mem hp
      exact hf r hr
  have e1 := h1.energy.trans h2.energy.symm
  have e2 := key (·.spacing) (fun r hr => (h.interpolated r hr).spacing) h1.spacing h2.spacing
  have e3 := key (·.elastic) (fun r hr => (h.interpolated r hr).elastic) h1.elastic h2.elastic
  have e4 := key (·.capture) (fun r hr => (h.interpolated r hr).capture) h1.capture h2.capture
  have e5 := key (·.fission) (fun r hr => (h.interpolated r hr).fission) h1.fission h2.fission
  have e6 := key (·.competition) (fun r hr => (h.interpolated r hr).competition) h1.competition h2.competition
  cases r
  cases r'
  simp only at e1 e2 e3 e4 e5 e6
  rw [e1, e2, e3, e4, e5, e6]

/-- Tables with constant values. -/
theorem constant_agree {g g' : AverageGroup} (hl : g.l = g'.l) (hJ : g.J = g'.J)
    (hd : g.degrees = g'.degrees) {v : Unresolved.Resonance}
    (h : ∀ r ∈ g.rows ++ g'.rows, r.spacing = v.spacing ∧ r.elastic = v.elastic ∧ r.capture = v.capture ∧
      r.fission = v.fission ∧ r.competition = v.competition) : AgreeAt E g g' := by
  refine ⟨hl, hJ, hd, fun r r' h1 h2 => ?_⟩
  have value : ∀ {g0 : AverageGroup} {r0 : Unresolved.Resonance}, (∀ r ∈ g0.rows, r ∈ g.rows ++ g'.rows) →
      IsAverage E g0 r0 → r0 = { v with energy := E } := by
    intro g0 r0 hs h0
    have key : ∀ {f : Unresolved.Resonance → ℝ} {x : ℝ}, (∀ r ∈ g.rows ++ g'.rows, f r = x) →
        ∀ z ∈ g0.rows.map f, z = x := by
      intro f x hf z hz
      obtain ⟨r, hr, rfl⟩ := List.mem_map.mp hz
      exact hf r (hs r hr)
    have e1 := h0.energy
    have e2 := interpolates_const (key fun r hr => (h r hr).1) h0.spacing
    have e3 := interpolates_const (key fun r hr => (h r hr).2.1) h0.elastic
    have e4 := interpolates_const (key fun r hr => (h r hr).2.2.1) h0.capture
    have e5 := interpolates_const (key fun r hr => (h r hr).2.2.2.1) h0.fission
    have e6 := interpolates_const (key fun r hr => (h r hr).2.2.2.2) h0.competition
    cases r0
    simp only at e1 e2 e3 e4 e5 e6
    rw [e1, e2, e3, e4, e5, e6]
  rw [value (fun r hr => List.mem_append_left _ hr) h1, value (fun r hr => List.mem_append_right _ hr) h2]

end Verif.Averages
