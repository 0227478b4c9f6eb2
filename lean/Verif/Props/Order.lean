import Verif.Lemmas.OrderRMatrix
import Verif.Props.BreitWignerAccepted
import Verif.Props.Competition
import Verif.Props.ContinuityUnresolved
import Verif.Props.ReichMooreRangeAccepted
import Verif.Props.RMatrixRange
import Verif.Props.UnresolvedAccepted

/-!
# Property C93: the order in which an evaluation lists its data does not matter

The l values, J values, spin groups and resonances of an ENDF evaluation may be given in any order.
-/

namespace Verif.Endf

open Spec Complex

variable {K : Constants} {lib : CoulombLibrary} {tables : InterpolationLibrary}
  {initialBreitWigner : Channel → Verif.BreitWigner.Cache} {neutronMass elementaryCharge A E : ℝ}
  {incident target : Str} {reactions : ReactionLibrary}
  {initial : (g : SpinGroup) → MatrixCache g.channels.length} {range : Range}
  {R R' R₁ R₁' : Reconstructor} {m m' : ReactionMap} {nro : Option (ℝ → Outcome ℝ)} {multi : Bool}

theorem rel_isSome {α β : Type} {r : α → β → Prop} {a : Option α} {b : Option β} (h : Option.Rel r a b) :
    a.isSome = b.isSome := by
  cases h <;> rfl

/-! ## Breit-Wigner ranges -/

/-- C93: two orders of a Breit-Wigner evaluation with one mass give the same cross sections. -/
theorem C93_breit_wigner {p p' : BreitWigner}
    (hR : fromENDF K lib tables reactions initialBreitWigner initial neutronMass elementaryCharge incident
      target range = .ok R)
    (hR' : fromENDF K lib tables reactions initialBreitWigner initial neutronMass elementaryCharge incident
      target { range with parameters := if multi then .multiLevel p' else .singleLevel p' } = .ok R')
    (hp : range.parameters = if multi then .multiLevel p else .singleLevel p) (hs : SameBreitWigner p p')
    (hA : ∀ a ∈ p.lValues, ∀ b ∈ p.lValues, a.awri = b.awri)
    (hn : prescribedRadii range.scatteringRadius.isSome range.naps ≠ none)
    (hE : range.lower ≤ E ∧ E ≤ range.upper) (hm : R.call K lib E = .ok (m, R₁))
    (hm' : R'.call K lib E = .ok (m', R₁')) : SameCrossSections m m' := by
  obtain ⟨n1, ws, t1, g1, o1⟩ := C65_cross_sections hR hp hn hE hm
  obtain ⟨n2, ws', t2, g2, o2⟩ := C65_cross_sections (multi := multi) hR' rfl hn hE hm'
  obtain rfl := rel_unique t1 t2
  obtain ⟨vs, g3⟩ := isBreitWigner_relisted hs hA g1
  rintro (id | id)
  · rw [o1, o2]
  · exact isBreitWigner_unique g3 g2 id

/-- C93: an evaluation that makes sense physically is accepted in any order, and has the same cross
sections. -/
theorem C93_breit_wigner_accepted {p p' : BreitWigner}
    (ht : range.type = 1 ∧ range.representation = if multi then 2 else 1)
    (hp : range.parameters = if multi then .multiLevel p else .singleLevel p)
    (hr : Option.Rel (IsRadiusTable tables) range.scatteringRadius nro)
    (h : PhysicalBreitWigner neutronMass nro range.naps p) (hs : SameBreitWigner p p')
    (hA : ∀ a ∈ p.lValues, ∀ b ∈ p.lValues, a.awri = b.awri) :
    ∃ R R', fromENDF K lib tables reactions initialBreitWigner initial neutronMass elementaryCharge incident
        target range = .ok R ∧
      fromENDF K lib tables reactions initialBreitWigner initial neutronMass elementaryCharge incident
        target { range with parameters := if multi then .multiLevel p' else .singleLevel p' } = .ok R' ∧
      ∀ E, E ≠ 0 → range.lower ≤ E ∧ E ≤ range.upper → HasRadii neutronMass nro range.naps p E →
        ∃ m m' R₁ R₁', R.call K lib E = .ok (m, R₁) ∧ R'.call K lib E = .ok (m', R₁') ∧
          SameCrossSections m m' := by
  obtain ⟨R, h1, h2⟩ := C65_accepted (K := K) (lib := lib) (reactions := reactions)
    (initialBreitWigner := initialBreitWigner) (initial := initial) (elementaryCharge := elementaryCharge)
    (incident := incident) (target := target) ht hp hr h
  obtain ⟨R', h3, h4⟩ := C65_accepted (K := K) (lib := lib) (reactions := reactions)
    (initialBreitWigner := initialBreitWigner) (initial := initial) (elementaryCharge := elementaryCharge)
    (incident := incident) (target := target) (p := p') (multi := multi)
    (range := { range with parameters := if multi then .multiLevel p' else .singleLevel p' }) ht rfl hr
    (physicalBreitWigner_same hs h)
  refine ⟨R, R', h1, h3, fun E h0 hE hrad => ?_⟩
  obtain ⟨⟨m, R₁⟩, h5⟩ := h2 E h0 hrad
  obtain ⟨⟨m', R₁'⟩, h6⟩ := h4 E h0 (hasRadii_same hs hrad)
  refine ⟨m, m', R₁, R₁', h5, h6, C93_breit_wigner h1 h3 hp hs hA ?_ hE h5 h6⟩
  obtain ⟨lv, hlv, -⟩ := h.some
  obtain ⟨channel, scattering, ⟨a, b, hab, -⟩, -⟩ := h.radii lv hlv
  rw [rel_isSome hr, hab]
  simp

/-! ## Reich-Moore ranges -/

/-- C93: two orders of a Reich-Moore evaluation give the same cross sections. -/
theorem C93_reich_moore {p p' : ReichMoore}
    (hR : fromENDF K lib tables reactions initialBreitWigner initial neutronMass elementaryCharge incident
      target range = .ok R)
    (hR' : fromENDF K lib tables reactions initialBreitWigner initial neutronMass elementaryCharge incident
      target { range with parameters := .reichMoore p' } = .ok R')
    (hp : range.parameters = .reichMoore p) (hs : SameReichMoore p p')
    (hn : prescribedRadii range.scatteringRadius.isSome range.naps ≠ none)
    (hI : HalfInt p.spin) (hA : ∀ lv ∈ p.lValues, lv.awri = A)
    (hw : ∀ lv ∈ p.lValues, ∀ r ∈ lv.resonances, 0 ≤ r.neutronWidth ∧ 0 ≤ r.gammaWidth)
    (hd : DistinctEnergies p) (h0 : 0 ≤ E) (hE : range.lower ≤ E ∧ E ≤ range.upper)
    (hm : R.call K lib E = .ok (m, R₁)) (hm' : R'.call K lib E = .ok (m', R₁')) :
    SameCrossSections m m' := by
  have hA' : ∀ lv ∈ p'.lValues, lv.awri = A := by
    intro lv hlv
    obtain ⟨x, hx, hxz⟩ := Relisted.mem hs.lValues hlv
    rw [← hxz.awri]
    exact hA x hx
  have hw' : ∀ lv ∈ p'.lValues, ∀ r ∈ lv.resonances, 0 ≤ r.neutronWidth ∧ 0 ≤ r.gammaWidth := by
    intro lv hlv r hr
    obtain ⟨x, hx, hxz⟩ := Relisted.mem hs.lValues hlv
    exact hw x hx r (hxz.resonances.mem_iff.mpr hr)
  obtain ⟨n1, ws, t1, g1, o1⟩ := C69_cross_sections hR hp hn hI hA hw hd h0 hE hm
  obtain ⟨n2, ws', t2, g2, o2⟩ := C69_cross_sections hR' rfl hn (hs.spin ▸ hI) hA' hw'
    (distinctEnergies_same hs hd) h0 hE hm'
  obtain rfl := rel_unique t1 t2
  obtain ⟨vs, g3⟩ := isReichMoore_relisted hs g1
  rintro (id | id)
  · exact isReichMoore_unique g3 g2 id
  · rw [o1, o2]

/-- C93: an evaluation that makes sense physically is accepted in any order, and has the same cross
sections. -/
theorem C93_reich_moore_accepted {p p' : ReichMoore} (ht : range.type = 1 ∧ range.representation = 3)
    (hp : range.parameters = .reichMoore p)
    (hr : Option.Rel (IsRadiusTable tables) range.scatteringRadius nro)
    (h : PhysicalReichMoore neutronMass A nro range.naps p) (hs : SameReichMoore p p')
    (hw : ∀ lv ∈ p.lValues, ∀ r ∈ lv.resonances, 0 ≤ r.neutronWidth ∧ 0 ≤ r.gammaWidth) :
    ∃ R R', fromENDF K lib tables reactions initialBreitWigner initial neutronMass elementaryCharge incident
        target range = .ok R ∧
      fromENDF K lib tables reactions initialBreitWigner initial neutronMass elementaryCharge incident
        target { range with parameters := .reichMoore p' } = .ok R' ∧
      ∀ E, 0 < E → range.lower ≤ E ∧ E ≤ range.upper → RadiiAt neutronMass A nro range.naps p.ap E →
        (∀ lv ∈ p.lValues, RadiiAt neutronMass A nro range.naps (lengthOf p lv) E) →
        (∀ lv ∈ p.lValues, ∀ r ∈ lv.resonances, r.energy = E → r.gammaWidth ≠ 0) →
        ∃ m m' R₁ R₁', R.call K lib E = .ok (m, R₁) ∧ R'.call K lib E = .ok (m', R₁') ∧
          SameCrossSections m m' := by
  obtain ⟨R, h1, h2⟩ := C69_accepted (K := K) (lib := lib) (reactions := reactions)
    (initialBreitWigner := initialBreitWigner) (initial := initial) (elementaryCharge := elementaryCharge)
    (incident := incident) (target := target) ht hp hr h
  obtain ⟨R', h3, h4⟩ := C69_accepted (K := K) (lib := lib) (reactions := reactions)
    (initialBreitWigner := initialBreitWigner) (initial := initial) (elementaryCharge := elementaryCharge)
    (incident := incident) (target := target) (p := p')
    (range := { range with parameters := .reichMoore p' }) ht rfl hr (physicalReichMoore_same hs h)
  refine ⟨R, R', h1, h3, fun E h0 hE hap hlv hpole => ?_⟩
  obtain ⟨⟨m, R₁⟩, h5⟩ := h2 E h0.ne' hap hlv hpole
  obtain ⟨⟨m', R₁'⟩, h6⟩ := h4 E h0.ne' (hs.ap ▸ hap) (fun lv hl => by
      obtain ⟨x, hx, hxz⟩ := Relisted.mem hs.lValues hl
      have : lengthOf p' lv = lengthOf p x := by
        unfold lengthOf
        rw [hxz.apl, hs.ap]
      rw [this]
      exact hlv x hx) fun lv hl r hr => by
      obtain ⟨x, hx, hxz⟩ := Relisted.mem hs.lValues hl
      exact hpole x hx r (hxz.resonances.mem_iff.mpr hr)
  refine ⟨m, m', R₁, R₁', h5, h6, C93_reich_moore h1 h3 hp hs ?_ h.spin h.ratio hw h.different h0.le hE h5 h6⟩
  obtain ⟨lv, rest, hl⟩ := List.exists_cons_of_ne_nil h.some
  obtain ⟨channel, scattering, ⟨a, b, hab, -⟩, -⟩ := h.radii lv (by rw [hl]; simp)
  rw [rel_isSome hr, hab]
  simp

/-! ## R-matrix-limited ranges -/

/-- C93: two orders of the spin groups and resonances of an R-matrix-limited evaluation give the same cross
sections. -/
theorem C93_rmatrix {p p' : RMatrixLimited} {pairs : List ParticlePair}
    (hR : fromENDF K lib tables reactions initialBreitWigner initial neutronMass elementaryCharge incident
      target range = .ok R)
    (hR' : fromENDF K lib tables reactions initialBreitWigner initial neutronMass elementaryCharge incident
      target { range with parameters := .rmatrixLimited p' } = .ok R')
    (hp : range.parameters = .rmatrixLimited p) (hs : SameRMatrix p p')
    (hpairs : List.Forall₂ (IsPair reactions neutronMass elementaryCharge incident target) p.pairs pairs)
    (hids : (pairs.map ParticlePair.id).Nodup)
    (hflags : ∀ a ∈ p.pairs, ∀ b ∈ p.pairs, a.shiftFactorFlag = 0 → b.shiftFactorFlag = 0)
    (hneutral : ∀ row ∈ p.pairs, row.mt = 2 → row.chargeA = 0)
    (ho : ∀ record ∈ p.spinGroups, Ordered pairs p record)
    (hd : p.spinGroups.Pairwise fun a b => ¬ SameSpinParity a b)
    (hE : range.lower ≤ E ∧ E ≤ range.upper) (hm : R.call K lib E = .ok (m, R₁))
    (hm' : R'.call K lib E = .ok (m', R₁')) : SameCrossSections m m' := by
  have hpp := hs.pairs
  obtain ⟨i, row, pair, gs, a1, a2, a3, g1, o1⟩ :=
    C70_partial hR hp hpairs hids hflags hneutral ho hd hE hm
  obtain ⟨i', row', pair', gs', b1, b2, b3, g2, o2⟩ :=
    C70_partial (p := p') hR' rfl (hpp ▸ hpairs) hids (hpp ▸ hflags) (hpp ▸ hneutral) (by
      intro record hrec
      obtain ⟨x, hx, hxz⟩ := Relisted.mem hs.spinGroups hrec
      exact ordered_same hxz hpp (ho x hx)) (differ_same hs hd) hE hm'
  rw [← hpp] at b1
  have hpair : ∀ {i : ℕ} {row : ParticlePairRow} {pair : ParticlePair}, p.pairs[i]? = some row →
      pairs[i]? = some pair → IsPair reactions neutronMass elementaryCharge incident target row pair := by
    intro i row pair h1 h2
    obtain ⟨k1, k2⟩ := List.getElem?_eq_some_iff.mp h1
    obtain ⟨k3, k4⟩ := List.getElem?_eq_some_iff.mp h2
    rw [← k2, ← k4]
    exact (List.forall₂_iff_get.mp hpairs).2 i k1 k3
  have k1 := hpair a1 a3
  have k2 := hpair b1 b3
  have hii : i = i' := by
    refine (List.getElem?_inj (l := pairs.map ParticlePair.id) ?_ hids).mp ?_
    · rw [List.length_map]
      exact (List.getElem?_eq_some_iff.mp a3).1
    · rw [List.getElem?_map, List.getElem?_map, a3, b3]
      have e1 := k1.name
      have e2 := k2.name
      unfold IsName at e1 e2
      rw [if_pos a2] at e1
      rw [if_pos b2] at e2
      exact congrArg some (e1.2.2.trans e2.2.2.symm)
  subst hii
  obtain rfl := Option.some.inj (a1.symm.trans b1)
  obtain rfl := Option.some.inj (a3.symm.trans b3)
  have hin : IncidentPair pairs p' pair := by
    refine ⟨⟨i, row, hpp ▸ a1, a2, a3⟩, hids, ?_⟩
    rw [k1.charges.1, hneutral row (List.mem_of_getElem? a1) a2, zero_mul]
  obtain ⟨vs, g3⟩ := isRMatrix_relisted hs g1
  rintro (id | id)
  · exact isRMatrix_unique hin g3 g2 id
  · rw [o1, o2]

/-! ## Unresolved ranges -/

theorem average_unique {g : AverageGroup} {r r' : Unresolved.Resonance}
    (hx : (g.rows.map (·.energy)).Pairwise (· < ·)) (h : IsAverage E g r) (h' : IsAverage E g r') : r = r' := by
  have e1 := h.energy.trans h'.energy.symm
  have e2 := interpolates_unique (by simp) hx h.spacing h'.spacing
  have e3 := interpolates_unique (by simp) hx h.elastic h'.elastic
  have e4 := interpolates_unique (by simp) hx h.capture h'.capture
  have e5 := interpolates_unique (by simp) hx h.fission h'.fission
  have e6 := interpolates_unique (by simp) hx h.competition h'.competition
  cases r
  cases r'
  simp only at e1 e2 e3 e4 e5 e6
  rw [e1, e2, e3, e4, e5, e6]

/-- C93: two orders of average parameters with one mass give the same cross sections. -/
theorem C93_unresolved {q : Endf.Parameters} {d : AverageParameters}
    (hR : fromENDF K lib tables reactions initialBreitWigner initial neutronMass elementaryCharge incident
      target range = .ok R)
    (hR' : fromENDF K lib tables reactions initialBreitWigner initial neutronMass elementaryCharge incident
      target { range with parameters := q } = .ok R')
    (hs : SameUnresolvedParameters range.parameters q)
    (hd : averageParameters range.lower range.upper range.parameters = some d)
    (hA : ∀ awri ∈ d.awri, awri = A) (hc : Conforms .linLin tables.linLin)
    (hrows : ∀ g ∈ d.groups, (g.rows.map (·.energy)).Pairwise (· < ·))
    (hn : prescribedRadii range.scatteringRadius.isSome range.naps ≠ none)
    (hE : range.lower ≤ E ∧ E ≤ range.upper) (hm : R.call K lib E = .ok (m, R₁))
    (hm' : R'.call K lib E = .ok (m', R₁')) : SameCrossSections m m' := by
  obtain ⟨d', hd', s1, s2, s3, s4⟩ := averageParameters_same hs hd
  obtain ⟨n1, c1, c2, a, b, φ, lmax, rs, t1, i1, i2, i3, l1, l2, p1, f1, g1, o1⟩ :=
    C67_cross_sections hR hd hA hc hn hE hm
  obtain ⟨n2, c1', c2', a', b', φ', lmax', rs', t2, i1', i2', i3', l1', l2', p1', f2, g2, o2⟩ :=
    C67_cross_sections hR' hd' (fun x hx => hA x (s3.mem_iff.mpr hx)) hc hn hE hm'
  obtain rfl := rel_unique t1 t2
  rw [← s2] at i1'
  have hch := (isRadii_unique (e := E) i1 i1')
  obtain rfl : a = a' := Except.ok.inj (i2.symm.trans (hch.1.trans i2'))
  obtain rfl : b = b' := Except.ok.inj (i3.symm.trans (hch.2.trans i3'))
  obtain rfl : lmax = lmax' := by
    apply le_antisymm
    · obtain ⟨g, hg, rfl⟩ := l2
      exact l1' g (s4.mem_iff.mp hg)
    · obtain ⟨g, hg, rfl⟩ := l2'
      exact l1 g (s4.mem_iff.mpr hg)
  obtain ⟨vs, v1, -, v3⟩ := perm_along s4 f1
  have hvs : vs = rs' := by
    have hrows' : ∀ g ∈ d'.groups, (g.rows.map (·.energy)).Pairwise (· < ·) :=
      fun g hg => hrows g (s4.mem_iff.mpr hg)
    clear * - v1 f2 hrows'
    generalize d'.groups = gs at v1 f2 hrows'
    induction v1 generalizing rs' with
    | nil => cases f2; rfl
    | cons h1 _ ih =>
      cases f2 with
      | cons h2 h3 =>
        rw [average_unique (hrows' _ List.mem_cons_self) h1 h2, ih _ h3
          fun g hg => hrows' g (List.mem_cons_of_mem _ hg)]
  subst hvs
  have hsin : ∀ l ≤ lmax, Real.sin (φ l) ^ 2 = Real.sin (φ' l) ^ 2 := fun l hl =>
    sin_sq_eq_of_exp ((p1 l hl).trans (p1' l hl).symm)
  rintro (id | id)
  · rw [o1, o2]
  by_cases hid : ∃ kind, id = ⟨incident, target, kind⟩
  · obtain ⟨kind, rfl⟩ := hid
    cases kind with
    | elastic =>
      have e1 := g1.elastic
      have e2 := g2.elastic
      rw [e1, e2, ← s1, v3]
      refine congrArg (fun x => (some x).getD 0) (congrArg₂ _ (congrArg _ ?_) (congrArg _ ?_))
      · refine Finset.sum_congr rfl fun l hl => ?_
        rw [hsin l (Nat.lt_succ_iff.mp (Finset.mem_range.mp hl))]
      · have hl : ∀ g ∈ d'.groups, g.l ≤ lmax := fun g hg => l1 g (s4.mem_iff.mpr hg)
        clear * - hl hsin
        generalize d'.groups = gs at hl
        congr 1
        induction gs generalizing vs with
        | nil => rfl
        | cons g gs ih =>
          cases vs with
          | nil => rfl
          | cons r vs =>
            rw [List.zipWith_cons_cons, List.zipWith_cons_cons,
              ih _ fun g hg => hl g (List.mem_cons_of_mem _ hg)]
            unfold AverageGroup.elasticTerm
            rw [hsin g.l (hl g List.mem_cons_self)]
    | capture =>
      have e1 := g1.capture
      have e2 := g2.capture
      rw [e1, e2, ← s1, v3]
    | fission =>
      have e1 := g1.fission
      have e2 := g2.fission
      rw [e1, e2, ← s1, v3]
  · have e1 := g1.other id fun kind e => hid ⟨kind, e⟩
    have e2 := g2.other id fun kind e => hid ⟨kind, e⟩
    rw [e1, e2]

/-- C93: average parameters that make sense physically are accepted in any order, and give the same cross
sections. -/
theorem C93_unresolved_accepted {q : Endf.Parameters} {d : AverageParameters}
    (hmakes : Makes tables.linLin) (hc : Conforms .linLin tables.linLin) (htype : range.type = 2)
    (hs : SameUnresolvedParameters range.parameters q)
    (hd : averageParameters range.lower range.upper range.parameters = some d)
    (ht : Option.Rel (IsRadiusTable tables) range.scatteringRadius nro)
    (h : PhysicalAverages neutronMass A d) {channel scattering : ℝ → Outcome ℝ}
    (hr : IsRadii d.ap nro range.naps (A * neutronMass) channel scattering) :
    ∃ R R', fromENDF K lib tables reactions initialBreitWigner initial neutronMass elementaryCharge incident
        target range = .ok R ∧
      fromENDF K lib tables reactions initialBreitWigner initial neutronMass elementaryCharge incident
        target { range with parameters := q } = .ok R' ∧
      ∀ E, 0 < E → range.lower ≤ E ∧ E ≤ range.upper → (∃ a, 0 < a ∧ channel E = .ok a) →
        (∃ b, scattering E = .ok b) →
        (∀ g ∈ d.groups, (∃ r ∈ g.rows, r.energy ≤ E) ∧ ∃ r ∈ g.rows, E ≤ r.energy) →
        ∃ m m' R₁ R₁', R.call K lib E = .ok (m, R₁) ∧ R'.call K lib E = .ok (m', R₁') ∧
          SameCrossSections m m' := by
  obtain ⟨d', hd', hsame⟩ := averageParameters_same hs hd
  obtain ⟨R, h1, h2⟩ := C67_accepted (K := K) (lib := lib) (reactions := reactions)
    (initialBreitWigner := initialBreitWigner) (initial := initial) (elementaryCharge := elementaryCharge)
    (incident := incident) (target := target) hmakes hc htype hd ht h hr
  obtain ⟨R', h3, h4⟩ := C67_accepted (K := K) (lib := lib) (reactions := reactions)
    (initialBreitWigner := initialBreitWigner) (initial := initial) (elementaryCharge := elementaryCharge)
    (incident := incident) (target := target) (range := { range with parameters := q }) hmakes hc htype hd'
    ht (physicalAverages_same hsame h) (hsame.ap ▸ hr)
  refine ⟨R, R', h1, h3, fun E h0 hE ha hb hrow => ?_⟩
  obtain ⟨⟨m, R₁⟩, h5⟩ := h2 E h0 ha hb hrow
  obtain ⟨⟨m', R₁'⟩, h6⟩ := h4 E h0 ha hb fun g hg => hrow g (hsame.groups.mem_iff.mpr hg)
  refine ⟨m, m', R₁, R₁', h5, h6, C93_unresolved h1 h3 hs hd h.awri.2 hc (fun g hg => (h.rows g hg).2) ?_ hE
    h5 h6⟩
  obtain ⟨a, b, hab, -⟩ := hr
  rw [rel_isSome ht, hab]
  simp

end Verif.Endf
