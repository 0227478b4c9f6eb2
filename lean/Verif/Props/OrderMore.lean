import Verif.Props.Order
import Verif.Props.RMatrixRangeMore

/-!
# Property C93, continued: R-matrix-limited ranges are accepted in any order, and examples
-/

namespace Verif.Endf

open Spec Complex

variable {K : Constants} {lib : CoulombLibrary} {tables : InterpolationLibrary}
  {initialBreitWigner : Channel → Verif.BreitWigner.Cache} {neutronMass elementaryCharge A E : ℝ}
  {incident target : Str} {reactions : ReactionLibrary}
  {initial : (g : SpinGroup) → MatrixCache g.channels.length} {range : Range}

theorem admissibleRMatrix_same {p p' : RMatrixLimited} {pairs : List ParticlePair} {pair : ParticlePair}
    (hs : SameRMatrix p p')
    (h : AdmissibleRMatrix reactions neutronMass elementaryCharge incident target p pairs pair) :
    AdmissibleRMatrix reactions neutronMass elementaryCharge incident target p' pairs pair where
  formalism := hs.formalism ▸ h.formalism
  described := hs.pairs ▸ h.described
  distinct := h.distinct
  neutral := hs.pairs ▸ h.neutral
  masses := hs.pairs ▸ h.masses
  elastic := hs.pairs ▸ h.elastic
  capture := hs.pairs ▸ h.capture
  some := by
    intro he
    have := Relisted.length_eq hs.spinGroups
    rw [he, List.length_nil, List.length_eq_zero_iff] at this
    exact h.some this
  ordered := by
    intro record hrec
    obtain ⟨x, hx, hxz⟩ := Relisted.mem hs.spinGroups hrec
    exact ordered_same hxz hs.pairs (h.ordered x hx)
  groups := differ_same hs h.groups
  spins := by
    intro record hrec
    obtain ⟨x, hx, hxz⟩ := Relisted.mem hs.spinGroups hrec
    rw [← hxz.spin, ← hxz.channels]
    exact h.spins x hx
  entrance := by
    intro record hrec
    obtain ⟨x, hx, hxz⟩ := Relisted.mem hs.spinGroups hrec
    rw [← hxz.channels, ← hs.pairs]
    exact h.entrance x hx
  channels := by
    intro record hrec
    obtain ⟨x, hx, hxz⟩ := Relisted.mem hs.spinGroups hrec
    rw [← hxz.channels]
    exact h.channels x hx
  widths := by
    intro record hrec v hv
    obtain ⟨x, hx, hxz⟩ := Relisted.mem hs.spinGroups hrec
    rw [← hxz.channels]
    exact h.widths x hx v (hxz.resonances.mem_iff.mpr hv)
  particles := by
    intro record hrec
    obtain ⟨x, hx, hxz⟩ := Relisted.mem hs.spinGroups hrec
    rw [← hxz.channels, ← hs.pairs]
    exact h.particles x hx

theorem workingEnergy_same {p p' : RMatrixLimited} {pairs : List ParticlePair} {pair : ParticlePair}
    (hs : SameRMatrix p p') (h : WorkingEnergy K lib p pairs pair E) : WorkingEnergy K lib p' pairs pair E where
  threshold := hs.pairs ▸ h.threshold
  charged := by
    intro record hrec
    obtain ⟨x, hx, hxz⟩ := Relisted.mem hs.spinGroups hrec
    rw [← hxz.channels, ← hs.pairs]
    exact h.charged x hx

/-- C93: an evaluation that makes sense physically is accepted in any order, and has the same cross
sections. -/
theorem C93_rmatrix_accepted {p p' : RMatrixLimited} {pairs : List ParticlePair} {pair : ParticlePair}
    (ht : range.type = 1 ∧ range.representation = 7) (hp : range.parameters = .rmatrixLimited p)
    (hr : range.scatteringRadius = none)
    (h : AdmissibleRMatrix reactions neutronMass elementaryCharge incident target p pairs pair)
    (hth : p.reducedWidths = 0 → ∀ record ∈ p.spinGroups, ∀ v ∈ record.resonances,
      WorkingEnergy K lib p pairs pair v.1)
    (hflags : ∀ a ∈ p.pairs, ∀ b ∈ p.pairs, a.shiftFactorFlag = 0 → b.shiftFactorFlag = 0)
    (hs : SameRMatrix p p') :
    ∃ R R', fromENDF K lib tables reactions initialBreitWigner initial neutronMass elementaryCharge incident
        target range = .ok R ∧
      fromENDF K lib tables reactions initialBreitWigner initial neutronMass elementaryCharge incident
        target { range with parameters := .rmatrixLimited p' } = .ok R' ∧
      ∀ E, range.lower ≤ E ∧ E ≤ range.upper → WorkingEnergy K lib p pairs pair E →
        (∀ record ∈ p.spinGroups, ∀ v ∈ record.resonances, v.1 = E →
          ∃ (i : ℕ) (row : ChannelRow) (width : ℝ), record.channels[i]? = some row ∧ Captures p row ∧
            v.2[i]? = some width ∧ width ≠ 0) →
        ∃ m m' R₁ R₁', R.call K lib E = .ok (m, R₁) ∧ R'.call K lib E = .ok (m', R₁') ∧
          SameCrossSections m m' := by
  obtain ⟨R, h1, h2⟩ := C70_charged_accepted (K := K) (lib := lib) (tables := tables)
    (initialBreitWigner := initialBreitWigner) (initial := initial) ht hp hr h hth
  obtain ⟨R', h3, h4⟩ := C70_charged_accepted (K := K) (lib := lib) (tables := tables)
    (initialBreitWigner := initialBreitWigner) (initial := initial) (p := p')
    (range := { range with parameters := .rmatrixLimited p' }) ht rfl hr (admissibleRMatrix_same hs h)
    (fun hred record hrec v hv => by
      obtain ⟨x, hx, hxz⟩ := Relisted.mem hs.spinGroups hrec
      exact workingEnergy_same hs (hth (hs.reducedWidths.trans hred) x hx v (hxz.resonances.mem_iff.mpr hv)))
  refine ⟨R, R', h1, h3, fun E hE hwork hpole => ?_⟩
  obtain ⟨⟨m, R₁⟩, h5⟩ := h2 E hwork hpole
  obtain ⟨⟨m', R₁'⟩, h6⟩ := h4 E (workingEnergy_same hs hwork) fun record hrec v hv hvE => by
    obtain ⟨x, hx, hxz⟩ := Relisted.mem hs.spinGroups hrec
    obtain ⟨i, row, width, q1, q2, q3, q4⟩ := hpole x hx v (hxz.resonances.mem_iff.mpr hv) hvE
    refine ⟨i, row, width, hxz.channels ▸ q1, ?_, q3, q4⟩
    obtain ⟨pr, q5, q6⟩ := q2
    exact ⟨pr, hs.pairs ▸ q5, q6⟩
  exact ⟨m, m', R₁, R₁', h5, h6, C93_rmatrix h1 h3 hp hs h.described h.distinct hflags
    h.neutral h.ordered h.groups hE h5 h6⟩

/-! ## Examples: evaluations turned round -/

theorem relisted_reverse {α : Type} {r : α → α → Prop} {f : α → α} {xs : List α} (h : ∀ x, r x (f x)) :
    Relisted r xs (xs.map f).reverse :=
  ⟨xs.map f, by
    rw [List.forall₂_map_right_iff]
    exact List.forall₂_same.mpr fun x _ => h x, (List.reverse_perm _).symm⟩

/-- A Breit-Wigner evaluation with all lists turned round. -/
noncomputable def BreitWigner.reversed (p : BreitWigner) : BreitWigner :=
  { p with lValues := (p.lValues.map fun lv => { lv with resonances := lv.resonances.reverse }).reverse }

theorem BreitWigner.reversed_same (p : BreitWigner) : SameBreitWigner p p.reversed :=
  ⟨rfl, rfl, relisted_reverse fun _ => ⟨rfl, rfl, rfl, rfl, (List.reverse_perm _).symm⟩⟩

/-- A Reich-Moore evaluation with all lists turned round. -/
noncomputable def ReichMoore.reversed (p : ReichMoore) : ReichMoore :=
  { p with lValues := (p.lValues.map fun lv => { lv with resonances := lv.resonances.reverse }).reverse }

theorem ReichMoore.reversed_same (p : ReichMoore) : SameReichMoore p p.reversed :=
  ⟨rfl, rfl, rfl, relisted_reverse fun _ => ⟨rfl, rfl, rfl, (List.reverse_perm _).symm⟩⟩

/-- Average parameters with all lists turned round. -/
noncomputable def UnresolvedParameters.reversed {J : Type} (p : UnresolvedParameters J) :
    UnresolvedParameters J :=
  { p with lValues := (p.lValues.map fun lv => { lv with jValues := lv.jValues.reverse }).reverse }

theorem UnresolvedParameters.reversed_same {J : Type} (p : UnresolvedParameters J) :
    SameUnresolved p p.reversed :=
  ⟨rfl, rfl, rfl, relisted_reverse fun _ => ⟨rfl, rfl, (List.reverse_perm _).symm⟩⟩

/-- An R-matrix-limited evaluation with the lists of spin groups and resonances turned round. -/
noncomputable def RMatrixLimited.reversed (p : RMatrixLimited) : RMatrixLimited :=
  { p with spinGroups := (p.spinGroups.map fun g => { g with resonances := g.resonances.reverse }).reverse }

theorem RMatrixLimited.reversed_same (p : RMatrixLimited) : SameRMatrix p p.reversed :=
  ⟨rfl, rfl, rfl, relisted_reverse fun _ => ⟨rfl, rfl, rfl, rfl, (List.reverse_perm _).symm⟩⟩

/-- Two s-wave resonances and a p-wave resonance, for either formalism. -/
example (multi : Bool) (tables : InterpolationLibrary) :
    ∃ R R', fromENDF K lib tables reactions initialBreitWigner initial 1 1 "n".toList "X".toList
        (BreitWignerExample.endfRange multi) = .ok R ∧
      fromENDF K lib tables reactions initialBreitWigner initial 1 1 "n".toList "X".toList
        { BreitWignerExample.endfRange multi with
          parameters := if multi then .multiLevel BreitWignerExample.evaluation.reversed
            else .singleLevel BreitWignerExample.evaluation.reversed } = .ok R' ∧
      ∃ m m' R₁ R₁', R.call K lib 3 = .ok (m, R₁) ∧ R'.call K lib 3 = .ok (m', R₁') ∧
        SameCrossSections m m' := by
  obtain ⟨R, R', h1, h2, h3⟩ := C93_breit_wigner_accepted (K := K) (lib := lib) (tables := tables)
    (reactions := reactions) (initialBreitWigner := initialBreitWigner) (initial := initial)
    (elementaryCharge := 1) (incident := "n".toList) (target := "X".toList)
    (range := BreitWignerExample.endfRange multi) (multi := multi) ⟨rfl, rfl⟩ rfl .none
    BreitWignerExample.physical (BreitWigner.reversed_same _) (by simp [BreitWignerExample.evaluation])
  exact ⟨R, R', h1, h2, h3 3 (by norm_num) (by norm_num [BreitWignerExample.endfRange])
    (BreitWignerExample.hasRadii 3)⟩

/-- Resonances with l = 0 and l = 1 in the Reich-Moore format. -/
example (tables : InterpolationLibrary) (elementaryCharge : ℝ) :
    let range : Range := ⟨1, 100, 1, 3, 1, none, .reichMoore (Example.evaluation 0)⟩
    ∃ R R', fromENDF K lib tables reactions initialBreitWigner initial 1 elementaryCharge "n".toList
        "Cl35".toList range = .ok R ∧
      fromENDF K lib tables reactions initialBreitWigner initial 1 elementaryCharge "n".toList
        "Cl35".toList { range with parameters := .reichMoore (Example.evaluation 0).reversed } = .ok R' ∧
      ∃ m m' R₁ R₁', R.call K lib 2 = .ok (m, R₁) ∧ R'.call K lib 2 = .ok (m', R₁') ∧
        SameCrossSections m m' := by
  intro range
  obtain ⟨R, R', h1, h2, h3⟩ := C93_reich_moore_accepted (K := K) (lib := lib) (tables := tables)
    (reactions := reactions) (initialBreitWigner := initialBreitWigner) (initial := initial)
    (elementaryCharge := elementaryCharge) (incident := "n".toList) (target := "Cl35".toList)
    (range := range) ⟨rfl, rfl⟩ rfl .none Example.physical (ReichMoore.reversed_same _) (by
      intro lv hlv r hr
      simp only [Example.evaluation, List.mem_cons, List.not_mem_nil, or_false] at hlv
      rcases hlv with rfl | rfl <;> simp only [List.mem_cons, List.not_mem_nil, or_false] at hr
      · rcases hr with rfl | rfl | rfl <;> norm_num
      · rcases hr with rfl | rfl <;> norm_num)
  refine ⟨R, R', h1, h2, h3 2 (by norm_num) (by norm_num [range])
    (Example.radiiAt (by norm_num [Example.evaluation]) _ _) ?_ ?_⟩
  · intro lv hlv
    refine Example.radiiAt ?_ _ _
    simp only [Example.evaluation, List.mem_cons, List.not_mem_nil, or_false] at hlv
    rcases hlv with rfl | rfl <;> norm_num [lengthOf, Example.evaluation]
  · intro lv hlv r hr
    simp only [Example.evaluation, List.mem_cons, List.not_mem_nil, or_false] at hlv
    rcases hlv with rfl | rfl <;> simp only [List.mem_cons, List.not_mem_nil, or_false] at hr <;>
      rcases hr with rfl | hr <;> norm_num <;> rcases hr with rfl | rfl <;> norm_num

/-- Average parameters for l = 0 and l = 1. -/
example :
    ∃ R R', fromENDF K lib UnresolvedExample.library reactions initialBreitWigner initial 1 1 "n".toList
        "X".toList UnresolvedExample.endfRange = .ok R ∧
      fromENDF K lib UnresolvedExample.library reactions initialBreitWigner initial 1 1 "n".toList "X".toList
        { UnresolvedExample.endfRange with
          parameters := .unresolvedDependent UnresolvedExample.evaluation.reversed } = .ok R' ∧
      ∃ m m' R₁ R₁', R.call K lib 5 = .ok (m, R₁) ∧ R'.call K lib 5 = .ok (m', R₁') ∧
        SameCrossSections m m' := by
  obtain ⟨R, R', h1, h2, h3⟩ := C93_unresolved_accepted (K := K) (lib := lib)
    (tables := UnresolvedExample.library) (reactions := reactions) (initialBreitWigner := initialBreitWigner)
    (initial := initial) (elementaryCharge := 1) (incident := "n".toList) (target := "X".toList)
    (range := UnresolvedExample.endfRange) UnresolvedExample.linear_makes UnresolvedExample.linear_conforms rfl
    (.dependent (UnresolvedParameters.reversed_same _)) UnresolvedExample.averages_eq .none
    UnresolvedExample.physical (channel := fun _ => .ok (1 / 2)) (scattering := fun _ => .ok (1 / 2))
    (BreitWignerExample.radii _)
  refine ⟨R, R', h1, h2, h3 5 (by norm_num)
    ⟨by norm_num [UnresolvedExample.endfRange], by norm_num [UnresolvedExample.endfRange]⟩
    ⟨1 / 2, by norm_num, rfl⟩ ⟨1 / 2, rfl⟩ ?_⟩
  intro g hg
  simp only [UnresolvedExample.averages, List.mem_cons, List.not_mem_nil, or_false] at hg
  rcases hg with rfl | rfl
  · exact ⟨⟨_, List.mem_cons_self, by norm_num⟩, _, List.mem_cons_of_mem _ List.mem_cons_self, by norm_num⟩
  · exact ⟨⟨_, List.mem_cons_self, by norm_num⟩, _, List.mem_cons_of_mem _ List.mem_cons_self, by norm_num⟩

namespace Example

/-- A spin group with two resonances; `l = 1` has negative parity. -/
noncomputable def twoRecord (spin : ℚ) (l : ℕ) : SpinGroupRecord :=
  ⟨spin, 0, [⟨1, 0, 2, 0, 1 / 2, 1 / 2⟩, ⟨2, l, 2, 0, 1 / 2, 1 / 2⟩], 2, [(10, [1, 1]), (20, [2, 1])]⟩

/-- An s wave and a p wave with two resonances each. -/
noncomputable def twoEvaluation : RMatrixLimited := ⟨3, 1, flagRows 1 1, [twoRecord 2 0, twoRecord (-2) 1]⟩

theorem twoRecord_ordered (spin : ℚ) (l : ℕ) :
    Ordered [photonPair, neutronPair] twoEvaluation (twoRecord spin l) where
  count := by simp [twoRecord, twoEvaluation, flagRows]
  number := by
    intro row hrow
    simp only [twoRecord, List.mem_cons, List.not_mem_nil, or_false] at hrow
    rcases hrow with rfl | rfl <;> simp [twoEvaluation, flagRows]
  type := by
    intro i row hi pair here there h1 h2 h3
    match i with
    | 0 =>
      simp only [twoRecord, List.getElem?_cons_zero, Option.some.injEq] at hi
      subst hi
      obtain rfl : here = there := Option.some.inj (h1.symm.trans h3)
      exact ⟨_, isType_channelType _ _, isType_channelType _ _⟩
    | 1 =>
      simp only [twoRecord, List.getElem?_cons_succ, List.getElem?_cons_zero, Option.some.injEq] at hi
      subst hi
      obtain rfl : here = there := Option.some.inj (h1.symm.trans h3)
      exact ⟨_, isType_channelType _ _, isType_channelType _ _⟩
    | i + 2 => simp [twoRecord] at hi
  capture := by
    have h : ∀ (i : ℕ) row, (twoRecord spin l).channels[i]? = some row → Captures twoEvaluation row → i = 0 := by
      intro i row hi hc
      match i with
      | 0 => rfl
      | 1 =>
        simp only [twoRecord, List.getElem?_cons_succ, List.getElem?_cons_zero, Option.some.injEq] at hi
        subst hi
        obtain ⟨pr, h1, h2⟩ := hc
        simp only [twoEvaluation, flagRows, Nat.add_one_sub_one, List.getElem?_cons_succ,
          List.getElem?_cons_zero, Option.some.injEq] at h1
        subst h1
        norm_num at h2
      | i + 2 => simp [twoRecord] at hi
    intro i j x y hi hj hx hy
    rw [h i x hi hx, h j y hj hy]
  energies := by norm_num [twoRecord]
  resonances := by simp [twoRecord]

theorem two_records {Q : SpinGroupRecord → Prop} (h : ∀ spin l, l ≤ 1 → |spin| = 2 → Q (twoRecord spin l)) :
    ∀ record ∈ twoEvaluation.spinGroups, Q record := by
  intro record hr
  simp only [twoEvaluation, List.mem_cons, List.not_mem_nil, or_false] at hr
  rcases hr with rfl | rfl
  · exact h _ _ (by norm_num) (by norm_num)
  · exact h _ _ (by norm_num) (by norm_num)

theorem two_physical : PhysicalRMatrix reactionLibrary 1 1 "n".toList "Cl35".toList
    twoEvaluation [photonPair, neutronPair] neutronPair where
  formalism := rfl
  described := flagRows_pairs 1 1
  distinct := by simp [photonPair, neutronPair]
  neutral := by
    intro row hrow
    simp only [twoEvaluation, flagRows, List.mem_cons, List.not_mem_nil, or_false] at hrow
    rcases hrow with rfl | rfl <;> rfl
  masses := by
    intro row hrow he
    simp only [twoEvaluation, flagRows, List.mem_cons, List.not_mem_nil, or_false] at hrow
    rcases hrow with rfl | rfl
    · simp [Emits] at he
    · norm_num
  elastic := ⟨1, _, rfl, rfl, rfl⟩
  capture := ⟨_, List.mem_cons_self, rfl⟩
  some := by simp [twoEvaluation]
  ordered := two_records fun spin l _ _ => twoRecord_ordered spin l
  groups := by
    refine List.pairwise_pair.mpr ?_
    rintro ⟨J, π, h1, h2⟩
    unfold SpinParity at h1 h2
    norm_num [twoRecord] at h1 h2
    omega
  spins := two_records fun spin l _ hspin => by
    refine ⟨⟨4, by rw [show (twoRecord spin l).spin = spin from rfl, hspin]; norm_num⟩, fun row hrow => ⟨4, ?_⟩⟩
    simp only [twoRecord, List.mem_cons, List.not_mem_nil, or_false] at hrow
    rcases hrow with rfl | rfl <;> norm_num
  entrance := two_records fun _ _ _ _ =>
    ⟨_, List.mem_cons_of_mem _ List.mem_cons_self, _, rfl, rfl⟩
  channels := two_records fun _ _ _ _ => by simp [twoRecord]
  widths := two_records fun spin l _ _ v hv => by
    simp only [twoRecord, List.mem_cons, List.not_mem_nil, or_false] at hv
    rcases hv with rfl | rfl <;> simp [twoRecord]
  particles := two_records fun spin l hl _ row hrow pr h1 he => by
    simp only [twoRecord, List.mem_cons, List.not_mem_nil, or_false] at hrow
    rcases hrow with rfl | rfl
    · norm_num
    · exact ⟨by dsimp only; omega, by norm_num⟩
  thresholds := by
    intro h
    simp [twoEvaluation] at h

/-- An s wave and a p wave with two resonances each, in the R-matrix-limited format, at the energy of one of
the resonances. -/
example (tables : InterpolationLibrary) :
    let range : Range := ⟨1, 100, 1, 7, 0, none, .rmatrixLimited twoEvaluation⟩
    ∃ R R', fromENDF K lib tables reactionLibrary initialBreitWigner initial 1 1 "n".toList
        "Cl35".toList range = .ok R ∧
      fromENDF K lib tables reactionLibrary initialBreitWigner initial 1 1 "n".toList
        "Cl35".toList { range with parameters := .rmatrixLimited twoEvaluation.reversed } = .ok R' ∧
      ∃ m m' R₁ R₁', R.call K lib 10 = .ok (m, R₁) ∧ R'.call K lib 10 = .ok (m', R₁') ∧
        SameCrossSections m m' := by
  intro range
  obtain ⟨R, R', h1, h2, h3⟩ := C93_rmatrix_accepted (K := K) (lib := lib) (tables := tables)
    (reactions := reactionLibrary) (initialBreitWigner := initialBreitWigner) (initial := initial)
    (range := range) ⟨rfl, rfl⟩ rfl rfl
    (PhysicalRMatrix.admissible two_physical) (fun hred => by simp [twoEvaluation] at hred) (by
      intro x hx y hy hxa
      simp only [twoEvaluation, flagRows, List.mem_cons, List.not_mem_nil, or_false] at hx hy
      rcases hx with rfl | rfl <;> rcases hy with rfl | rfl <;> exact hxa) (RMatrixLimited.reversed_same _)
  refine ⟨R, R', h1, h2, h3 10 (by norm_num [range]) (PhysicalRMatrix.working two_physical ?_) ?_⟩
  · intro row hrow
    simp only [twoEvaluation, flagRows, List.mem_cons, List.not_mem_nil, or_false] at hrow
    rcases hrow with rfl | rfl <;> norm_num [neutronPair]
  · refine two_records fun spin l _ _ v hv hv10 => ?_
    simp only [twoRecord, List.mem_cons, List.not_mem_nil, or_false] at hv
    rcases hv with rfl | rfl
    · exact ⟨0, _, 1, rfl, ⟨_, rfl, rfl⟩, rfl, one_ne_zero⟩
    · exact ⟨0, _, 2, rfl, ⟨_, rfl, rfl⟩, rfl, two_ne_zero⟩

end Example

end Verif.Endf
