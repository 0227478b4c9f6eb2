import Verif.Props.GridPoints
import Verif.Props.OrderMore
import Verif.Props.RMatrixRangeMore

/-!
# Properties C70, C75 and C93 with charged particles: an example

Neutrons on chlorine 35 with emission of protons.
-/

namespace Verif.Endf.Example

open Spec

/-- The names of the products of capture and of proton emission. -/
def protonLibrary : ReactionLibrary := fun _ _ mt =>
  if mt = 102 then .ok ("g".toList, "Cl36".toList) else .ok ("p".toList, "S35".toList)

/-- The pairs: capture, elastic scattering, and protons with a Q value of 600 keV. -/
noncomputable def protonRows : List ParticlePairRow :=
  [⟨0, 36, 0, 17, 1, 2, 1, 1, 8000000, 0, 102⟩, ⟨1, 35, 0, 17, 1 / 2, 3 / 2, 1, 1, 0, 0, 2⟩,
    ⟨1, 35, 1, 16, 1 / 2, 3 / 2, 1, 1, 600000, 0, 103⟩]

noncomputable def protonPair : ParticlePair :=
  ⟨⟨"p".toList, 1, 1, 1 / 2, 1⟩, ⟨"S35".toList, 35, 16, 3 / 2, 1⟩, "p,S35".toList, 35 / 36, 35 / 36⟩

noncomputable def protonPairs : List ParticlePair := [photonPair, neutronPair, protonPair]

theorem protonPairs_made : makeParticlePairs protonLibrary 1 1 "n".toList "Cl35".toList protonRows
    = .ok protonPairs := by
  unfold makeParticlePairs
  rw [mapM_ok]
  refine .cons ?_ (.cons ?_ (.cons ?_ .nil))
  · norm_num [makeParticleIDs, makeParticle, makeParticlePair, parityOf, bind, Except.bind, pure,
      Except.pure, pairID, protonLibrary, photonPair]
    rfl
  · norm_num [makeParticleIDs, makeParticle, makeParticlePair, parityOf, bind, Except.bind, pure,
      Except.pure, pairID, protonLibrary, neutronPair]
    rfl
  · norm_num [makeParticleIDs, makeParticle, makeParticlePair, parityOf, bind, Except.bind, pure,
      Except.pure, pairID, protonLibrary, protonPair]
    rfl

/-- An s-wave spin group with J = 2 and two resonances. -/
noncomputable def protonRecord : SpinGroupRecord :=
  ⟨2, 0, [⟨1, 0, 2, 0, 1 / 2, 1 / 2⟩, ⟨2, 0, 2, 0, 1 / 2, 1 / 2⟩, ⟨3, 0, 2, 0, 1 / 2, 1 / 2⟩], 2,
    [(10, [1, 2, 3]), (20, [1, 1, -1])]⟩

/-- The evaluation; the widths are not reduced. -/
noncomputable def protonEvaluation : RMatrixLimited := ⟨3, 0, protonRows, [protonRecord]⟩

theorem proton_ordered : Ordered protonPairs protonEvaluation protonRecord where
  count := by simp [protonRecord, protonEvaluation, protonRows]
  number := by
    intro row hrow
    simp only [protonRecord, List.mem_cons, List.not_mem_nil, or_false] at hrow
    rcases hrow with rfl | rfl | rfl <;> simp [protonEvaluation, protonRows]
  type := by
    intro i row hi pair here there h1 h2 h3
    match i with
    | 0 =>
      simp only [protonRecord, List.getElem?_cons_zero, Option.some.injEq] at hi
      subst hi
      obtain rfl : here = there := Option.some.inj (h1.symm.trans h3)
      exact ⟨_, isType_channelType _ _, isType_channelType _ _⟩
    | 1 =>
      simp only [protonRecord, List.getElem?_cons_succ, List.getElem?_cons_zero, Option.some.injEq] at hi
      subst hi
      obtain rfl : here = there := Option.some.inj (h1.symm.trans h3)
      exact ⟨_, isType_channelType _ _, isType_channelType _ _⟩
    | 2 =>
      simp only [protonRecord, List.getElem?_cons_succ, List.getElem?_cons_zero, Option.some.injEq] at hi
      subst hi
      obtain rfl : here = there := Option.some.inj (h1.symm.trans h3)
      exact ⟨_, isType_channelType _ _, isType_channelType _ _⟩
    | i + 3 => simp [protonRecord] at hi
  capture := by
    have h : ∀ (i : ℕ) row, protonRecord.channels[i]? = some row → Captures protonEvaluation row → i = 0 := by
      intro i row hi hc
      match i with
      | 0 => rfl
      | 1 =>
        simp only [protonRecord, List.getElem?_cons_succ, List.getElem?_cons_zero, Option.some.injEq] at hi
        subst hi
        obtain ⟨pr, h1, h2⟩ := hc
        simp only [protonEvaluation, protonRows, Nat.add_one_sub_one, List.getElem?_cons_succ,
          List.getElem?_cons_zero, Option.some.injEq] at h1
        subst h1
        norm_num at h2
      | 2 =>
        simp only [protonRecord, List.getElem?_cons_succ, List.getElem?_cons_zero, Option.some.injEq] at hi
        subst hi
        obtain ⟨pr, h1, h2⟩ := hc
        simp only [protonEvaluation, protonRows, Nat.add_one_sub_one, List.getElem?_cons_succ,
          List.getElem?_cons_zero, Option.some.injEq] at h1
        subst h1
        norm_num at h2
      | i + 3 => simp [protonRecord] at hi
    intro i j x y hi hj hx hy
    rw [h i x hi hx, h j y hj hy]
  energies := by norm_num [protonRecord]
  resonances := by simp [protonRecord]

theorem proton_admissible : AdmissibleRMatrix protonLibrary 1 1 "n".toList "Cl35".toList
    protonEvaluation protonPairs neutronPair where
  formalism := rfl
  described := isPairs_of (p := ⟨3, 0, protonRows, []⟩) protonPairs_made
  distinct := by simp [protonPairs, photonPair, neutronPair, protonPair]
  neutral := by
    intro row hrow h2
    simp only [protonEvaluation, protonRows, List.mem_cons, List.not_mem_nil, or_false] at hrow
    rcases hrow with rfl | rfl | rfl
    · rfl
    · rfl
    · norm_num at h2
  masses := by
    intro row hrow he
    simp only [protonEvaluation, protonRows, List.mem_cons, List.not_mem_nil, or_false] at hrow
    rcases hrow with rfl | rfl | rfl
    · simp [Emits] at he
    · norm_num
    · norm_num
  elastic := ⟨1, _, rfl, rfl, rfl⟩
  capture := ⟨_, List.mem_cons_self, rfl⟩
  some := by simp [protonEvaluation]
  ordered := by
    intro record hr
    obtain rfl := List.mem_singleton.mp hr
    exact proton_ordered
  groups := List.pairwise_singleton _ _
  spins := by
    intro record hr
    obtain rfl := List.mem_singleton.mp hr
    refine ⟨⟨4, by norm_num [protonRecord]⟩, fun row hrow => ⟨4, ?_⟩⟩
    simp only [protonRecord, List.mem_cons, List.not_mem_nil, or_false] at hrow
    rcases hrow with rfl | rfl | rfl <;> norm_num
  entrance := by
    intro record hr
    obtain rfl := List.mem_singleton.mp hr
    exact ⟨_, List.mem_cons_of_mem _ List.mem_cons_self, _, rfl, rfl⟩
  channels := by
    intro record hr
    obtain rfl := List.mem_singleton.mp hr
    simp [protonRecord]
  widths := by
    intro record hr v hv
    obtain rfl := List.mem_singleton.mp hr
    simp only [protonRecord, List.mem_cons, List.not_mem_nil, or_false] at hv
    rcases hv with rfl | rfl <;> simp [protonRecord]
  particles := by
    intro record hr row hrow pr h1 he
    obtain rfl := List.mem_singleton.mp hr
    simp only [protonRecord, List.mem_cons, List.not_mem_nil, or_false] at hrow
    rcases hrow with rfl | rfl | rfl <;> norm_num

/-- Libraries that have Coulomb wave functions for all positive channel ratios. -/
def Complete (lib : CoulombLibrary) : Prop :=
  ∀ l ρ η, 0 < ρ → ∃ w, lib l ρ η = .ok w ∧ ¬ (w.F = 0 ∧ w.G = 0)

/-- For instance one that ignores the charge. -/
example : Complete fun _ ρ _ => .ok ⟨Real.sin ρ, Real.cos ρ, Real.cos ρ, -Real.sin ρ⟩ := by
  intro l ρ η _
  refine ⟨_, rfl, ?_⟩
  rintro ⟨h1, h2⟩
  have := Real.sin_sq_add_cos_sq ρ
  dsimp only at h1 h2
  first
  | rw [h1, h2] at this
  | rw [h2, h1] at this
  norm_num at this

theorem proton_working {K : Constants} {lib : CoulombLibrary} (hl : Complete lib) {E : ℝ} (hE : 0 < E) :
    WorkingEnergy K lib protonEvaluation protonPairs neutronPair E where
  threshold := by
    intro row hrow
    simp only [protonEvaluation, protonRows, List.mem_cons, List.not_mem_nil, or_false] at hrow
    rcases hrow with rfl | rfl | rfl <;> norm_num [neutronPair] <;> positivity
  charged := by
    intro record hr row hrow pr exit h1 h2 he hc
    obtain rfl := List.mem_singleton.mp hr
    have hk : row.pairNumber = 3 ∧ row.l = 0 ∧ row.trueRadius = 1 / 2 ∧ row.effectiveRadius = 1 / 2 := by
      simp only [protonRecord, List.mem_cons, List.not_mem_nil, or_false] at hrow
      rcases hrow with rfl | rfl | rfl
      · simp only [protonPairs, Nat.sub_self, List.getElem?_cons_zero, Option.some.injEq] at h2
        subst h2
        norm_num [photonPair] at hc
      · simp only [protonPairs, Nat.add_one_sub_one, List.getElem?_cons_succ, List.getElem?_cons_zero,
          Option.some.injEq] at h2
        subst h2
        norm_num [neutronPair] at hc
      · norm_num
    obtain ⟨k1, k2, k3, k4⟩ := hk
    rw [k1] at h1 h2
    obtain rfl := Option.some.inj h1
    obtain rfl := Option.some.inj h2
    have hρ : 0 < Real.sqrt (2 * protonPair.reducedMass * |neutronPair.massRatio * E + 600000|) / K.hbar := by
      refine div_pos (Real.sqrt_pos.mpr ?_) K.hbar_pos
      norm_num [protonPair, neutronPair]
      positivity
    rw [k2, k3, k4]
    refine ⟨hl _ _ _ (by positivity), ?_, ?_⟩
    · exact (hl 0 _ _ (by positivity)).imp fun _ h => h.1
    · intro n h3 h4
      omega

/-- The range is accepted and has cross sections at the energy of a resonance and everywhere else, and the
order of the resonances does not matter. -/
example {K : Constants} {lib : CoulombLibrary} (hl : Complete lib) (tables : InterpolationLibrary)
    (initialBreitWigner : Channel → Verif.BreitWigner.Cache)
    (initial : (g : SpinGroup) → MatrixCache g.channels.length) :
    let range : Range := ⟨1, 100, 1, 7, 0, none, .rmatrixLimited protonEvaluation⟩
    ∃ R R', fromENDF K lib tables protonLibrary initialBreitWigner initial 1 1 "n".toList
        "Cl35".toList range = .ok R ∧
      fromENDF K lib tables protonLibrary initialBreitWigner initial 1 1 "n".toList
        "Cl35".toList { range with parameters := .rmatrixLimited protonEvaluation.reversed } = .ok R' ∧
      ∀ E, 1 ≤ E ∧ E ≤ 100 → ∃ m m' R₁ R₁', R.call K lib E = .ok (m, R₁) ∧ R'.call K lib E = .ok (m', R₁') ∧
        SameCrossSections m m' := by
  intro range
  obtain ⟨R, R', h1, h2, h3⟩ := C93_rmatrix_accepted (K := K) (lib := lib) (tables := tables)
    (reactions := protonLibrary) (initialBreitWigner := initialBreitWigner) (initial := initial)
    (range := range) ⟨rfl, rfl⟩ rfl rfl proton_admissible (by
      intro _ record hr v hv
      obtain rfl := List.mem_singleton.mp hr
      refine proton_working hl ?_
      simp only [protonRecord, List.mem_cons, List.not_mem_nil, or_false] at hv
      rcases hv with rfl | rfl <;> norm_num) (by
      intro x hx y hy hxa
      simp only [protonEvaluation, protonRows, List.mem_cons, List.not_mem_nil, or_false] at hx hy
      rcases hx with rfl | rfl | rfl <;> rcases hy with rfl | rfl | rfl <;> exact hxa)
    (RMatrixLimited.reversed_same _)
  refine ⟨R, R', h1, h2, fun E hE => h3 E hE (proton_working hl (by linarith [hE.1])) ?_⟩
  intro record hr v hv _
  obtain rfl := List.mem_singleton.mp hr
  simp only [protonRecord, List.mem_cons, List.not_mem_nil, or_false] at hv
  rcases hv with rfl | rfl
  · exact ⟨0, _, 1, rfl, ⟨_, rfl, rfl⟩, rfl, one_ne_zero⟩
  · exact ⟨0, _, 1, rfl, ⟨_, rfl, rfl⟩, rfl, one_ne_zero⟩

/-- It has a grid, and cross sections at all points of the grid. -/
example {K : Constants} {lib : CoulombLibrary} (hl : Complete lib) (tables : InterpolationLibrary)
    (initialBreitWigner : Channel → Verif.BreitWigner.Cache)
    (initial : (g : SpinGroup) → MatrixCache g.channels.length) :
    ∃ R points, fromENDF K lib tables protonLibrary initialBreitWigner initial 1 1 "n".toList
        "Cl35".toList ⟨1, 100, 1, 7, 0, none, .rmatrixLimited protonEvaluation⟩ = .ok R ∧
      (∀ fuel, R.grid K lib fuel = .ok (some points)) ∧
      ∀ x ∈ points, 0 < x → ∃ v, R.call K lib x = .ok v := by
  obtain ⟨R, points, h1, h2, h3⟩ := C75_charged_partial (K := K) (lib := lib) (tables := tables)
    (reactions := protonLibrary) (initialBreitWigner := initialBreitWigner) (initial := initial)
    (range := ⟨1, 100, 1, 7, 0, none, .rmatrixLimited protonEvaluation⟩) ⟨rfl, rfl⟩ rfl rfl
    proton_admissible (by
      intro record hr v hv _
      obtain rfl := List.mem_singleton.mp hr
      refine proton_working hl ?_
      simp only [protonRecord, List.mem_cons, List.not_mem_nil, or_false] at hv
      rcases hv with rfl | rfl <;> norm_num)
  refine ⟨R, points, h1, h2, fun x hx h0 => h3 ?_ x hx (proton_working hl h0)⟩
  intro record hr v hv _ _
  obtain rfl := List.mem_singleton.mp hr
  simp only [protonRecord, List.mem_cons, List.not_mem_nil, or_false] at hv
  rcases hv with rfl | rfl
  · exact ⟨0, _, 1, rfl, ⟨_, rfl, rfl⟩, rfl, one_ne_zero⟩
  · exact ⟨0, _, 1, rfl, ⟨_, rfl, rfl⟩, rfl, one_ne_zero⟩

end Verif.Endf.Example
