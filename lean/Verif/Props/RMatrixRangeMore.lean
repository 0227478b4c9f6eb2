import Verif.Props.RMatrixRange

/-!
# C70: the flag SHF
-/

namespace Verif.Endf

open Spec Complex

variable {K : Constants} {lib : CoulombLibrary} {tables : InterpolationLibrary}
  {reactions : ReactionLibrary} {initialBreitWigner : Channel → Verif.BreitWigner.Cache}
  {initial : (g : SpinGroup) → MatrixCache g.channels.length} {neutronMass elementaryCharge E : ℝ}
  {incident target : Str} {range : Range} {p : RMatrixLimited} {R R' : Reconstructor}
  {m : ReactionMap} {pairs : List ParticlePair}

/-- The same pair with another flag SHF. -/
def withFlag (row : ParticlePairRow) (flag : ℤ) : ParticlePairRow := { row with shiftFactorFlag := flag }

/-- The same pairs, with the flag SHF of each replaced. -/
def withFlags (flag : ParticlePairRow → ℤ) (p : RMatrixLimited) : RMatrixLimited :=
  { p with pairs := p.pairs.map fun row => withFlag row (flag row) }

theorem findParticlePair_flags (flag : ParticlePairRow → ℤ) (rows : List ParticlePairRow) (mt : ℤ) :
    findParticlePair (rows.map fun row => withFlag row (flag row)) mt = findParticlePair rows mt := by
  unfold findParticlePair
  rw [List.findIdx_map]
  rfl

theorem makeParticlePairs_flags (flag : ParticlePairRow → ℤ) (rows : List ParticlePairRow) :
    makeParticlePairs reactions neutronMass elementaryCharge incident target
      (rows.map fun row => withFlag row (flag row))
      = makeParticlePairs reactions neutronMass elementaryCharge incident target rows := by
  unfold makeParticlePairs
  rw [List.mapM_map]
  rfl

theorem makeParticleChannels_flags (flag : ParticlePairRow → ℤ) (rows : List ParticlePairRow)
    (pair : ParticlePair) (record : SpinGroupRecord) :
    makeParticleChannels pair pairs (rows.map fun row => withFlag row (flag row)) record
      = makeParticleChannels pair pairs rows record := by
  unfold makeParticleChannels
  dsimp only
  rw [List.map_map]
  have : (ParticlePairRow.mt ∘ fun row => withFlag row (flag row)) = ParticlePairRow.mt := rfl
  rw [this]
  congr 1
  funext ⟨inc, row, mt⟩
  dsimp only
  by_cases h0 : row.pairNumber = 0
  · rw [if_pos h0, if_pos h0]
  rw [if_neg h0, if_neg h0, List.getElem?_map]
  cases pairs[row.pairNumber - 1]? <;> cases rows[row.pairNumber - 1]? <;> rfl

theorem makeRMatrixCompoundSystem_flags (flag : ParticlePairRow → ℤ) (p : RMatrixLimited) :
    makeRMatrixCompoundSystem K lib initial reactions neutronMass elementaryCharge incident target
      (withFlags flag p)
      = makeRMatrixCompoundSystem K lib initial reactions neutronMass elementaryCharge incident target p := by
  unfold makeRMatrixCompoundSystem withFlags
  dsimp only
  rw [makeParticlePairs_flags]
  congr 1
  funext prs
  rw [findParticlePair_flags]
  have : ∀ pair, makeParticleChannelData K lib pair prs (p.pairs.map fun row => withFlag row (flag row))
      (p.reducedWidths != 0) = makeParticleChannelData K lib pair prs p.pairs (p.reducedWidths != 0) := by
    intro pair
    funext record
    unfold makeParticleChannelData
    rw [makeParticleChannels_flags, findParticlePair_flags]
  simp only [this]

/-- C70, what the code does instead: of the flags SHF only that of the first pair counts. -/
theorem C70_flags (flag : ParticlePairRow → ℤ) (hp : range.parameters = .rmatrixLimited p)
    (hfirst : ∀ row ∈ p.pairs.head?, flag row = row.shiftFactorFlag) :
    fromENDF K lib tables reactions initialBreitWigner initial neutronMass elementaryCharge incident target
      { range with parameters := .rmatrixLimited (withFlags flag p) }
      = fromENDF K lib tables reactions initialBreitWigner initial neutronMass elementaryCharge incident
        target range := by
  have hs := makeRMatrixCompoundSystem_flags (K := K) (lib := lib) (initial := initial)
    (reactions := reactions) (neutronMass := neutronMass) (elementaryCharge := elementaryCharge)
    (incident := incident) (target := target) flag p
  unfold fromENDF
  dsimp only
  rw [hp]
  congr 1
  funext nro
  split
  · split
    · rfl
    split
    · rfl
    split
    · rfl
    split
    · dsimp only
      cases hl : p.pairs with
      | nil =>
        rw [show (withFlags flag p).pairs = [] by unfold withFlags; rw [hl]; rfl]
      | cons first rest =>
        rw [show (withFlags flag p).pairs = withFlag first (flag first) ::
          rest.map fun row => withFlag row (flag row) by unfold withFlags; rw [hl]; rfl]
        dsimp only
        rw [hs]
        have h1 : (withFlag first (flag first)).shiftFactorFlag = first.shiftFactorFlag := by
          rw [← hfirst first (by rw [hl]; rfl)]
          rfl
        rw [h1]
        rfl
    · rfl
  · rfl

/-- C70 in full: with as many pairs, channels and spin groups as one likes, for neutral incident
particles. -/
def C70_claim : Prop := ∀ (K : Constants) (lib : CoulombLibrary) (tables : InterpolationLibrary)
  (reactions : ReactionLibrary) (initialBreitWigner : Channel → Verif.BreitWigner.Cache)
  (initial : (g : SpinGroup) → MatrixCache g.channels.length) (neutronMass elementaryCharge E : ℝ)
  (incident target : Str) (range : Range) (p : RMatrixLimited) (R R' : Reconstructor) (m : ReactionMap)
  (pairs : List ParticlePair),
  fromENDF K lib tables reactions initialBreitWigner initial neutronMass elementaryCharge incident target
    range = .ok R →
  range.parameters = .rmatrixLimited p →
  List.Forall₂ (IsPair reactions neutronMass elementaryCharge incident target) p.pairs pairs →
  (pairs.map ParticlePair.id).Nodup →
  (∀ row ∈ p.pairs, row.mt = 2 → row.chargeA = 0) →
  range.lower ≤ E ∧ E ≤ range.upper →
  R.call K lib E = .ok (m, R') →
  ∃ (i : ℕ) (row : ParticlePairRow) (pair : ParticlePair) (gs : List RGroup),
    p.pairs[i]? = some row ∧ row.mt = 2 ∧ pairs[i]? = some pair ∧
    IsRMatrix K lib pair row.q pairs p E gs (fun id => m (.inl id)) ∧ ∀ id, m (.inr id) = none

/-! ## A p-wave resonance -/

/-- The capture of a group with one resonance at the energy 10, a capture channel and an elastic channel. -/
theorem capture_two {channel : Fin 2 → Channel} {elim own : Fin 2 → Prop} {P S φ w : Fin 2 → ℝ}
    (he0 : elim 0) (he1 : ¬ elim 1) (w0 : w 0 = 1) (w1 : w 1 = 1)
    (h0 : (channel 0).pair.id ≠ (channel 0).incident.id) (h1 : (channel 1).pair.id = (channel 1).incident.id)
    (hopen : ¬ (channel 1).incident.massRatio * 10 + (channel 1).q < 0) (hP : 0 ≤ P 1) {L : ℝ}
    (hL : (own 1 ∧ L = 0) ∨ (¬ own 1 ∧ L = S 1 - (channel 1).boundary)) :
    (RGroup.mk 2 channel elim own P S φ [⟨10, w⟩]).capture K 10
      = 4 * P 1 / ((1 + P 1) ^ 2 + L ^ 2) := by
  classical
  set g : RGroup := ⟨2, channel, elim, own, P, S, φ, [⟨10, w⟩]⟩ with hg
  have hcap : g.captureHalf ⟨10, w⟩ = 1 := by
    unfold RGroup.captureHalf
    show (∑ c : Fin 2, if elim c then w c ^ 2 else 0) = 1
    rw [Fin.sum_univ_two, if_pos he0, if_neg he1, w0]
    norm_num
  have ha0 : g.amplitude 10 ⟨10, w⟩ (0 : Fin 2) = 0 := if_pos (.inl he0)
  have ha1 : g.amplitude 10 ⟨10, w⟩ (1 : Fin 2) = 1 := by
    refine (if_neg ?_).trans w1
    rw [not_or]
    exact ⟨he1, hopen⟩
  have hR : ∀ c c' : Fin 2, g.R 10 c c' = (g.amplitude 10 ⟨10, w⟩ c : ℂ) * g.amplitude 10 ⟨10, w⟩ c' * I := by
    intro c c'
    unfold RGroup.R
    rw [Matrix.of_apply, show g.levels = [⟨10, w⟩] from rfl, List.map_singleton, List.sum_singleton, hcap]
    have : ((10 : ℝ) : ℂ) - (10 : ℝ) - I * (1 : ℝ) = -I := by push_cast; ring
    rw [this, div_neg, div_I, neg_neg]
  have hL1 : g.L (1 : Fin 2) = (L : ℂ) + I * P 1 := by
    unfold RGroup.L
    show (if own 1 then 0 else (S 1 : ℂ) - (channel 1).boundary) + I * P 1 = _
    rcases hL with ⟨ho, rfl⟩ | ⟨ho, rfl⟩
    · rw [if_pos ho]
      simp
    · rw [if_neg ho]
      push_cast
      ring
  set d : ℂ := 1 - I * g.L (1 : Fin 2) with hd
  have hdv : d = ((1 + P 1 : ℝ) : ℂ) - L * I := by
    rw [hd, hL1]
    push_cast
    linear_combination -(P 1 : ℂ) * I_mul_I
  have hdn : normSq d = (1 + P 1) ^ 2 + L ^ 2 := by
    rw [hdv, normSq_apply]
    simp
    ring
  have hpos : 0 < (1 + P 1) ^ 2 + L ^ 2 := by positivity
  have hd0 : d ≠ 0 := by
    intro h
    rw [h, normSq_zero] at hdn
    exact hpos.ne hdn
  have hX : (1 - g.R 10 * Matrix.diagonal g.L)⁻¹ * g.R 10
      = (Matrix.of fun c c' : Fin 2 => if c = 1 ∧ c' = 1 then I / d else 0) := by
    have hone : 1 - g.R 10 * Matrix.diagonal g.L = !![1, 0; 0, d] := by
      ext c c'
      rw [Matrix.sub_apply, Matrix.mul_diagonal, hR]
      fin_cases c <;> fin_cases c'
      · simp [ha0]
      · simp [ha0]
      · simp [ha0]
      · simp only [Fin.mk_one, Matrix.one_apply_eq, ha1, ofReal_one, one_mul, hd]
        rfl
    have hmul : (1 - g.R 10 * Matrix.diagonal g.L)
        * (Matrix.of fun c c' : Fin 2 => if c = 1 ∧ c' = 1 then I / d else 0) = g.R 10 := by
      rw [hone]
      ext c c'
      rw [hR, Matrix.mul_apply]
      have : ∀ f : Fin 2 → ℂ, ∑ j, f j = f 0 + f 1 := Fin.sum_univ_two
      refine (this _).trans ?_
      fin_cases c <;> fin_cases c'
      · simp [ha0]
      · simp [ha0]
      · simp [ha0]
      · simp [ha1]
        field_simp
    have hdet : IsUnit (1 - g.R 10 * Matrix.diagonal g.L).det := by
      rw [hone, isUnit_iff_ne_zero]
      erw [Matrix.det_fin_two_of]
      simpa using hd0
    refine (congrArg (fun X => (1 - g.R 10 * Matrix.diagonal g.L)⁻¹ * X) hmul.symm).trans ?_
    exact Matrix.nonsing_inv_mul_cancel_left _ _ hdet
  have hT : ∀ c : Fin 2, g.T 10 (1 : Fin 2) c = if c = 1 then (P 1 : ℂ) * (I / d) else 0 := by
    intro c
    unfold RGroup.T
    rw [Matrix.of_apply, hX, Matrix.of_apply]
    by_cases hc : c = 1
    · rw [if_pos ⟨rfl, hc⟩, if_pos hc, hc]
      show (Real.sqrt (P 1) : ℂ) * (I / d) * (Real.sqrt (P 1) : ℂ) = _
      have : (Real.sqrt (P 1) : ℂ) * (Real.sqrt (P 1) : ℂ) = P 1 := by
        rw [← ofReal_mul, Real.mul_self_sqrt hP]
      linear_combination (I / d) * this
    · rw [if_neg hc, if_neg (fun h => hc h.2)]
      simp
  have hi0 : ¬ g.isIncident (0 : Fin 2) := h0
  have hi1 : g.isIncident (1 : Fin 2) := h1
  unfold RGroup.capture RGroup.U
  have hsum : ∀ f : Fin 2 → ℝ, ∑ j, f j = f 0 + f 1 := Fin.sum_univ_two
  refine (hsum _).trans ?_
  rw [if_neg hi0, if_pos hi1, zero_add]
  refine (congrArg (fun x => 1 - x) (hsum _)).trans ?_
  have h10 : ¬ (1 : Fin 2) = 0 := by decide
  have h01 : ¬ (0 : Fin 2) = 1 := by decide
  rw [normSq_collision, normSq_collision, hT, hT, if_neg h10, if_neg h01, if_pos rfl, if_pos rfl, mul_zero,
    zero_add, normSq_zero, zero_add]
  have he : (1 : ℂ) + 2 * I * ((P 1 : ℂ) * (I / d)) = (((1 - P 1 : ℝ) : ℂ) - L * I) / d := by
    rw [eq_div_iff hd0]
    have : (2 * I * ((P 1 : ℂ) * (I / d))) * d = -2 * P 1 := by
      field_simp
      rw [I_sq]
      ring
    rw [add_mul, this, hdv]
    push_cast
    ring
  rw [he, normSq_div, hdn]
  have : normSq (((1 - P 1 : ℝ) : ℂ) - L * I) = (1 - P 1) ^ 2 + L ^ 2 := by
    rw [normSq_apply]
    simp
    ring
  rw [this, eq_div_iff hpos.ne', sub_mul, div_mul_cancel₀ _ hpos.ne']
  ring

namespace Example

/-- The pairs of the example in `RMatrixLimited`, with any flags SHF. -/
noncomputable def flagRows (a b : ℤ) : List ParticlePairRow :=
  [⟨0, 36, 0, 17, 1, 2, 1, 1, 8000000, a, 102⟩, ⟨1, 35, 0, 17, 1 / 2, 3 / 2, 1, 1, 0, b, 2⟩]

/-- A p-wave resonance with J = 2 at the energy 10. -/
noncomputable def waveRecord : SpinGroupRecord :=
  ⟨-2, 0, [⟨1, 0, 2, 0, 1 / 2, 1 / 2⟩, ⟨2, 1, 2, 0, 1 / 2, 1 / 2⟩], 1, [(10, [1, 1])]⟩

/-- The evaluation with this spin group. -/
noncomputable def waveEvaluation (a b : ℤ) : RMatrixLimited := ⟨3, 1, flagRows a b, [waveRecord]⟩

/-- Its range. -/
noncomputable def waveRange (a b : ℤ) : Range :=
  ⟨1, 100, 1, 7, 0, none, .rmatrixLimited (waveEvaluation a b)⟩

theorem flagRows_pairs (a b : ℤ) : List.Forall₂ (IsPair reactionLibrary 1 1 "n".toList "Cl35".toList)
    (flagRows a b) [photonPair, neutronPair] := by
  have h := isPairs_of (p := ⟨3, 1, pairRows, []⟩) pairs
  obtain ⟨h1, h⟩ := List.forall₂_cons.mp h
  obtain ⟨h2, -⟩ := List.forall₂_cons.mp h
  refine .cons ?_ (.cons ?_ .nil)
  · exact ⟨h1.name, h1.masses, h1.charges, h1.first, h1.second, h1.notNegative, h1.total, h1.reduced, h1.ratio⟩
  · exact ⟨h2.name, h2.masses, h2.charges, h2.first, h2.second, h2.notNegative, h2.total, h2.reduced, h2.ratio⟩

theorem waveRecord_ordered (a b : ℤ) : Ordered [photonPair, neutronPair] (waveEvaluation a b) waveRecord where
  count := by simp [waveRecord, waveEvaluation, flagRows]
  number := by
    intro row hrow
    simp only [waveRecord, List.mem_cons, List.not_mem_nil, or_false] at hrow
    rcases hrow with rfl | rfl <;> simp [waveEvaluation, flagRows]
  type := by
    intro i row hi pair here there h1 h2 h3
    match i with
    | 0 =>
      simp only [waveRecord, List.getElem?_cons_zero, Option.some.injEq] at hi
      subst hi
      obtain rfl : here = there := Option.some.inj (h1.symm.trans h3)
      exact ⟨_, isType_channelType _ _, isType_channelType _ _⟩
    | 1 =>
      simp only [waveRecord, List.getElem?_cons_succ, List.getElem?_cons_zero, Option.some.injEq] at hi
      subst hi
      obtain rfl : here = there := Option.some.inj (h1.symm.trans h3)
      exact ⟨_, isType_channelType _ _, isType_channelType _ _⟩
    | i + 2 => simp [waveRecord] at hi
  capture := by
    have h : ∀ (i : ℕ) row, waveRecord.channels[i]? = some row → Captures (waveEvaluation a b) row → i = 0 := by
      intro i row hi hc
      match i with
      | 0 => rfl
      | 1 =>
        simp only [waveRecord, List.getElem?_cons_succ, List.getElem?_cons_zero, Option.some.injEq] at hi
        subst hi
        obtain ⟨pr, h1, h2⟩ := hc
        simp only [waveEvaluation, flagRows, Nat.add_one_sub_one, List.getElem?_cons_succ,
          List.getElem?_cons_zero, Option.some.injEq] at h1
        subst h1
        norm_num at h2
      | i + 2 => simp [waveRecord] at hi
    intro i j x y hi hj hx hy
    rw [h i x hi hx, h j y hj hy]
  energies := by simp [waveRecord]
  resonances := by simp [waveRecord]

theorem wave_physical (a b : ℤ) : PhysicalRMatrix reactionLibrary 1 1 "n".toList "Cl35".toList
    (waveEvaluation a b) [photonPair, neutronPair] neutronPair where
  formalism := rfl
  described := flagRows_pairs a b
  distinct := by simp [photonPair, neutronPair]
  neutral := by
    intro row hrow
    simp only [waveEvaluation, flagRows, List.mem_cons, List.not_mem_nil, or_false] at hrow
    rcases hrow with rfl | rfl <;> rfl
  masses := by
    intro row hrow he
    simp only [waveEvaluation, flagRows, List.mem_cons, List.not_mem_nil, or_false] at hrow
    rcases hrow with rfl | rfl
    · simp [Emits] at he
    · norm_num
  elastic := ⟨1, _, rfl, rfl, rfl⟩
  capture := ⟨_, List.mem_cons_self, rfl⟩
  some := by simp [waveEvaluation]
  ordered := by
    intro record hr
    obtain rfl := List.mem_singleton.mp hr
    exact waveRecord_ordered a b
  groups := List.pairwise_singleton _ _
  spins := by
    intro record hr
    obtain rfl := List.mem_singleton.mp hr
    refine ⟨⟨4, by norm_num [waveRecord]⟩, fun row hrow => ⟨4, ?_⟩⟩
    simp only [waveRecord, List.mem_cons, List.not_mem_nil, or_false] at hrow
    rcases hrow with rfl | rfl <;> norm_num
  entrance := by
    intro record hr
    obtain rfl := List.mem_singleton.mp hr
    exact ⟨_, List.mem_cons_of_mem _ List.mem_cons_self, _, rfl, rfl⟩
  channels := by
    intro record hr
    obtain rfl := List.mem_singleton.mp hr
    simp [waveRecord]
  widths := by
    intro record hr v hv
    obtain rfl := List.mem_singleton.mp hr
    obtain rfl := List.mem_singleton.mp hv
    simp [waveRecord]
  particles := by
    intro record hr row hrow pr h1 he
    obtain rfl := List.mem_singleton.mp hr
    simp only [waveRecord, List.mem_cons, List.not_mem_nil, or_false] at hrow
    rcases hrow with rfl | rfl <;> norm_num
  thresholds := by
    intro h
    simp [waveEvaluation] at h

theorem wave_evaluates (K : Constants) (lib : CoulombLibrary) (tables : InterpolationLibrary)
    (initialBreitWigner : Channel → Verif.BreitWigner.Cache)
    (initial : (g : SpinGroup) → MatrixCache g.channels.length) (a b : ℤ) :
    ∃ R m R', fromENDF K lib tables reactionLibrary initialBreitWigner initial 1 1 "n".toList "Cl35".toList
      (waveRange a b) = .ok R ∧ R.call K lib 10 = .ok (m, R') := by
  obtain ⟨R, hR, hcall⟩ := C70_accepted (K := K) (lib := lib) (tables := tables)
    (initialBreitWigner := initialBreitWigner) (initial := initial) (range := waveRange a b) ⟨rfl, rfl⟩ rfl rfl
    (wave_physical a b)
  obtain ⟨⟨m, R'⟩, hv⟩ := hcall 10 (by
    intro row hrow
    simp only [waveEvaluation, flagRows, List.mem_cons, List.not_mem_nil, or_false] at hrow
    rcases hrow with rfl | rfl <;> norm_num [neutronPair]) (by
    intro record hr v hv _
    obtain rfl := List.mem_singleton.mp hr
    obtain rfl := List.mem_singleton.mp hv
    exact ⟨0, _, 1, rfl, ⟨_, rfl, rfl⟩, rfl, one_ne_zero⟩)
  exact ⟨R, m, R', hR, hv⟩

/-- With equal flags the cross sections of the example are those of the evaluation. -/
example (K : Constants) (lib : CoulombLibrary) (tables : InterpolationLibrary)
    (initialBreitWigner : Channel → Verif.BreitWigner.Cache)
    (initial : (g : SpinGroup) → MatrixCache g.channels.length) (a : ℤ) :
    ∃ R m R' row pair gs, fromENDF K lib tables reactionLibrary initialBreitWigner initial 1 1 "n".toList
      "Cl35".toList (waveRange a a) = .ok R ∧ R.call K lib 10 = .ok (m, R') ∧ row ∈ flagRows a a ∧
      IsRMatrix K lib pair (ParticlePairRow.q row) [photonPair, neutronPair] (waveEvaluation a a) 10 gs
        (fun id => m (.inl id)) := by
  obtain ⟨R, m, R', h1, h2⟩ := wave_evaluates K lib tables initialBreitWigner initial a a
  have hp := wave_physical a a
  obtain ⟨i, row, pair, gs, h3, -, -, h4, -⟩ := C70_partial h1 rfl hp.described hp.distinct (by
    intro x hx y hy hxa
    simp only [waveEvaluation, flagRows, List.mem_cons, List.not_mem_nil, or_false] at hx hy
    rcases hx with rfl | rfl <;> rcases hy with rfl | rfl <;> exact hxa) (fun row hrow _ => hp.neutral row hrow)
    hp.ordered hp.groups (by norm_num [waveRange]) h2
  exact ⟨R, m, R', row, pair, gs, h1, h2, List.mem_of_getElem? h3, h4⟩

/-- The capture of the example. -/
theorem wave_capture {a b : ℤ} {g : RGroup}
    (h : IsRGroup K lib neutronPair [photonPair, neutronPair] (waveEvaluation a b) 10 waveRecord g) :
    ∃ ρ : ℝ, 0 < ρ ∧ ρ = Real.sqrt (2 * (35 / 36) * (35 / 36 * 10)) / K.hbar * (1 / 2) ∧
      g.capture K 10 = 4 * (ρ ^ 3 / (1 + ρ ^ 2))
        / ((1 + ρ ^ 3 / (1 + ρ ^ 2)) ^ 2 + (if b = 0 then 0 else -1 / (1 + ρ ^ 2)) ^ 2) := by
  obtain ⟨n, channel, elim, own, P, S, φ, levels⟩ := g
  have hn : n = 2 := by
    have := h.channels.length_eq
    rw [List.length_ofFn] at this
    exact this.symm
  subst hn
  have hch := h.channels
  rw [show (List.ofFn channel) = [channel 0, channel 1] by rw [List.ofFn_succ, List.ofFn_succ]; rfl] at hch
  obtain ⟨hc0, hch⟩ := List.forall₂_cons.mp hch
  obtain ⟨hc1, -⟩ := List.forall₂_cons.mp hch
  have hlev := h.levels
  dsimp only at hlev
  cases levels with
  | nil => cases hlev
  | cons v rest =>
  obtain ⟨hv, hrest⟩ := List.forall₂_cons.mp hlev
  cases hrest
  obtain ⟨e, w⟩ := v
  obtain ⟨he, hw⟩ := hv
  dsimp only at he hw
  subst he
  have hred : ∀ i : Fin 2, w i = 1 := by
    intro i
    obtain ⟨x, h1, h2⟩ := hw i
    unfold IsRWidth at h2
    rw [if_pos (by simp [waveEvaluation])] at h2
    rw [h2]
    fin_cases i <;> exact (Option.some.inj h1).symm
  obtain ⟨f0, -⟩ := h.flags (0 : Fin 2) _ _ rfl rfl
  obtain ⟨f1, o1⟩ := h.flags (1 : Fin 2) _ _ rfl rfl
  dsimp only at f0 f1 o1
  have he0 : elim 0 := f0.mpr rfl
  have he1 : ¬ elim 1 := fun h' => by
    have := f1.mp h'
    norm_num at this
  have hp0 : (channel 0).pair = photonPair := (Option.some.inj hc0.pair).symm
  have hp1 : (channel 1).pair = neutronPair := (Option.some.inj hc1.pair).symm
  obtain ⟨row, r1, hq, htype⟩ := hc1.reaction
  obtain rfl := Option.some.inj r1
  have hq : (channel 1).q = 0 := hq
  have htype : (channel 1).type = .neutron := by
    refine isType_unique htype (.neutral ?_ ?_)
    · norm_num
    · rw [hp1]
      norm_num [neutronPair]
  have hi1 : (channel 1).pair.id = (channel 1).incident.id := by rw [hp1, hc1.incident]
  have htake : (RGroup.mk 2 channel elim own P S φ [⟨10, w⟩]).TakesPart (1 : Fin 2) := ⟨he1, .inl hi1⟩
  obtain ⟨hP0, hP⟩ := h.penetrability (1 : Fin 2) htake
  have hS := h.shiftFactor (1 : Fin 2) htake
  have hwave : channelWave K (channel 1) 10 = Real.sqrt (2 * (35 / 36) * (35 / 36 * 10)) / K.hbar := by
    unfold channelWave
    rw [hp1, hc1.incident, hq]
    norm_num [neutronPair]
  have hl : (channel 1).numbers.l = 1 := hc1.l
  obtain ⟨rp, rs, -⟩ := hc1.radii 10
  set ρ : ℝ := Real.sqrt (2 * (35 / 36) * (35 / 36 * 10)) / K.hbar * (1 / 2) with hρ
  have hρ0 : 0 < ρ := by
    have := K.hbar_pos
    rw [hρ]
    positivity
  unfold PenetrabilityAt at hP
  dsimp only at hP
  rw [htype] at hP
  dsimp only at hP
  obtain ⟨-, a', a1, a2⟩ := hP
  rw [rp] at a1
  obtain rfl := Except.ok.inj a1
  dsimp only at a2
  rw [hwave, hl] at a2
  have hPv : P 1 = ρ ^ 3 / (1 + ρ ^ 2) := by
    rw [a2]
    simp only [hardSphere]
    rw [← hρ]
    norm_num
    ring
  have hSv : b ≠ 0 → S 1 = -1 / (1 + ρ ^ 2) := by
    intro hb
    have hS := hS (fun h' => hb (o1.mp h'))
    unfold ShiftFactorAt at hS
    dsimp only at hS
    rw [htype] at hS
    dsimp only at hS
    obtain ⟨a', a1, a2⟩ := hS
    rw [rs] at a1
    obtain rfl := Except.ok.inj a1
    dsimp only at a2
    rw [hwave, hl] at a2
    rw [a2]
    simp only [hardSphere]
    rw [← hρ]
    have : 0 < 1 + ρ ^ 2 := by positivity
    norm_num
    field_simp
    ring
  refine ⟨ρ, hρ0, rfl, ?_⟩
  refine (capture_two (L := if b = 0 then 0 else -1 / (1 + ρ ^ 2)) he0 he1 (hred 0) (hred 1) ?_ hi1 ?_ hP0
    ?_).trans ?_
  · rw [hp0, hc0.incident]
    simp [photonPair, neutronPair]
  · rw [hc1.incident, hq]
    norm_num [neutronPair]
  · by_cases hb : b = 0
    · exact .inl ⟨o1.mpr hb, if_pos hb⟩
    · refine .inr ⟨fun h' => hb (o1.mp h'), ?_⟩
      rw [if_neg hb, hSv hb, hc1.boundary]
      simp
  · show 4 * P 1 / ((1 + P 1) ^ 2 + _ ^ 2) = _
    rw [hPv]

/-- At no value of the constants are the cross sections of the example those of its evaluation, if the
flags are 0 for the capture pair and 1 for the elastic one. -/
theorem wave_differs {R R' : Reconstructor} {m : ReactionMap}
    (hR : fromENDF K lib tables reactionLibrary initialBreitWigner initial 1 1 "n".toList "Cl35".toList
      (waveRange 0 1) = .ok R) (hm : R.call K lib 10 = .ok (m, R')) :
    ¬ ∃ (i : ℕ) (row : ParticlePairRow) (pair : ParticlePair) (gs : List RGroup),
      (waveEvaluation 0 1).pairs[i]? = some row ∧ row.mt = 2 ∧ [photonPair, neutronPair][i]? = some pair ∧
      IsRMatrix K lib pair row.q [photonPair, neutronPair] (waveEvaluation 0 1) 10 gs
        (fun id => m (.inl id)) ∧ ∀ id, m (.inr id) = none := by
  have hpair : ∀ {b : ℤ} (i : ℕ) (row : ParticlePairRow) (pair : ParticlePair),
      (waveEvaluation 0 b).pairs[i]? = some row → row.mt = 2 → [photonPair, neutronPair][i]? = some pair →
      row.q = 0 ∧ pair = neutronPair := by
    intro b i row pair h1 h2 h3
    match i with
    | 0 =>
      simp only [waveEvaluation, flagRows, List.getElem?_cons_zero, Option.some.injEq] at h1
      subst h1
      norm_num at h2
    | 1 =>
      simp only [waveEvaluation, flagRows, List.getElem?_cons_succ, List.getElem?_cons_zero,
        Option.some.injEq] at h1 h3
      subst h1
      exact ⟨rfl, h3.symm⟩
    | i + 2 => simp at h3
  have hvalue : ∀ {b : ℤ} {gs : List RGroup},
      IsRMatrix K lib neutronPair 0 [photonPair, neutronPair] (waveEvaluation 0 b) 10 gs
        (fun id => m (.inl id)) →
      ∃ g, IsRGroup K lib neutronPair [photonPair, neutronPair] (waveEvaluation 0 b) 10 waveRecord g ∧
        m (.inl (.transition neutronPair.id "capture".toList)) = some
          (Real.pi / (2 * neutronPair.reducedMass * |neutronPair.massRatio * 10 + 0| / K.hbar ^ 2)
            * groupFactor neutronPair waveRecord * g.capture K 10) := by
    intro b gs h
    have hg := h.groups
    cases hg with
    | cons h1 h2 =>
    cases h2
    refine ⟨_, h1, h.capture.trans ?_⟩
    simp [waveEvaluation]
  rintro ⟨i, row, pair, gs, h1, h2, h3, h4, -⟩
  obtain ⟨hq, rfl⟩ := hpair i row pair h1 h2 h3
  rw [hq] at h4
  obtain ⟨g, hg, hv⟩ := hvalue h4
  have hR0 : fromENDF K lib tables reactionLibrary initialBreitWigner initial 1 1 "n".toList "Cl35".toList
      (waveRange 0 0) = .ok R := by
    rw [← hR]
    exact C70_flags (range := waveRange 0 1) (fun _ => 0) rfl (by
      intro row hrow
      simp only [waveEvaluation, flagRows, List.head?_cons, Option.mem_def, Option.some.injEq] at hrow
      subst hrow
      rfl)
  have hp := wave_physical 0 0
  obtain ⟨i, row, pair, gs', h1', h2', h3', h4', -⟩ := C70_partial hR0 rfl hp.described hp.distinct (by
    intro x _ y hy _
    simp only [waveEvaluation, flagRows, List.mem_cons, List.not_mem_nil, or_false] at hy
    rcases hy with rfl | rfl <;> rfl) (fun row hrow _ => hp.neutral row hrow)
    hp.ordered hp.groups (by norm_num [waveRange]) hm
  obtain ⟨hq', rfl⟩ := hpair i row pair h1' h2' h3'
  rw [hq'] at h4'
  obtain ⟨g', hg', hv'⟩ := hvalue h4'
  have heq := Option.some.inj (hv.symm.trans hv')
  have hfactor : Real.pi / (2 * neutronPair.reducedMass * |neutronPair.massRatio * 10 + 0| / K.hbar ^ 2)
      * (groupFactor neutronPair waveRecord : ℝ) ≠ 0 := by
    have := K.hbar_pos
    have := Real.pi_pos
    have h5 : groupFactor neutronPair waveRecord = 5 / 8 := by
      norm_num [groupFactor, neutronPair, waveRecord]
    rw [h5]
    norm_num [neutronPair]
    exact K.hbar_pos.ne'
  have heq := mul_left_cancel₀ hfactor heq
  obtain ⟨ρ, hρ, hρe, hc⟩ := wave_capture hg
  obtain ⟨ρ', hρ', hρe', hc'⟩ := wave_capture hg'
  obtain rfl : ρ = ρ' := hρe.trans hρe'.symm
  rw [hc, hc', if_neg one_ne_zero, if_pos rfl] at heq
  have hP : 0 < ρ ^ 3 / (1 + ρ ^ 2) := by positivity
  have hS : 0 < (-1 / (1 + ρ ^ 2)) ^ 2 := by
    have : (1 + ρ ^ 2) ≠ 0 := by positivity
    have : -1 / (1 + ρ ^ 2) ≠ 0 := div_ne_zero (by norm_num) this
    positivity
  generalize ρ ^ 3 / (1 + ρ ^ 2) = P at heq hP
  generalize (-1 / (1 + ρ ^ 2)) ^ 2 = S at heq hS
  rw [div_eq_div_iff (by positivity) (by positivity)] at heq
  nlinarith [mul_pos hP hS]

end Example

/-- C70 does not hold: with the flags 0 and 1 for the capture and the elastic pair, the elastic channel gets
the shift factor as its boundary condition although the evaluation gives the number zero. -/
theorem C70_disproved : ¬ C70_claim := by
  intro h
  let K : Constants := ⟨1, 1, one_pos, one_pos⟩
  let lib : CoulombLibrary := fun _ _ _ => .error .throws
  let none : Unresolved.Interpolation := fun _ _ => .error .throws
  let tables : InterpolationLibrary := ⟨none, none, none, none, none, fun _ => .error .throws⟩
  let initial : (g : SpinGroup) → MatrixCache g.channels.length := fun _ => ⟨0, 0, 0⟩
  let initialBreitWigner : Channel → Verif.BreitWigner.Cache := fun _ => ⟨[], [], [], [], [], []⟩
  obtain ⟨R, m, R', hR, hm⟩ := Example.wave_evaluates K lib tables initialBreitWigner initial 0 1
  have hp := Example.wave_physical 0 1
  refine Example.wave_differs hR hm (h _ _ _ _ _ _ _ _ _ _ _ _ _ _ _ _ _ hR rfl hp.described hp.distinct
    (fun row hrow _ => hp.neutral row hrow) (by norm_num [Example.waveRange]) hm)

end Verif.Endf
